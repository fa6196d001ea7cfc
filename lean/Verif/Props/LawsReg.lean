import Verif.Props.LawsResample
import Verif.Props.Regression
import Verif.Lemmas.Tables
import Mathlib.MeasureTheory.Constructions.Pi
import Mathlib.MeasureTheory.Measure.Prod

/-!
# The laws of samples of times, and of predicted classes: C236 - C237
-/

namespace Props.LawsReg

set_option linter.unusedSectionVars false

open Py Spec Model MeasureTheory ProbabilityTheory

/-! ## Samples of times to event -/

/-- The numbers of one call of a source with the law `P`. -/
noncomputable def sampleLaw (P : Measure ℝ) (n : ℕ) : Measure (Fin n → ℝ) := Measure.pi (fun _ => P)

/-- The times returned are all later than those given. -/
def Later {n : ℕ} (t : Fin n → ℝ) (r : Result (Drawn ℝ)) : Prop :=
  ∃ xs : List ℝ, r = .ok (.many xs) ∧ xs.length = n ∧ ∀ i : Fin n, ∃ x, xs[i.1]? = some x ∧ t i < x

theorem later_iff {d : HazardDist} {n : ℕ} (hn : 1 < n) (t e : Fin n → ℝ) :
    Later t (d.sample n (List.ofFn e)) ↔ ∀ i, t i < d.haz.invCumHazard (e i) := by
  have hs : d.sample n (List.ofFn e) = .ok (.many ((List.ofFn e).map d.haz.invCumHazard)) := by
    simp [HazardDist.sample, show ¬ n ≤ 1 by omega]
  unfold Later
  rw [hs]
  constructor
  · rintro ⟨xs, hx, -, h⟩ i
    cases hx
    obtain ⟨x, h1, h2⟩ := h i
    simp only [List.getElem?_map, List.getElem?_ofFn, i.2, dif_pos, Option.map_some, Option.some.injEq] at h1
    rwa [← h1] at h2
  · intro h
    refine ⟨_, rfl, by simp, fun i => ⟨d.haz.invCumHazard (e i), ?_, h i⟩⟩
    simp [List.getElem?_ofFn, i.2]

theorem survival {d : HazardDist} (hp : Hazard.Positive d.haz) (hrr : 0 < d.rr) {t : ℝ} (ht : 0 ≤ t) :
    (expMeasure d.rr).real {e | t < d.haz.invCumHazard e} = Real.exp (-(d.rr * d.haz.cumHazard t)) := by
  rw [← (Hazard.C110 d hp hrr).2.2 t ht]
  congr 1
  ext e
  constructor
  · intro h; exact ⟨_, rfl, h⟩
  · rintro ⟨x, hx, htx⟩
    simp only [HazardDist.sample, le_refl, if_true, Except.ok.injEq, Drawn.one.injEq] at hx
    show t < d.haz.invCumHazard e
    rwa [hx]

/-- **C236**: the times of a sample are independent, each later than `t` with the chance `exp(-rr H(t))`. -/
theorem C236 (d : HazardDist) (hp : Hazard.Positive d.haz) (hrr : 0 < d.rr) {n : ℕ} (hn : 1 < n) (t : Fin n → ℝ)
    (ht : ∀ i, 0 ≤ t i) :
    (sampleLaw (expMeasure d.rr) n).real {e | Later t (d.sample n (List.ofFn e))} =
      ∏ i, Real.exp (-(d.rr * d.haz.cumHazard (t i))) := by
  have := isProbabilityMeasure_expMeasure hrr
  have e : {e : Fin n → ℝ | Later t (d.sample n (List.ofFn e))} =
      Set.pi Set.univ (fun i => {x | t i < d.haz.invCumHazard x}) := by
    ext e
    simp only [Set.mem_ofPred_eq, Set.mem_pi, Set.mem_univ, true_implies]
    exact later_iff hn t e
  rw [e, sampleLaw, measureReal_def, Measure.pi_pi, ENNReal.toReal_prod]
  exact Finset.prod_congr rfl (fun i _ => survival hp hrr (ht i))

example : (sampleLaw (expMeasure 1) 2).real {e | Later ![1, 2] ((HazardDist.mk (.exp 3) 1).sample 2 (List.ofFn e))} =
    Real.exp (-9) := by
  have h := C236 ⟨.exp 3, 1⟩ (by show (0 : ℝ) < 3; norm_num) one_pos (n := 2) (by norm_num) ![1, 2] (by
    intro i; fin_cases i <;> norm_num)
  refine h.trans ?_
  rw [Fin.prod_univ_two, ← Real.exp_add]
  norm_num [Hazard.cumHazard]

theorem later_zero_iff {d : ZeroHazardDist} {n : ℕ} (hn : 1 < n) {t : Fin n → ℝ} (ht : ∀ i, 0 ≤ t i) (u e : Fin n → ℝ) :
    Later t (d.sample n (List.ofFn u) (List.ofFn e)) ↔
      ∀ i, d.prob ≤ u i ∧ t i < d.dist.haz.invCumHazard (e i) := by
  have hd : d.dist.sample n (List.ofFn e) = .ok (.many ((List.ofFn e).map d.dist.haz.invCumHazard)) := by
    simp [HazardDist.sample, show ¬ n ≤ 1 by omega]
  have hs : d.sample n (List.ofFn u) (List.ofFn e) = .ok (.many (List.zipWith (fun p t => if p then 0 else t)
      ((List.ofFn u).map (fun u => decide (u < d.prob))) ((List.ofFn e).map d.dist.haz.invCumHazard))) := by
    rw [ZeroHazardDist.sample, hd]; rfl
  have hget : ∀ i : Fin n, (List.zipWith (fun (p : Bool) t => if p then 0 else t)
      ((List.ofFn u).map (fun u => decide (u < d.prob))) ((List.ofFn e).map d.dist.haz.invCumHazard))[i.1]? =
      some (if u i < d.prob then 0 else d.dist.haz.invCumHazard (e i)) := by
    intro i
    simp [List.getElem?_zipWith, List.getElem?_ofFn, i.2]
  unfold Later
  rw [hs]
  constructor
  · rintro ⟨xs, hx, -, h⟩ i
    cases hx
    obtain ⟨x, h1, h2⟩ := h i
    rw [hget i] at h1
    cases h1
    split at h2
    · exact absurd h2 (not_lt.2 (ht i))
    · rename_i hu
      exact ⟨not_lt.1 hu, h2⟩
  · intro h
    refine ⟨_, rfl, by simp, fun i => ⟨d.dist.haz.invCumHazard (e i), ?_, (h i).2⟩⟩
    rw [hget i, if_neg (not_lt.2 (h i).1)]

/-- **C236** (zero inflation): with an inflation by zeros the chance of each is `(1 - p) exp(-rr H(t))`. -/
theorem C236_zero (d : ZeroHazardDist) (hp : Hazard.Positive d.dist.haz) (hrr : 0 < d.dist.rr) (h0 : 0 ≤ d.prob)
    (h1 : d.prob ≤ 1) {n : ℕ} (hn : 1 < n) (t : Fin n → ℝ) (ht : ∀ i, 0 ≤ t i) :
    ((sampleLaw uniform01 n).prod (sampleLaw (expMeasure d.dist.rr) n)).real
        {ue | Later t (d.sample n (List.ofFn ue.1) (List.ofFn ue.2))} =
      ∏ i, ((1 - d.prob) * Real.exp (-(d.dist.rr * d.dist.haz.cumHazard (t i)))) := by
  have := isProbabilityMeasure_expMeasure hrr
  have e : {ue : (Fin n → ℝ) × (Fin n → ℝ) | Later t (d.sample n (List.ofFn ue.1) (List.ofFn ue.2))} =
      (Set.pi Set.univ (fun _ => {u | d.prob ≤ u})) ×ˢ Set.pi Set.univ (fun i => {x | t i < d.dist.haz.invCumHazard x}) := by
    ext ue
    simp only [Set.mem_ofPred_eq, Set.mem_prod, Set.mem_pi, Set.mem_univ, true_implies]
    rw [later_zero_iff hn ht]
    exact forall_and
  have hu : uniform01.real {u | d.prob ≤ u} = 1 - d.prob := by
    have hset : {u : ℝ | d.prob ≤ u} ∩ Set.Ico 0 1 = Set.Ico d.prob 1 := by
      ext u
      simp only [Set.mem_inter_iff, Set.mem_ofPred_eq, Set.mem_Ico]
      constructor
      · rintro ⟨a, -, c⟩; exact ⟨a, c⟩
      · rintro ⟨a, c⟩; exact ⟨a, by linarith, c⟩
    rw [uniform01, measureReal_restrict_apply (show MeasurableSet {u : ℝ | d.prob ≤ u} from measurableSet_Ici), hset,
      Real.volume_real_Ico_of_le h1]
  have : SigmaFinite (sampleLaw (expMeasure d.dist.rr) n) := by unfold sampleLaw; infer_instance
  rw [e, measureReal_def, Measure.prod_prod, ENNReal.toReal_mul, sampleLaw, sampleLaw, Measure.pi_pi, Measure.pi_pi,
    ENNReal.toReal_prod, ENNReal.toReal_prod, ← Finset.prod_mul_distrib]
  refine Finset.prod_congr rfl (fun i _ => ?_)
  rw [← survival hp hrr (ht i), ← hu]
  rfl

example : ((sampleLaw uniform01 2).prod (sampleLaw (expMeasure 1) 2)).real
    {ue | Later ![1, 2] ((ZeroHazardDist.mk (1 / 2) ⟨.exp 3, 1⟩).sample 2 (List.ofFn ue.1) (List.ofFn ue.2))} =
    1 / 4 * Real.exp (-9) := by
  have h := C236_zero ⟨1 / 2, ⟨.exp 3, 1⟩⟩ (by show (0 : ℝ) < 3; norm_num) one_pos (by norm_num) (by norm_num) (n := 2)
    (by norm_num) ![1, 2] (by intro i; fin_cases i <;> norm_num)
  refine h.trans ?_
  rw [Fin.prod_univ_two, show (-9 : ℝ) = -3 + -6 by norm_num, Real.exp_add]
  norm_num [Hazard.cumHazard]
  ring

/-! ## Predicted classes -/

section Classes
variable {S : Type} [MeasurableSpace S] {L : Type} [DecidableEq L]

theorem ps_valid (tx : Texts L) (m : Multinomial L) (xs : Dict L (Covariate L)) (ps : List ℝ)
    (h : m.expectation tx xs = .ok ps) (hne : ps ≠ []) :
    (∀ p ∈ ps, 0 ≤ p) ∧ ps.sum = 1 ∧ validProbs (ps.map XR.fin) = true := by
  obtain ⟨-, hpos, hsum⟩ := (Regression.C116 tx xs).2.2 m ps h
  exact ⟨fun p hp => (hpos p hp).le, hsum hne, Regression.validProbs_fin (fun p hp => (hpos p hp).le) (hsum hne)⟩

/-- **C237**: a multinomial regression predicts a label in a set with the sum of the expected shares of the classes
that have a label in it. -/
theorem C237 {μ : Measure S} {r : Rand S ℝ} (hr : FairPick μ r)
    (hsize : ∀ p n s, validProbs p = true → (r.pick p n s).1.length = n) (tx : Texts L) (m : Multinomial L)
    (xs : Dict L (Covariate L)) (ps : List ℝ) (h : m.expectation tx xs = .ok ps) (hne : ps ≠ [])
    (hl : m.labels.length = ps.length) (A : Set L) :
    Chance μ (fun s s' => ∃ l ∈ A, m.predict tx r xs s = (.ok [l], s')) (mass (m.labels.zip (ps.map ENNReal.ofReal)) A) := by
  obtain ⟨-, -, hv⟩ := ps_valid tx m xs ps h hne
  have hlaw := LawsResample.choose_law hr hv m.labels (by simpa using hl) [A]
  have e : (ps.map XR.fin).map prob = ps.map ENNReal.ofReal := by rw [List.map_map]; rfl
  rw [e] at hlaw
  simp only [List.map_cons, List.map_nil, List.prod_cons, List.prod_nil, mul_one, List.length_cons, List.length_nil,
    zero_add] at hlaw
  refine hlaw.congr (fun s s' => ?_)
  have hp : m.predict tx r xs s = match r.choice (ps.map .fin) 1 s with
      | (.error e, s') => (.error e, s')
      | (.ok is, s') => (.ok (is.filterMap (m.labels[·]?)), s') := by
    unfold Multinomial.predict
    rw [h]
    simp only
    rw [if_neg (by simpa using hl)]
    rfl
  rw [hp]
  constructor
  · rintro ⟨is, out, h1, h2, h3⟩
    rw [Props.Resample.select_ok] at h2
    cases h3 with
    | @cons x _ l _ h4 h5 =>
      cases h5
      refine ⟨x, h4, ?_⟩
      rw [h1]
      cases is with
      | nil => simp at h2
      | cons i is =>
        simp only [List.map_cons, List.map_nil, List.cons.injEq, List.map_eq_nil_iff] at h2
        obtain ⟨h2, h6⟩ := h2
        have h6 : is = [] := List.map_eq_nil_iff.1 h6.symm
        subst h6
        simp [← h2]
  · rintro ⟨l, hA, he⟩
    rcases hc : r.choice (ps.map .fin) 1 s with ⟨_ | is, s1⟩ <;> rw [hc] at he
    · cases he
    · simp only [Prod.mk.injEq, Except.ok.injEq] at he
      have hlen := hsize _ 1 s hv
      have his : (r.pick (ps.map XR.fin) 1 s).1 = is := by
        simp only [Rand.choice, hv, if_true, Prod.mk.injEq, Except.ok.injEq] at hc
        exact hc.1
      rw [his] at hlen
      obtain ⟨i, rfl⟩ := List.length_eq_one_iff.1 hlen
      cases hi : m.labels[i]? with
      | none => simp [hi] at he
      | some x =>
        simp only [List.filterMap_cons, hi, List.filterMap_nil, List.cons.injEq, and_true] at he
        refine ⟨[i], [l], by rw [he.2], ?_, .cons hA .nil⟩
        rw [Props.Resample.select_ok]
        simp [hi, he.1]

theorem zip_table (ls : List L) (ps : List ℝ) (hn : ls.Nodup) (hl : ls.length = ps.length) :
    (ls.zip ps).foldl (fun (d : Dict L ℝ) p => d.set p.1 p.2) [] = ls.zip ps := by
  have h : ((ls.zip ps).map (fun p => p.1)).Nodup := by
    show ((ls.zip ps).map Prod.fst).Nodup
    rw [List.map_fst_zip (by omega)]
    exact hn
  have := Lemmas.Tables.foldl_set_nodup (fun p : L × ℝ => p.1) (fun p => p.2) (ls.zip ps) [] (by simpa using h)
  rw [this]
  simp

/-- **C237** (sampler): for distinct labels, `predict` and a draw from `get_sampler` give a label with the same chance, its expected share. -/
theorem C237_sampler {μ : Measure S} {r : Rand S ℝ} (hr : FairPick μ r)
    (hsize : ∀ p n s, validProbs p = true → (r.pick p n s).1.length = n) (tx : Texts L) (m : Multinomial L)
    (xs : Dict L (Covariate L)) (ps : List ℝ) (h : m.expectation tx xs = .ok ps)
    (hl : m.labels.length = ps.length) (hn : m.labels.Nodup) (i : ℕ) (l : L) (p : ℝ) (hi : m.labels[i]? = some l)
    (hp : ps[i]? = some p) :
    ∃ kv, m.samplerTable tx xs = .ok kv ∧
      Chance μ (fun s s' => catSample r (LawsResample.asNumpy kv) s = (.ok l, s')) (ENNReal.ofReal p) ∧
      Chance μ (fun s s' => m.predict tx r xs s = (.ok [l], s')) (ENNReal.ofReal p) := by
  have hne : ps ≠ [] := by rintro rfl; simp at hp
  obtain ⟨h0, hsum, hv⟩ := ps_valid tx m xs ps h hne
  have hkv : m.samplerTable tx xs = .ok (m.labels.zip ps) := by
    rw [Multinomial.samplerTable, h]
    show Except.ok _ = _
    rw [zip_table _ _ hn hl]
  have hwf : (show Dict L ℝ from m.labels.zip ps).WF := by
    show ((m.labels.zip ps).map Prod.fst).Nodup
    rw [List.map_fst_zip (by omega)]
    exact hn
  have hsnd : (m.labels.zip ps).map Prod.snd = ps := List.map_snd_zip (by omega)
  have hget : (show Dict L ℝ from m.labels.zip ps).get? l = some p := by
    refine Dict.get?_of_mem hwf ?_
    refine List.mem_of_getElem? (i := i) ?_
    rw [List.getElem?_zip_eq_some]
    exact ⟨hi, hp⟩
  refine ⟨m.labels.zip ps, hkv, ?_, ?_⟩
  · have := LawsResample.C206_draws hr hsize hwf (by
      intro q hq
      exact h0 _ (List.of_mem_zip hq).2) (by rw [hsnd, hsum]; exact one_pos) hget
    rwa [hsnd, hsum, div_one] at this
  · have := C237 hr hsize tx m xs ps h hne hl {l}
    have e : mass (m.labels.zip (ps.map ENNReal.ofReal)) {l} = ENNReal.ofReal p := by
      have := LawsResample.mass_key (show Dict L ℝ from m.labels.zip ps) hwf hget
      rwa [List.map_fst_zip (by omega), hsnd] at this
    rw [e] at this
    refine this.congr (fun s s' => ?_)
    simp

example : ∃ kv, Regression.exMulti.samplerTable Regression.plainTexts [] = .ok kv ∧ ∃ l,
    Chance uniform01 (fun s s' => catSample rand01 (LawsResample.asNumpy kv) s = (.ok l, s')) (ENNReal.ofReal (3 / 5)) ∧
    Chance uniform01 (fun s s' => Regression.exMulti.predict Regression.plainTexts rand01 [] s = (.ok [l], s'))
      (ENNReal.ofReal (3 / 5)) := by
  obtain ⟨kv, h1, h2, h3⟩ := C237_sampler fair01 (fun p n s _ => LawsResample.rand01_size p n s) Regression.plainTexts
    Regression.exMulti [] _ Regression.exMulti_expectation rfl (by decide +kernel) 1 _ _ rfl rfl
  exact ⟨kv, h1, _, h2, h3⟩

end Classes

end Props.LawsReg
