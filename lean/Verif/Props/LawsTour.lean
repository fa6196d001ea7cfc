import Verif.Props.LawsGa
import Verif.Props.LawsMinimal
import Mathlib.Data.Fintype.CardEmbedding

/-!
# The law of tournament selection: C214
-/

namespace Props.LawsTour

open Py Spec Model Model.Ga MeasureTheory Props.Ga Props.LawsGa

variable {S N P : Type} [DecidableEq N] [MeasurableSpace S]

/-- `choice(n, k, replace=False)`: all ways to draw `k` of `n` places one after the other are equally likely. -/
structure FairDistinct (μ : Measure S) (d : Nat → Nat → S → Result (List Nat) × S) : Prop where
  places : ∀ n k s, k ≤ n → ∃ f : Fin k ↪ Fin n, (d n k s).1 = .ok (List.ofFn (fun i => (f i : ℕ)))
  fair : ∀ n k, k ≤ n → ∀ f : Fin k ↪ Fin n,
    Chance μ (fun s s' => d n k s = (.ok (List.ofFn (fun i => (f i : ℕ))), s')) (n.descFactorial k : ENNReal)⁻¹

theorem card_below {n k : ℕ} (p : Fin n → Prop) [DecidablePred p] [Fintype {f : Fin k ↪ Fin n // ∀ i, p (f i)}] :
    Fintype.card {f : Fin k ↪ Fin n // ∀ i, p (f i)} =
      (Finset.univ.filter p).card.descFactorial k := by
  have e : {f : Fin k ↪ Fin n // ∀ i, p (f i)} ≃ (Fin k ↪ {j // p j}) :=
    { toFun := fun f => ⟨fun i => ⟨f.1 i, f.2 i⟩, fun a b h => f.1.injective (congrArg Subtype.val h)⟩
      invFun := fun g => ⟨⟨fun i => (g i).1, fun a b h => g.injective (Subtype.ext h)⟩, fun i => (g i).2⟩
      left_inv := fun f => rfl
      right_inv := fun g => rfl }
  rw [Fintype.card_congr e, Fintype.card_embedding_eq, Fintype.card_fin, Fintype.card_subtype]

theorem card_countP {α : Type} (l : List α) (p : α → Bool) :
    (Finset.univ.filter (fun j : Fin l.length => p l[j] = true)).card = l.countP p := by
  induction l with
  | nil => rfl
  | cons a l ih =>
    rw [List.countP_cons, ← ih]
    refine (Fin.card_filter_univ_succ' (n := l.length) (fun j => p (a :: l)[j] = true)).trans ?_
    rw [add_comm]
    congr 1

/-- The places chosen hold members. -/
theorem select_places {el : List P} {k : ℕ} (f : Fin k ↪ Fin el.length) :
    Model.select el (List.ofFn (fun i => (f i : ℕ))) = .ok (List.ofFn (fun i => el[f i])) := by
  rw [Props.Resample.select_ok]
  simp [List.map_ofFn, Function.comp_def]

theorem tournament_iff {env : GaEnv S N ℝ P} {k : ℕ} (hk : 0 < k) {m : Bool} {el : List P} {s s' : S} {w : P}
    {f : Fin k ↪ Fin el.length} (hf : (env.distinct el.length k s).1 = .ok (List.ofFn (fun i => (f i : ℕ))))
    (hfit : ∀ p ∈ el, (fitness env m p).isFinite = true) :
    tournament env k m el s = some (.ok w, s') → (env.distinct el.length k s).2 = s' ∧
      ∃ b, w = env.clone b ∧ b ∈ el ∧ ∀ c : ℝ, XR.le (fitness env m b) (.fin c) = true ↔
        ∀ i, XR.le (fitness env m el[f i]) (.fin c) = true := by
  intro h
  unfold tournament at h
  obtain ⟨is, s1, h1, h⟩ := Run.bind_ok.1 h
  obtain ⟨cs, s2, h2, h⟩ := Run.bind_ok.1 h
  obtain ⟨b, s3, h3, h⟩ := Run.bind_ok.1 h
  obtain ⟨rfl, rfl⟩ := Run.pure_ok.1 h
  have h1 := Run.lift_ok.1 h1
  rw [h1] at hf
  obtain rfl := Except.ok.inj hf
  obtain ⟨h4, rfl⟩ := Run.ofResult_ok.1 h2
  obtain ⟨h5, rfl⟩ := Run.ofResult_ok.1 h3
  rw [select_places] at h4
  obtain rfl := Except.ok.inj h4
  obtain ⟨m1, m2⟩ := maxBy_ok h5
  rw [List.mem_ofFn] at m1
  obtain ⟨j, rfl⟩ := m1
  refine ⟨by rw [h1], _, rfl, List.getElem_mem _, fun c => ?_⟩
  constructor
  · intro hc i
    have h4 := m2 el[f i] (List.mem_ofFn.2 ⟨i, rfl⟩)
    have f1 := hfit el[f i] (List.getElem_mem _)
    have f2 := hfit el[f j] (List.getElem_mem _)
    revert h4 f1 f2 hc
    generalize fitness env m el[f i] = x
    generalize fitness env m el[f j] = y
    intro hc h4 f1 f2
    cases x <;> cases y <;> simp [XR.isFinite, XR.lt, XR.le] at *
    linarith
  · intro hc
    exact hc j

theorem tournament_ends {env : GaEnv S N ℝ P} {k : ℕ} (hk : 0 < k) {m : Bool} {el : List P} {s : S}
    {f : Fin k ↪ Fin el.length} (hf : (env.distinct el.length k s).1 = .ok (List.ofFn (fun i => (f i : ℕ)))) :
    ∃ w, tournament env k m el s = some (.ok w, (env.distinct el.length k s).2) := by
  obtain ⟨k, rfl⟩ := Nat.exists_eq_succ_of_ne_zero hk.ne'
  have h : ∃ b, maxBy (fitness env m) (List.ofFn (fun i => el[f i])) = .ok b := by
    rw [List.ofFn_succ]; exact ⟨_, rfl⟩
  obtain ⟨b, hb⟩ := h
  refine ⟨env.clone b, ?_⟩
  unfold tournament
  exact Run.bind_ok.2 ⟨_, _, Run.lift_ok.2 (Prod.ext hf rfl), Run.bind_ok.2 ⟨_, _,
    Run.ofResult_ok.2 ⟨select_places f, rfl⟩, Run.bind_ok.2 ⟨b, _, Run.ofResult_ok.2 ⟨hb, rfl⟩, rfl⟩⟩⟩

theorem tournament_law {μ : Measure S} {env : GaEnv S N ℝ P} (hd : FairDistinct μ env.distinct) {k : ℕ} (hk : 0 < k)
    {m : Bool} {el : List P} (hl : k ≤ el.length) (hfit : ∀ p ∈ el, (fitness env m p).isFinite = true)
    (hcl : ∀ p, fitness env m (env.clone p) = fitness env m p) (c : ℝ) :
    Chance μ (fun s s' => ∃ w ∈ {w | XR.le (fitness env m w) (.fin c) = true}, tournament env k m el s = some (.ok w, s'))
      (((el.countP (fun p => XR.le (fitness env m p) (.fin c))).descFactorial k : ENNReal) /
        (el.length.descFactorial k : ENNReal)) := by
  classical
  have h := Props.Laws.chance_exists (ι := {f : Fin k ↪ Fin el.length // ∀ i, XR.le (fitness env m el[f i]) (.fin c) = true})
    (fun f => hd.fair _ _ hl f.1) (by
      intro f g s m m' h1 h2
      rw [h1] at h2
      have h3 := Except.ok.inj (Prod.mk.inj h2).1
      have h4 := List.ofFn_injective h3
      ext i
      exact congrFun h4 i)
  rw [tsum_fintype, Finset.sum_const, Finset.card_univ,
    card_below (fun j : Fin el.length => XR.le (fitness env m el[j]) (.fin c) = true),
    card_countP el (fun p => XR.le (fitness env m p) (.fin c)), nsmul_eq_mul, ← div_eq_mul_inv] at h
  refine h.congr (fun s s' => ?_)
  constructor
  · rintro ⟨f, h1⟩
    have hf : (env.distinct el.length k s).1 = .ok (List.ofFn (fun i => (f.1 i : ℕ))) := by rw [h1]
    obtain ⟨w, hw⟩ := tournament_ends hk (m := m) hf
    obtain ⟨-, b, rfl, h2, h3⟩ := tournament_iff hk hf hfit hw
    refine ⟨_, ?_, by rw [hw, h1]⟩
    rw [Set.mem_ofPred_eq, hcl]
    exact (h3 c).2 f.2
  · rintro ⟨w, h1, h2⟩
    obtain ⟨f, hf⟩ := hd.places _ _ s hl
    obtain ⟨h3, b, rfl, h4, h5⟩ := tournament_iff hk hf hfit h2
    rw [Set.mem_ofPred_eq, hcl] at h1
    exact ⟨⟨f, (h5 c).1 h1⟩, Prod.ext hf h3⟩

/-- **C214**: tournaments are independent, and the winner is no fitter than `c` with the probability that all of `k`
members drawn without replacement are no fitter. -/
theorem C214 {μ : Measure S} {env : GaEnv S N ℝ P} (hd : FairDistinct μ env.distinct) {k : ℕ} (hk : 0 < k) (m : Bool)
    (ps : List P) (hl : k < (eligible env ps).length)
    (hfit : ∀ p ∈ eligible env ps, (fitness env m p).isFinite = true)
    (hcl : ∀ p, fitness env m (env.clone p) = fitness env m p) (cs : List ℝ) (hc : cs.length = ps.length) :
    Chance μ (fun s s' => ∃ out, tour env k m ps s = some (.ok out, s') ∧
        List.Forall₂ (fun w c => XR.le (fitness env m w) (.fin c) = true) out cs)
      ((cs.map (fun c => (((eligible env ps).countP (fun p => XR.le (fitness env m p) (.fin c))).descFactorial k : ENNReal) /
        ((eligible env ps).length.descFactorial k : ENNReal))).prod) := by
  classical
  have h := times_chance (μ := μ) (x := tournament env k m (eligible env ps))
    (q := fun A => (((eligible env ps).countP (fun p => @decide (p ∈ A) (Classical.propDecidable _))).descFactorial k : ENNReal) /
      ((eligible env ps).length.descFactorial k : ENNReal))
    (cs.map (fun c => {w | XR.le (fitness env m w) (.fin c) = true})) (by
      intro A hA
      obtain ⟨c, -, rfl⟩ := List.mem_map.1 hA
      have h := tournament_law hd hk hl.le hfit hcl c
      simpa using h)
  rw [List.map_map, List.length_map, hc] at h
  have e : ∀ c : ℝ, (fun p => @decide (p ∈ {w | XR.le (fitness env m w) (.fin c) = true}) (Classical.propDecidable _)) =
      fun p => XR.le (fitness env m p) (.fin c) := by
    intro c; funext p; simp
  simp only [Function.comp_def, e] at h
  refine h.congr (fun s s' => ?_)
  have ht : tour env k m ps = Run.times ps.length (tournament env k m (eligible env ps)) := if_pos hl
  rw [ht]
  simp only [List.forall₂_map_right_iff]
  rfl

/-! ## An ideal generator, for the example -/

/-- The `j`-th way to draw `k` of `n` places. -/
noncomputable def way {n k : ℕ} (h : k ≤ n) (j : ℕ) : Fin k ↪ Fin n :=
  if hj : j < Fintype.card (Fin k ↪ Fin n) then (Fintype.equivFin (Fin k ↪ Fin n)).symm ⟨j, hj⟩ else Fin.castLEEmb h

/-- Equal chances. -/
noncomputable def evens (M : ℕ) : List ℝ := List.replicate M (1 / (M : ℝ))

/-- Draws of distinct places with the generator of the unit interval. -/
noncomputable def distinct01 (n k : ℕ) (s : ℝ) : Result (List ℕ) × ℝ :=
  if h : k ≤ n then
    (.ok (List.ofFn (fun i => (way h (pickOne (evens (Fintype.card (Fin k ↪ Fin n))) 0 s).1 i : ℕ))),
      (pickOne (evens (Fintype.card (Fin k ↪ Fin n))) 0 s).2)
  else (.error .ValueError, s)

theorem evens_mass (M : ℕ) (A : Set ℕ) (j : ℕ) (hj : j < M) (hA : ∀ i < M, i ∈ A ↔ i = j) :
    mass (indexed ((evens M).map XR.fin)) A = (M : ENNReal)⁻¹ := by
  classical
  have hM : (0 : ℝ) < M := by exact_mod_cast (Nat.zero_le j).trans_lt hj
  have e : indexed ((evens M).map XR.fin) = (List.range M).map (fun i => (i, (M : ENNReal)⁻¹)) := by
    unfold indexed evens
    rw [List.map_replicate, List.map_replicate, List.length_replicate]
    have : prob (.fin (1 / (M : ℝ))) = (M : ENNReal)⁻¹ := by
      rw [prob, one_div, ENNReal.ofReal_inv_of_pos hM, ENNReal.ofReal_natCast]
    rw [this]
    refine List.ext_getElem (by simp) (fun i h1 h2 => by simp)
  rw [e, mass, List.map_map]
  have : (List.range M).map ((fun x : ℕ × ENNReal => if x.1 ∈ A then x.2 else 0) ∘ fun i => (i, (M : ENNReal)⁻¹)) =
      (List.range M).map (fun i => if i = j then (M : ENNReal)⁻¹ else 0) := by
    refine List.map_congr_left (fun i hi => ?_)
    simp only [Function.comp_def, hA i (List.mem_range.1 hi)]
  rw [this, ← List.sum_toFinset _ List.nodup_range]
  simp [hj]

theorem fairDistinct01 : FairDistinct uniform01 distinct01 where
  places := by
    intro n k s h
    unfold distinct01
    rw [dif_pos h]
    exact ⟨_, rfl⟩
  fair := by
    intro n k h f
    have hM : Fintype.card (Fin k ↪ Fin n) = n.descFactorial k := by
      rw [Fintype.card_embedding_eq, Fintype.card_fin, Fintype.card_fin]
    have h0 : (0 : ℝ) < Fintype.card (Fin k ↪ Fin n) := by
      rw [hM]; exact_mod_cast Nat.descFactorial_pos.2 h
    have hp := pickOne_chance (ps := evens (Fintype.card (Fin k ↪ Fin n)))
      (fun p hp => by rw [List.eq_of_mem_replicate hp]; positivity)
      (by rw [evens, List.sum_replicate, nsmul_eq_mul]; field_simp) {j | way h j = f}
    rw [evens_mass _ _ (Fintype.equivFin _ f) (Fin.is_lt _) (by
      intro i hi
      rw [Set.mem_ofPred_eq, way, dif_pos hi, Equiv.symm_apply_eq, Fin.ext_iff]), hM] at hp
    refine hp.congr (fun s s' => ?_)
    unfold distinct01
    rw [dif_pos h, Prod.mk.injEq, Except.ok.injEq, List.ofFn_inj, hM]
    refine and_congr_left (fun _ => ?_)
    rw [Set.mem_ofPred_eq]
    constructor
    · intro e; rw [e]
    · intro e
      ext i
      exact congrFun e i

/-- Among four members of the fitnesses 0, 1, 2 and 3, both are no fitter than 2 with 6 of 12. -/
example : Chance uniform01 (fun s s' => ∃ out, tour { Props.LawsResample.numEnv with distinct := distinct01 } 2 true
      [0, 1, 2, 3] s = some (.ok out, s') ∧ List.Forall₂ (fun w c => XR.le (fitness { Props.LawsResample.numEnv with
        distinct := distinct01 } true w) (.fin c) = true) out [2, 3, 3, 3]) (6 / 12) := by
  have h := C214 (env := { Props.LawsResample.numEnv with distinct := distinct01 }) fairDistinct01 (k := 2) (by simp) true
    [0, 1, 2, 3] (by simp [eligible, Props.LawsResample.numEnv, XR.isFinite])
    (by simp [eligible, fitness, Props.LawsResample.numEnv, XR.isFinite])
    (fun p => rfl) [2, 3, 3, 3] rfl
  have e : eligible { Props.LawsResample.numEnv with distinct := distinct01 } [0, 1, 2, 3] = [0, 1, 2, 3] := by
    simp [eligible, Props.LawsResample.numEnv, XR.isFinite]
  rw [e] at h
  have e2 : ([0, 1, 2, 3] : List ℕ).countP (fun p => XR.le (fitness { Props.LawsResample.numEnv with
      distinct := distinct01 } true p) (.fin 2)) = 3 := by
    norm_num [List.countP_cons, fitness, Props.LawsResample.numEnv, XR.le]
  have e3 : ([0, 1, 2, 3] : List ℕ).countP (fun p => XR.le (fitness { Props.LawsResample.numEnv with
      distinct := distinct01 } true p) (.fin 3)) = 4 := by
    norm_num [List.countP_cons, fitness, Props.LawsResample.numEnv, XR.le]
  simp only [List.map_cons, List.map_nil, e2, e3, List.length_cons, List.length_nil, List.prod_cons, List.prod_nil] at h
  norm_num [Nat.descFactorial] at h
  have e4 : (12 / 12 : ENNReal) = 1 := ENNReal.div_self (by norm_num) (by norm_num)
  rw [e4, mul_one, mul_one, mul_one] at h
  exact h

end Props.LawsTour
