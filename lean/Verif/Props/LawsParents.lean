import Verif.Props.LawsStart
import Verif.Props.LawsResample
import Verif.Props.LawsMinimal

/-!
# The laws of first particles from parents and of the posterior of ABC-SMC: C218, C219
-/

namespace Props.LawsSmc

set_option linter.unusedSectionVars false

open Py Spec Model MeasureTheory Props.LawsAbc Props.LawsResample ProbabilityTheory

variable {S Θ T P H : Type} [MeasurableSpace S] [MeasurableSpace Θ]

theorem mass_single (p : List (XR ℝ)) (i : ℕ) (hi : i < p.length) : mass (indexed p) {i} = prob p[i] := by
  induction p generalizing i with
  | nil => cases hi
  | cons w p ih =>
    rw [indexed_cons, mass_cons, mass_map (· + 1)]
    cases i with
    | zero =>
      rw [if_pos (Set.mem_singleton _), show (fun x : ℕ => x + 1) ⁻¹' {0} = ∅ by ext; simp]
      simp [mass]
    | succ i =>
      rw [if_neg (by simp), zero_add, show (fun x : ℕ => x + 1) ⁻¹' {i + 1} = {i} by ext; simp]
      exact ih i (by simpa using hi)

theorem forall_single {n : ℕ} (f : Fin n → ℕ) (is : List ℕ) :
    List.Forall₂ (fun i A => i ∈ A) is (List.ofFn (fun k => ({f k} : Set ℕ))) ↔ is = List.ofFn f := by
  have e : List.ofFn (fun k => ({f k} : Set ℕ)) = (List.ofFn f).map (fun i => ({i} : Set ℕ)) := by
    rw [List.map_ofFn]; rfl
  rw [e, List.forall₂_map_right_iff]
  exact List.forall₂_eq_eq_eq ▸ Iff.rfl

theorem select_length {hs : List H} {is : List ℕ} {out : List H} (h : select hs is = .ok out) :
    is.length = out.length := by
  have := congrArg List.length ((Props.Resample.select_ok _ _ _).1 h)
  simpa using this.symm

theorem select_in {hs : List H} {is : List ℕ} {out : List H} (h : select hs is = .ok out) :
    ∀ i ∈ is, i < hs.length := by
  intro i hi
  have h1 := (Props.Resample.select_ok _ _ _).1 h
  have h2 : hs[i]? ∈ out.map some := h1.symm ▸ List.mem_map.2 ⟨i, hi, rfl⟩
  obtain ⟨x, -, hx⟩ := List.mem_map.1 h2
  exact (List.getElem?_eq_some_iff.1 hx.symm).1

/-- Indices are drawn, and then something of known chance is done with what they point at. -/
theorem picked_law {μ : Measure S} {r : Rand S ℝ} (hr : FairPick μ r) {p : List (XR ℝ)} (hv : validProbs p = true)
    (hs : List H) (hl : hs.length = p.length) (n : ℕ) (F : List H → S → S → Prop) (c : List H → ENNReal)
    (hF : ∀ out, out.length = n → (∀ h ∈ out, h ∈ hs) → Chance μ (F out) (c out))
    (hn : ∀ out m s', F out m s' → out.length = n) :
    Chance μ (fun s s' => ∃ is out m, r.choice p n s = (.ok is, m) ∧ select hs is = .ok out ∧ F out m s')
      (∑ f : Fin n → Fin hs.length, (∏ k, prob (p[(f k : ℕ)]'(hl ▸ (f k).2))) * c (List.ofFn (fun k => hs[f k]))) := by
  have h := Props.Laws.chance_exists (ι := Fin n → Fin hs.length)
    (E := fun f s s' => ∃ m, r.pick p n s = (List.ofFn (fun k => (f k : ℕ)), m) ∧ F (List.ofFn (fun k => hs[f k])) m s')
    (p := fun f => (∏ k, prob (p[(f k : ℕ)]'(hl ▸ (f k).2))) * c (List.ofFn (fun k => hs[f k]))) (by
      intro f
      have h1 := hr p hv (List.ofFn (fun k => ({(f k : ℕ)} : Set ℕ)))
      rw [List.map_ofFn, List.prod_ofFn] at h1
      have e : ∀ k, (mass (indexed p) ∘ fun k => ({(f k : ℕ)} : Set ℕ)) k = prob (p[(f k : ℕ)]'(hl ▸ (f k).2)) :=
        fun k => mass_single p _ _
      rw [Finset.prod_congr rfl (fun k _ => e k)] at h1
      refine (h1.comp (hF _ (by simp) (by
        intro h hm
        rw [List.mem_ofFn] at hm
        obtain ⟨k, rfl⟩ := hm
        exact List.getElem_mem _))).congr (fun s s' => ?_)
      simp only [List.length_ofFn, forall_single (fun k => (f k : ℕ))]
      constructor
      · rintro ⟨m, ⟨is, h2, rfl⟩, h3⟩; exact ⟨m, h2, h3⟩
      · rintro ⟨m, h2, h3⟩; exact ⟨m, ⟨_, h2, rfl⟩, h3⟩) (by
      rintro f g s m m' ⟨a, h1, -⟩ ⟨b, h2, -⟩
      rw [h1] at h2
      have h3 := List.ofFn_injective (Prod.mk.inj h2).1
      funext k
      exact Fin.ext (congrFun h3 k))
  rw [tsum_fintype] at h
  refine h.congr (fun s s' => ?_)
  have hsel : ∀ f : Fin n → Fin hs.length,
      select hs (List.ofFn (fun k => (f k : ℕ))) = .ok (List.ofFn (fun k => hs[f k])) := by
    intro f
    rw [Props.Resample.select_ok, List.map_ofFn, List.map_ofFn]
    congr 1
    funext k
    simp
  simp only [Rand.choice, hv, if_true]
  constructor
  · rintro ⟨f, m, h1, h2⟩
    exact ⟨_, _, m, congrArg (fun x => ((Except.ok x.1 : Result (List ℕ)), x.2)) h1, hsel f, h2⟩
  · rintro ⟨is, out, m, h1, h2, h3⟩
    simp only [Prod.mk.injEq, Except.ok.injEq] at h1
    have h4 : is.length = n := (select_length h2).trans (hn _ _ _ h3)
    subst h4
    have h5 : is = List.ofFn (fun k : Fin is.length => is[k]) := by simp
    refine ⟨fun k => ⟨is[k], select_in h2 _ (List.getElem_mem _)⟩, m, Prod.ext (h1.1.trans h5) h1.2, ?_⟩
    have h6 := hsel (fun k => ⟨is[k], select_in h2 _ (List.getElem_mem _)⟩)
    simp only [] at h6
    rw [← h5, h2] at h6
    rw [← Except.ok.inj h6]
    exact h3

theorem prod_sum_lists (hs : List H) (q : List ENNReal) (hl : hs.length = q.length) {G : Type} (As : List G)
    (g : H → G → ENNReal) :
    (∑ f : Fin As.length → Fin hs.length, (∏ k, (q[(f k : ℕ)]'(hl ▸ (f k).2))) *
      (List.ofFn (fun k => g hs[f k] As[k])).prod) =
    (As.map (fun A => ((hs.zip q).map (fun x => x.2 * g x.1 A)).sum)).prod := by
  have e1 : (As.map (fun A => ((hs.zip q).map (fun x => x.2 * g x.1 A)).sum)).prod =
      ∏ k : Fin As.length, ∑ i : Fin hs.length, (q[(i : ℕ)]'(hl ▸ i.2)) * g hs[i] As[k] := by
    have : As.map (fun A => ((hs.zip q).map (fun x => x.2 * g x.1 A)).sum) =
        List.ofFn (fun k : Fin As.length => ∑ i : Fin hs.length, (q[(i : ℕ)]'(hl ▸ i.2)) * g hs[i] As[k]) := by
      conv_lhs => rw [← List.ofFn_getElem (xs := As), List.map_ofFn]
      congr 1
      funext k
      have h2 : (hs.zip q).map (fun x => x.2 * g x.1 As[k]) =
          List.ofFn (fun i : Fin hs.length => (q[(i : ℕ)]'(hl ▸ i.2)) * g hs[i] As[k]) := by
        apply List.ext_getElem
        · simp [hl]
        · intro i h3 h4
          simp
      simp only [Function.comp_apply]
      rw [← List.sum_ofFn, ← h2]
      rfl
    rw [this, List.prod_ofFn]
  rw [e1, Finset.prod_univ_sum, Fintype.piFinset_univ]
  refine Finset.sum_congr rfl (fun f _ => ?_)
  rw [List.prod_ofFn, ← Finset.prod_mul_distrib]

/-- As before, where what is done with each is independent of the others. -/
theorem picked_each {μ : Measure S} {r : Rand S ℝ} (hr : FairPick μ r) {p : List (XR ℝ)} (hv : validProbs p = true)
    (hs : List H) (hl : hs.length = p.length) {G : Type} (As : List G) (F : List H → S → S → Prop) (g : H → G → ENNReal)
    (hF : ∀ out, out.length = As.length → (∀ h ∈ out, h ∈ hs) →
      Chance μ (F out) (((out.zip As).map (fun a => g a.1 a.2)).prod))
    (hn : ∀ out m s', F out m s' → out.length = As.length) :
    Chance μ (fun s s' => ∃ is out m, r.choice p As.length s = (.ok is, m) ∧ select hs is = .ok out ∧ F out m s')
      ((As.map (fun A => ((hs.zip (p.map prob)).map (fun x => x.2 * g x.1 A)).sum)).prod) := by
  have h := picked_law hr hv hs hl As.length F (fun out => ((out.zip As).map (fun a => g a.1 a.2)).prod) hF hn
  rw [← prod_sum_lists hs (p.map prob) (by simpa using hl) As g]
  have e : ∀ f : Fin As.length → Fin hs.length,
      (((List.ofFn (fun k => hs[f k])).zip As).map (fun a => g a.1 a.2)) = List.ofFn (fun k => g hs[f k] As[k]) := by
    intro f
    apply List.ext_getElem
    · simp
    · intro i h3 h4
      simp
  simp only [e] at h
  simpa using h

theorem forall_zip {α β γ : Type} {R : β → γ → Prop} {bs : List β} {out : List α} {As : List γ}
    (hl : out.length = As.length) : List.Forall₂ (fun b (a : α × γ) => R b a.2) bs (out.zip As) ↔ List.Forall₂ R bs As := by
  have e : (out.zip As).map Prod.snd = As := List.map_snd_zip (by omega)
  conv_rhs => rw [← e, List.forall₂_map_right_iff]

theorem zip_share (l : List H) (c : ENNReal) (g : H → ENNReal) :
    ((l.zip (List.replicate l.length c)).map (fun x => x.2 * g x.1)).sum = (l.map g).sum * c := by
  induction l with
  | nil => simp
  | cons a l ih =>
    rw [List.length_cons, List.replicate_succ, List.zip_cons_cons, List.map_cons, List.sum_cons, ih, List.map_cons,
      List.sum_cons, add_mul, mul_comm c]

/-- **C218**: with parents, each of the first particles of `initialise` is drawn independently from the mixture, with the
same share for every parent, of the priors that follow the parent, each conditioned on a finite distance. -/
theorem C218 {μ : Measure S} (env : SmcEnv S Θ T P ℝ) (hr : FairPick μ env.rng) {set : SmcSettings ℝ} (ps : List P)
    (hps : ps ≠ []) (L : P → Measure Θ) [∀ p, IsProbabilityMeasure (L p)]
    (hP : ∀ p ∈ ps, Draws μ (fun s x s' => env.priorFrom p s = (.ok x, s')) (L p))
    (hm : MeasurableSet {x | (env.dist x).isInf = false}) (As : List (Set Θ)) (hA : ∀ A ∈ As, MeasurableSet A)
    (hlen : As.length = set.nIter) (hn : As ≠ []) :
    Chance μ (fun s s' => ∃ st, Ends (fun f => Smc.initialise env set f (some ps)) s st s' ∧
        List.Forall₂ (fun p A => p.val ∈ A) st.pts As ∧
        st.wts = List.replicate As.length (.fin (1 / (As.length : ℝ))))
      ((As.map (fun A => (ps.map (fun p => (L p)[|{x | (env.dist x).isInf = false}] A)).sum / ps.length)).prod) := by
  have hne : set.nIter ≠ 0 := by
    rw [← hlen]
    exact fun h => hn (List.length_eq_zero_iff.1 h)
  have hp0 : (0 : ℝ) < ps.length := by exact_mod_cast List.length_pos_iff.2 hps
  have hv : validProbs (List.replicate ps.length (XR.fin (1 / (ps.length : ℝ)))) = true := by
    have h1 := share_valid (ws := List.replicate ps.length (1 : ℝ)) (fun w hw => by
      rw [List.eq_of_mem_replicate hw]; exact zero_le_one) (by simpa using hp0)
    rw [List.map_replicate, List.sum_replicate, nsmul_eq_mul, mul_one] at h1
    exact h1
  let sam : P → Nat → Run S (XR ℝ × Θ × Nat) := fun p0 f => sampleFin { env.toSimEnv with prior := env.priorFrom p0 } f 0
  have hmono : ∀ p0, Mono (fun f => sam p0 f) := fun p0 =>
    (fin_rejects { env.toSimEnv with prior := env.priorFrom p0 }).mono 0
  have h := picked_each hr hv ps (by simp) As
    (fun out m s' => ∃ rs, Ends (fun f => Run.each (fun p0 => sam p0 f) out) m rs s' ∧
      List.Forall₂ (fun r A => r.2.1 ∈ A) rs As)
    (fun p A => (L p)[|{x | (env.dist x).isInf = false}] A) (by
      intro out hl hin
      have h1 := each_law (μ := μ) (x := fun f p0 => sam p0 f) hmono (out.zip As) (fun r a => r.2.1 ∈ a.2)
        (fun a => (L a.1)[|{x | (env.dist x).isInf = false}] a.2) (by
          intro a ha
          have h2 := (List.of_mem_zip ha)
          have h3 := (fin_rejects { env.toSimEnv with prior := env.priorFrom a.1 }).law (P := L a.1) (μ := μ)
            (hP _ (hin _ h2.1)) hm a.2 (hA _ h2.2)
          refine h3.congr (fun s s' => ?_)
          constructor
          · rintro ⟨x, hx, di, k, h4⟩; exact ⟨_, h4, hx⟩
          · rintro ⟨⟨di, x, k⟩, h4, hx⟩; exact ⟨x, hx, di, k, h4⟩)
      rw [List.map_fst_zip (by omega)] at h1
      refine h1.congr (fun s s' => ?_)
      simp only [forall_zip (R := fun (r : XR ℝ × Θ × Nat) (A : Set Θ) => r.2.1 ∈ A) hl]) (by
      rintro out m s' ⟨rs, ⟨f, h1⟩, h2⟩
      rw [← h2.length_eq]
      exact (Run.each_ok h1).length_eq)
  have e : ∀ A : Set Θ, ((ps.zip ((List.replicate ps.length (XR.fin (1 / (ps.length : ℝ)))).map prob)).map
      (fun x => x.2 * (L x.1)[|{x | (env.dist x).isInf = false}] A)).sum =
      (ps.map (fun p => (L p)[|{x | (env.dist x).isInf = false}] A)).sum / ps.length := by
    intro A
    have h1 : prob (XR.fin (1 / (ps.length : ℝ))) = (ps.length : ENNReal)⁻¹ := by
      rw [prob, one_div, ENNReal.ofReal_inv_of_pos hp0, ENNReal.ofReal_natCast]
    rw [List.map_replicate, h1]
    rw [div_eq_mul_inv]
    exact zip_share ps _ (fun p => (L p)[|{x | (env.dist x).isInf = false}] A)
  simp only [e] at h
  refine h.congr (fun s s' => ?_)
  constructor
  · rintro ⟨is, out, m, h1, h2, rs, ⟨f, h3⟩, h4⟩
    refine ⟨_, ⟨f, Run.bind_ok.2 ⟨rs, s', Run.bind_ok.2 ⟨out, m, ?_, h3⟩, by rw [if_neg hne]; rfl⟩⟩, ?_, by rw [hlen]; rfl⟩
    · unfold Smc.pickParents
      rw [if_neg hne, ← hlen]
      exact Run.bind_ok.2 ⟨is, m, Run.lift_ok.2 h1, Run.ofResult_ok.2 ⟨h2, rfl⟩⟩
    · rw [List.forall₂_map_left_iff]
      exact h4
  · rintro ⟨st, ⟨f, h1⟩, h2, -⟩
    obtain ⟨rs, m, h3, h4⟩ := Run.bind_ok.1 h1
    rw [if_neg hne] at h4
    obtain ⟨rfl, rfl⟩ := Run.pure_ok.1 h4
    obtain ⟨out, m', h5, h6⟩ := Run.bind_ok.1 h3
    unfold Smc.pickParents at h5
    rw [if_neg hne] at h5
    obtain ⟨is, m'', h7, h8⟩ := Run.bind_ok.1 h5
    obtain ⟨h9, rfl⟩ := Run.ofResult_ok.1 h8
    refine ⟨is, out, _, by rw [hlen]; exact Run.lift_ok.1 h7, h9, rs, ⟨f, h6⟩, ?_⟩
    rw [List.forall₂_map_left_iff] at h2
    exact h2

/-- Two parents: after the first the three points have equal chances, after the second the first point has one half.  The
last point has an infinite distance. -/
noncomputable def twoParents : SmcEnv ℝ ℕ Unit Bool ℝ where
  prior := fun s => (.ok 0, s)
  dist := fun x => if x = 2 then .pinf else .fin 0
  flatten := fun _ s => (.ok (), s)
  rng := rand01
  priorFrom := fun b s => (.ok ((if b then third else half).pick s).1, ((if b then third else half).pick s).2)
  propose := fun _ x s => (.ok (some x), s)
  spread := fun _ _ s => (.ok (), s)

theorem twoParents_finite : {x | (twoParents.dist x).isInf = false} = ({0, 1} ∪ {x | 2 < x} : Set ℕ) := by
  ext x
  by_cases hx : x = 2
  · subst hx; simp [twoParents, XR.isInf]
  · simp only [twoParents, hx, if_false, Set.mem_ofPred_eq, Set.mem_union, Set.mem_insert_iff, Set.mem_singleton_iff,
      XR.isInf]
    simp; omega

/-- One particle from them: it is the first point with the chance (1/2 + 2/3) / 2. -/
example : Chance uniform01 (fun s s' => ∃ st,
      Ends (fun f => Smc.initialise twoParents ⟨1, false, 1 / 2, 1 / 2, 10, 10, 0⟩ f (some [true, false])) s st s' ∧
        List.Forall₂ (fun p A => p.val ∈ A) st.pts ([{0}] : List (Set ℕ)) ∧
        st.wts = List.replicate 1 (.fin (1 / ((1 : ℕ) : ℝ)))) (7 / 12) := by
  have hok : ∀ b : Bool, (if b then third else half).Ok := by
    intro b; cases b
    · exact half_ok
    · exact third_ok
  have hd0 : ∀ b : Bool, (if b then third else half).d = 0 := by intro b; cases b <;> simp [third, half]
  have : ∀ b : Bool, IsProbabilityMeasure ((if b then third else half).law) := fun b => ⟨by
    have h := (walk_proposes (w := third) (q := fun _ => if b then third else half) (fun _ => hok b) 0).all
    simpa [hd0] using h⟩
  have hd : ∀ b ∈ [true, false], Draws uniform01 (fun s x s' => twoParents.priorFrom b s = (.ok x, s'))
      ((if b then third else half).law) := by
    intro b _ A _
    have h := Row.chance (hok b) A
    rw [hd0, ENNReal.ofReal_zero, Set.indicator_zero, add_zero] at h
    refine h.congr (fun s s' => ?_)
    simp [twoParents]
  have h := C218 twoParents fair01 (set := ⟨1, false, 1 / 2, 1 / 2, 10, 10, 0⟩) [true, false] (by simp)
    (fun b => (if b then third else half).law) hd MeasurableSet.of_discrete [{0}] (fun A _ => MeasurableSet.of_discrete)
    rfl (by simp)
  have ht : third.law[|{x | (twoParents.dist x).isInf = false}] {0} = ENNReal.ofReal (1 / 2) := by
    rw [cond_apply MeasurableSet.of_discrete, twoParents_finite, Set.inter_eq_right.2 (by simp)]
    have h1 : third.law ({0, 1} ∪ {x | 2 < x} : Set ℕ) = ENNReal.ofReal (2 / 3) := by
      rw [show (2 / 3 : ℝ) = 1 / 3 + 1 / 3 by norm_num, ENNReal.ofReal_add (by norm_num) (by norm_num)]
      simp [Row.law, third]
    have h2 : third.law {0} = ENNReal.ofReal (1 / 3) := by simp [Row.law, third]
    rw [h1, h2, ← ENNReal.ofReal_inv_of_pos (by norm_num), ← ENNReal.ofReal_mul (by norm_num)]
    norm_num
  have hh : half.law[|{x | (twoParents.dist x).isInf = false}] {0} = ENNReal.ofReal (2 / 3) := by
    rw [cond_apply MeasurableSet.of_discrete, twoParents_finite, Set.inter_eq_right.2 (by simp)]
    have h1 : half.law ({0, 1} ∪ {x | 2 < x} : Set ℕ) = ENNReal.ofReal (3 / 4) := by
      rw [show (3 / 4 : ℝ) = 1 / 2 + 1 / 4 by norm_num, ENNReal.ofReal_add (by norm_num) (by norm_num)]
      simp [Row.law, half]
    have h2 : half.law {0} = ENNReal.ofReal (1 / 2) := by simp [Row.law, half]
    rw [h1, h2, ← ENNReal.ofReal_inv_of_pos (by norm_num), ← ENNReal.ofReal_mul (by norm_num)]
    norm_num
  have e : (([{0}] : List (Set ℕ)).map (fun A => ([true, false].map (fun b : Bool =>
      (if b then third else half).law[|{x | (twoParents.dist x).isInf = false}] A)).sum /
        ([true, false].length : ENNReal))).prod = 7 / 12 := by
    simp only [List.map_cons, List.map_nil, List.sum_cons, List.sum_nil, List.prod_cons, List.prod_nil, if_true, ht,
      Bool.false_eq_true, if_false, hh, mul_one, add_zero, List.length_cons, List.length_nil]
    rw [← ENNReal.ofReal_add (by norm_num) (by norm_num), show (((0 + 1 + 1 : ℕ) : ENNReal)) = ENNReal.ofReal 2 by simp,
      ← ENNReal.ofReal_div_of_pos (by norm_num), show (7 / 12 : ENNReal) = ENNReal.ofReal (7 / 12) by
        rw [ENNReal.ofReal_div_of_pos (by norm_num)]; simp]
    norm_num
  rw [e] at h
  exact h

/-- A particle with its distance noted, outside of parallel mode, always ends its mutation, if not all proposals are
refused: after 20 infinite distances its own note is used. -/
theorem mutation_noted {μ : Measure S} {env : SmcEnv S Θ T P ℝ} {tau : T} {pt : Pt Θ} (hc : pt.cached = true)
    {Q : Measure Θ} {r : ENNReal} (h : Proposes μ env tau pt.val Q r) (h1 : r ≠ 1)
    (hm : MeasurableSet {y | (env.dist y).isInf = true}) :
    Chance μ (fun s s' => ∃ b, Ends (fun f => Smc.sampleMutation env false tau pt f 0) s b s') 1 := by
  have hstep : ∀ n f s, Smc.sampleMutation env false tau pt (f + 1) n s = match env.propose tau pt.val s with
      | (.error e, s') => some (.error e, s')
      | (.ok none, s') => Smc.sampleMutation env false tau pt f n s'
      | (.ok (some y), s') => if 20 < n + 1 then some (.ok (env.dist pt.val, pt, n + 1), s')
        else if (env.dist y).isInf then Smc.sampleMutation env false tau pt f (n + 1) s'
        else some (.ok (env.dist y, ⟨y, true⟩, n + 1), s') := by
    intro n f s
    rcases h : env.propose tau pt.val s with ⟨_ | _ | y, m⟩
    · simp only [Smc.sampleMutation, Run.bind_apply, Run.lift, h]
    · simp only [Smc.sampleMutation, Run.bind_apply, Run.lift, h]
    · simp only [Smc.sampleMutation, Run.bind_apply, Run.lift, h]
      by_cases h20 : 20 < n + 1
      · rw [if_pos h20, if_pos h20, if_neg (by simp [hc])]; rfl
      · rw [if_neg h20, if_neg h20]
        split <;> rfl
  have hex : ∀ n s s', (∃ b, Ends (fun f => Smc.sampleMutation env false tau pt f n) s b s') ↔
      ∃ k y m, After env tau pt.val k s y m ∧ (((20 ≤ n ∨ (env.dist y).isInf = false) ∧ m = s') ∨
        (n < 20 ∧ (env.dist y).isInf = true ∧
          ∃ b, Ends (fun f => Smc.sampleMutation env false tau pt f (n + 1)) m b s')) := by
    intro n s s'
    constructor
    · rintro ⟨b, f, h⟩
      induction f generalizing s with
      | zero => cases h
      | succ f ih =>
        simp only [hstep] at h
        rcases hp : env.propose tau pt.val s with ⟨_ | _ | y, m⟩
        · rw [hp] at h; cases h
        · rw [hp] at h
          obtain ⟨k, y, m', h1, h2⟩ := ih _ h
          exact ⟨k + 1, y, m', ⟨m, hp, h1⟩, h2⟩
        · rw [hp] at h
          simp only at h
          refine ⟨0, y, m, hp, ?_⟩
          by_cases h20 : 20 < n + 1
          · rw [if_pos h20] at h
            cases h
            exact Or.inl ⟨Or.inl (by omega), rfl⟩
          · rw [if_neg h20] at h
            split at h
            · rename_i hi
              exact Or.inr ⟨by omega, hi, b, f, h⟩
            · rename_i hi
              cases h
              exact Or.inl ⟨Or.inr (by simpa using hi), rfl⟩
    · rintro ⟨k, y, m, h1, h3⟩
      induction k generalizing s with
      | zero =>
        simp only [After] at h1
        by_cases h20 : 20 < n + 1
        · rcases h3 with ⟨-, rfl⟩ | ⟨h4, -⟩
          · exact ⟨_, 1, by simp only [hstep, h1, if_pos h20]; rfl⟩
          · omega
        · rcases h3 with ⟨h4 | h4, rfl⟩ | ⟨-, h4, b, f, h5⟩
          · omega
          · exact ⟨_, 1, by simp only [hstep, h1, if_neg h20, h4]; rfl⟩
          · exact ⟨b, f + 1, by simp only [hstep, h1, if_neg h20, h4, if_true]; exact h5⟩
      | succ k ih =>
        obtain ⟨m', h4, h5⟩ := h1
        obtain ⟨b, f, hf⟩ := ih _ h5
        exact ⟨b, f + 1, by simp only [hstep, h4]; exact hf⟩
  have hlaw := after_law h
  have hone : ((1 - r)⁻¹ • Q) Set.univ = 1 := by
    have h2 : Q Set.univ = 1 - r := by
      rw [← h.all, ENNReal.add_sub_cancel_right]
      intro hr
      have := h.all
      rw [hr] at this
      simp at this
    rw [Measure.smul_apply, smul_eq_mul, h2]
    refine ENNReal.inv_mul_cancel ?_ (by simp)
    intro h3
    exact h1 (le_antisymm (h.all ▸ le_add_self) (tsub_eq_zero_iff_le.1 h3))
  have hgen : ∀ k n, n + k = 20 →
      Chance μ (fun s s' => ∃ b, Ends (fun f => Smc.sampleMutation env false tau pt f n) s b s') 1 := by
    intro k
    induction k with
    | zero =>
      intro n hn
      have h2 := hlaw _ MeasurableSet.univ
      rw [hone] at h2
      refine h2.congr (fun s s' => ?_)
      rw [hex]
      constructor
      · rintro ⟨y, -, k, h3⟩; exact ⟨k, y, s', h3, Or.inl ⟨Or.inl (by omega), rfl⟩⟩
      · rintro ⟨k, y, m, h3, ⟨-, rfl⟩ | ⟨h4, -⟩⟩
        · exact ⟨y, trivial, k, h3⟩
        · omega
    | succ k ih =>
      intro n hn
      have h2 := (hlaw _ hm.compl).or ((hlaw _ hm).comp (ih (n + 1) (by omega))) (by
        rintro s m m' ⟨y, hy, k, h4⟩ ⟨m1, ⟨y', hy', k', h5⟩, -⟩
        obtain ⟨-, rfl, -⟩ := h4.unique h5
        exact hy hy')
      have hadd : ((1 - r)⁻¹ • Q) {y | (env.dist y).isInf = true}ᶜ + ((1 - r)⁻¹ • Q) {y | (env.dist y).isInf = true} = 1 := by
        rw [add_comm, measure_add_measure_compl hm, hone]
      rw [mul_one, hadd] at h2
      refine h2.congr (fun s s' => ?_)
      rw [hex]
      constructor
      · rintro (⟨y, hy, j, h4⟩ | ⟨m, ⟨y, hy, j, h4⟩, h5⟩)
        · exact ⟨j, y, s', h4, Or.inl ⟨Or.inr (by simpa using hy), rfl⟩⟩
        · exact ⟨j, y, m, h4, Or.inr ⟨by omega, hy, h5⟩⟩
      · rintro ⟨j, y, m, h4, ⟨h5 | h5, rfl⟩ | ⟨-, h5, h6⟩⟩
        · omega
        · exact Or.inl ⟨y, by simp [h5], j, h4⟩
        · exact Or.inr ⟨m, ⟨y, h5, j, h4⟩, h6⟩
  exact hgen 20 0 rfl

/-- **C219**: the particles `sample_posteriors` returns are drawn independently, each with its share of the total of the
positive weights, times the chance that a mutation of it ends.  What the mutations give is not used. -/
theorem C219 {μ : Measure S} (env : SmcEnv S Θ T P ℝ) (hr : FairPick μ env.rng) (set : SmcSettings ℝ)
    (st : SmcState Θ ℝ) (ws : List ℝ) (hw : st.wts = ws.map XR.fin) (hl : st.pts.length = ws.length)
    (hpos : ∃ w ∈ ws, 0 < w) {tau : T} (hτ : ∀ s, (env.spread (st.pts.map Pt.val) st.wts s).1 = .ok tau)
    (hτ' : Chance μ (fun s s' => (env.spread (st.pts.map Pt.val) st.wts s).2 = s') 1) (c : Pt Θ → ENNReal)
    (hc : ∀ pt ∈ st.pts, Chance μ (fun s s' => ∃ b, Ends (fun f => Smc.sampleMutation env set.parallel tau pt f 0) s b s')
      (c pt)) (As : List (Set (Pt Θ))) :
    Chance μ (fun s s' => ∃ out, Ends (fun f => Smc.samplePosteriors env set f (some st) As.length) s out s' ∧
        List.Forall₂ (fun p A => p ∈ A) out As)
      ((As.map (fun A => ((st.pts.zip ws).map (fun x => A.indicator c x.1 * ENNReal.ofReal x.2)).sum /
        (ws.map ENNReal.ofReal).sum)).prod) := by
  have h0 : ∀ u ∈ ws.map (fun w => max w 0), 0 ≤ u := by
    intro u hu
    obtain ⟨v, -, rfl⟩ := List.mem_map.1 hu
    exact le_max_right _ _
  have hm : (ws.map (fun w => max w 0)).map ENNReal.ofReal = ws.map ENNReal.ofReal := by
    rw [List.map_map]
    refine List.map_congr_left (fun w _ => ?_)
    rcases le_total w 0 with h | h
    · simp [h, ENNReal.ofReal_of_nonpos h]
    · simp [h]
  have hps := positive_sum ws hpos
  have h := picked_each hr (share_valid h0 hps) st.pts (by simpa using hl) As
    (fun out m s' => ∃ bs, Ends (fun f => Run.each (fun pt => Smc.sampleMutation env set.parallel tau pt f 0) out)
      (env.spread (st.pts.map Pt.val) st.wts m).2 bs s' ∧ List.Forall₂ (fun p A => p ∈ A) out As)
    (fun p A => A.indicator c p) (by
      intro out hlen hin
      have h1 := each_law (μ := μ) (x := fun f pt => Smc.sampleMutation env set.parallel tau pt f 0)
        (fun pt => mutation_mono env set.parallel tau pt 0) (out.zip As) (fun _ a => a.1 ∈ a.2)
        (fun a => a.2.indicator c a.1) (by
          intro a ha
          have h2 := (List.of_mem_zip ha)
          by_cases h3 : a.1 ∈ a.2
          · rw [Set.indicator_of_mem h3]
            refine (hc _ (hin _ h2.1)).congr (fun s s' => ?_)
            simp only [h3, and_true]
          · rw [Set.indicator_of_notMem h3]
            exact Chance.never (fun s s' ⟨b, _, h4⟩ => h3 h4))
      rw [List.map_fst_zip (by omega)] at h1
      have h2 := hτ'.comp h1
      rw [one_mul] at h2
      refine h2.congr (fun s s' => ?_)
      have h5 : ∀ bs : List (XR ℝ × Pt Θ × ℕ), bs.length = out.length →
          (List.Forall₂ (fun _ (a : Pt Θ × Set (Pt Θ)) => a.1 ∈ a.2) bs (out.zip As) ↔
            List.Forall₂ (fun p A => p ∈ A) out As) := by
        intro bs hb
        have h6 : bs.length = As.length := hb.trans hlen
        clear h1 h2 hin hb
        induction out generalizing bs As with
        | nil =>
          cases As with
          | nil =>
            cases bs with
            | nil => exact ⟨fun _ => .nil, fun _ => .nil⟩
            | cons _ _ => cases h6
          | cons _ _ => cases hlen
        | cons a out ih =>
          cases As with
          | nil => cases hlen
          | cons A As =>
            cases bs with
            | nil => cases h6
            | cons b bs =>
              have h7 := ih As (by simpa using hlen) bs (by simpa using h6)
              rw [List.zip_cons_cons, List.forall₂_cons, List.forall₂_cons]
              exact and_congr Iff.rfl h7
      constructor
      · rintro ⟨m, rfl, bs, h3, h4⟩
        obtain ⟨f, h6⟩ := id h3
        exact ⟨bs, h3, (h5 bs (Run.each_ok h6).length_eq.symm).1 h4⟩
      · rintro ⟨bs, h3, h4⟩
        obtain ⟨f, h6⟩ := id h3
        exact ⟨_, rfl, bs, h3, (h5 bs (Run.each_ok h6).length_eq.symm).2 h4⟩) (by
      rintro out m s' ⟨bs, -, h2⟩
      exact h2.length_eq)
  have e : ∀ A : Set (Pt Θ), ((st.pts.zip (((ws.map (fun w => max w 0)).map
      (fun u => XR.fin (u / (ws.map (fun w => max w 0)).sum))).map prob)).map (fun x => x.2 * A.indicator c x.1)).sum =
      ((st.pts.zip ws).map (fun x => A.indicator c x.1 * ENNReal.ofReal x.2)).sum / (ws.map ENNReal.ofReal).sum := by
    intro A
    rw [← hm, sum_ofReal _ h0]
    generalize (ws.map (fun w => max w 0)).sum = t at hps
    rw [div_eq_mul_inv, ← List.sum_map_mul_right]
    congr 1
    apply List.ext_getElem
    · simp
    · intro i h2 h3
      simp only [List.getElem_map, List.getElem_zip, prob]
      rw [ENNReal.ofReal_div_of_pos hps, div_eq_mul_inv]
      have : ENNReal.ofReal (max (ws[i]'(by simp at h3; omega)) 0) = ENNReal.ofReal (ws[i]'(by simp at h3; omega)) := by
        rcases le_total (ws[i]'(by simp at h3; omega)) 0 with h | h
        · simp [h, ENNReal.ofReal_of_nonpos h]
        · simp [h]
      rw [this]
      ring
  simp only [e] at h
  refine h.congr (fun s s' => ?_)
  have hs : ∀ s, env.spread (st.pts.map Pt.val) st.wts s = (.ok tau, (env.spread (st.pts.map Pt.val) st.wts s).2) :=
    fun s => by rw [← hτ s]
  have hout : ∀ (out : List (Pt Θ)) (bs : List (XR ℝ × Pt Θ × ℕ)), out.length = bs.length →
      (out.zip (bs.map (·.2.1))).map (fun p => if XR.lt (env.dist p.2.val) st.eps then p.1 else p.1) = out := by
    intro out bs hb
    simp only [ite_self]
    exact List.map_fst_zip (by simp [hb])
  constructor
  · rintro ⟨is, out, m, h1, h2, bs, ⟨f, h3⟩, h4⟩
    refine ⟨out, ⟨f, ?_⟩, h4⟩
    refine Run.bind_ok.2 ⟨is, m, Run.lift_ok.2 (by rw [hw, indWts_eq ws hpos]; exact h1), ?_⟩
    refine Run.bind_ok.2 ⟨out, m, Run.ofResult_ok.2 ⟨(take_select _ _).trans h2, rfl⟩, ?_⟩
    refine Run.bind_ok.2 ⟨tau, _, Run.lift_ok.2 (hs m), Run.bind_ok.2 ⟨bs, s', h3, ?_⟩⟩
    exact Run.pure_ok.2 ⟨hout out bs (Run.each_ok h3).length_eq, rfl⟩
  · rintro ⟨out, ⟨f, h1⟩, h2⟩
    obtain ⟨is, m, h3, h4⟩ := Run.bind_ok.1 h1
    obtain ⟨th, m', h5, h6⟩ := Run.bind_ok.1 h4
    obtain ⟨h7, rfl⟩ := Run.ofResult_ok.1 h5
    obtain ⟨tau', m1, h8, h9⟩ := Run.bind_ok.1 h6
    have h10 := Run.lift_ok.1 h8
    rw [hs] at h10
    simp only [Prod.mk.injEq, Except.ok.injEq] at h10
    obtain ⟨rfl, rfl⟩ := h10
    obtain ⟨bs, m2, h11, h12⟩ := Run.bind_ok.1 h9
    obtain ⟨h13, rfl⟩ := Run.pure_ok.1 h12
    rw [hout th bs (Run.each_ok h11).length_eq] at h13
    subst h13
    refine ⟨is, th, _, ?_, (take_select _ _).symm.trans h7, bs, ⟨f, h11⟩, h2⟩
    have h14 := Run.lift_ok.1 h3
    rw [hw, indWts_eq ws hpos] at h14
    exact h14

/-- **C219** (ends): for a particle that is not noted, or in parallel mode, the chance that a mutation ends is that of
a finite distance within 20 proposals; for a noted one outside of parallel mode it is one. -/
theorem C219_ends {μ : Measure S} {env : SmcEnv S Θ T P ℝ} {parallel : Bool} {tau : T} {pt : Pt Θ} {Q : Measure Θ}
    {r : ENNReal} (h : Proposes μ env tau pt.val Q r) (h1 : r ≠ 1)
    (hm : MeasurableSet {y | (env.dist y).isInf = true}) :
    Chance μ (fun s s' => ∃ b, Ends (fun f => Smc.sampleMutation env parallel tau pt f 0) s b s')
      (if parallel || !pt.cached then mutLaw ((1 - r)⁻¹ • Q) {y | (env.dist y).isInf = true} 20 Set.univ else 1) := by
  by_cases hc : (parallel || !pt.cached) = true
  · rw [if_pos hc]
    refine (C208_mutation hc h hm _ MeasurableSet.univ).congr (fun s s' => ?_)
    constructor
    · rintro ⟨y, -, d, c, n, h2⟩; exact ⟨_, h2⟩
    · rintro ⟨⟨d, ⟨y, c⟩, n⟩, h2⟩; exact ⟨y, trivial, d, c, n, h2⟩
  · rw [if_neg hc]
    simp only [Bool.or_eq_true, Bool.not_eq_true', not_or, Bool.not_eq_true, Bool.not_eq_false] at hc
    rw [hc.1]
    exact mutation_noted hc.2 h h1 hm

/-- Two particles of weights 1/4 and 3/4, and one with a negative weight, which is never returned. -/
noncomputable def weighted : SmcState ℕ ℝ :=
  ⟨[.fin (1 / 4), .fin (3 / 4), .fin (-1)], [⟨0, true⟩, ⟨1, false⟩, ⟨2, false⟩], 1, 0, .fin 2, 1, .fin 1, .fin 1, 0⟩

/-- The second and then the first are returned with the chance 3/4 * 1/4. -/
example : Chance uniform01 (fun s s' => ∃ out,
      Ends (fun f => Smc.samplePosteriors (walk third steps) ⟨2, false, 1 / 2, 1 / 2, 10, 10, 0⟩ f (some weighted) 2) s out s' ∧
        List.Forall₂ (fun p A => p ∈ A) out ([{⟨1, false⟩}, {⟨0, true⟩}] : List (Set (Pt ℕ)))) (3 / 16) := by
  have hne : ∀ x, ENNReal.ofReal (steps x).d ≠ 1 := by
    intro x
    unfold steps
    split
    · simp
    · simp only []
      rw [← ENNReal.ofReal_one, ne_eq, ENNReal.ofReal_eq_ofReal_iff (by norm_num) (by norm_num)]
      norm_num
  have hc : ∀ pt ∈ weighted.pts, Chance uniform01 (fun s s' => ∃ b,
      Ends (fun f => Smc.sampleMutation (walk third steps) false () pt f 0) s b s') 1 := by
    intro pt _
    have hp := walk_proposes (w := third) (q := steps) steps_ok pt.val
    have h := C219_ends (parallel := false) hp (hne _) MeasurableSet.of_discrete
    have e : mutLaw ((1 - ENNReal.ofReal (steps pt.val).d)⁻¹ • (steps pt.val).law)
        {y | ((walk third steps).dist y).isInf = true} 20 Set.univ = 1 := by
      have hb : {y | ((walk third steps).dist y).isInf = true} = (∅ : Set ℕ) := by
        ext y; simp [walk, XR.isInf]
      rw [mutLaw_finite hb, Measure.smul_apply, smul_eq_mul, ← ENNReal.add_sub_cancel_right
        (a := (steps pt.val).law Set.univ) (b := ENNReal.ofReal (steps pt.val).d) ENNReal.ofReal_ne_top, hp.all]
      refine ENNReal.inv_mul_cancel ?_ (by simp)
      intro h3
      exact hne _ (le_antisymm (hp.all ▸ le_add_self) (tsub_eq_zero_iff_le.1 h3))
    rw [e, ite_self] at h
    exact h
  have h := C219 (walk third steps) fair01 ⟨2, false, 1 / 2, 1 / 2, 10, 10, 0⟩ weighted [1 / 4, 3 / 4, -1] rfl rfl
    ⟨1 / 4, by simp, by norm_num⟩ (tau := ()) (fun _ => rfl) (Chance.refl.congr (fun s s' => Iff.rfl)) (fun _ => 1) hc
    [{⟨1, false⟩}, {⟨0, true⟩}]
  have hone : ENNReal.ofReal (1 / 4) + ENNReal.ofReal (3 / 4) = 1 := by
    rw [← ENNReal.ofReal_add (by norm_num) (by norm_num)]; norm_num
  have e : (([{⟨1, false⟩}, {⟨0, true⟩}] : List (Set (Pt ℕ))).map (fun A =>
      ((weighted.pts.zip [1 / 4, 3 / 4, -1]).map (fun x => A.indicator (fun _ => (1 : ENNReal)) x.1 *
        ENNReal.ofReal x.2)).sum / ([1 / 4, 3 / 4, -1].map ENNReal.ofReal).sum)).prod = 3 / 16 := by
    have h0 : ENNReal.ofReal (-1) = 0 := ENNReal.ofReal_of_nonpos (by norm_num)
    simp only [weighted, List.zip_cons_cons, List.map_cons, List.map_nil, List.sum_cons, List.sum_nil, List.prod_cons,
      List.prod_nil, h0, add_zero, hone, div_one, mul_one, Set.indicator_apply, Set.mem_singleton_iff, Pt.mk.injEq,
      List.zip_nil_right, mul_zero]
    norm_num
    rw [← ENNReal.ofReal_mul (by norm_num), show (3 / 16 : ENNReal) = ENNReal.ofReal (3 / 16) by
        rw [ENNReal.ofReal_div_of_pos (by norm_num)]; simp]
    norm_num
  rw [e] at h
  exact h

end Props.LawsSmc
