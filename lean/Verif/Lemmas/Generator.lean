import Verif.Lemmas.Chance

/-!
# The generator of the unit interval picks fairly
-/

namespace Spec

open MeasureTheory Py

variable {S : Type} [MeasurableSpace S]

theorem mass_nil {H : Type} (A : Set H) : mass [] A = 0 := by simp [mass]

open Classical in
theorem mass_cons {H : Type} (x : H × ENNReal) (l : List (H × ENNReal)) (A : Set H) :
    mass (x :: l) A = (if x.1 ∈ A then x.2 else 0) + mass l A := by simp [mass]

theorem mass_map {G H : Type} (f : G → H) (l : List (G × ENNReal)) (A : Set H) :
    mass (l.map (fun x => (f x.1, x.2))) A = mass l (f ⁻¹' A) := by
  induction l with
  | nil => simp [mass_nil]
  | cons x l ih => rw [List.map_cons, mass_cons, mass_cons, ih]; rfl

theorem indexed_cons (w : XR ℝ) (p : List (XR ℝ)) :
    indexed (w :: p) = (0, prob w) :: (indexed p).map (fun x => (x.1 + 1, x.2)) := by
  simp only [indexed, List.length_cons, List.map_cons, List.range_succ_eq_map, List.zip_cons_cons]
  congr 1
  rw [List.zip_map_left]
  rfl

theorem measurable_pickOne (ps : List ℝ) (c : ℝ) : Measurable (pickOne ps c) := by
  induction ps generalizing c with
  | nil => exact measurable_const.prodMk measurable_id
  | cons p ps ih =>
    refine Measurable.ite measurableSet_Iio ?_ ?_
    · exact measurable_const.prodMk ((measurable_id.sub_const c).div_const p)
    · exact ((measurable_from_nat (f := fun i : ℕ => i + 1)).comp (measurable_fst.comp (ih (c + p)))).prodMk
        (measurable_snd.comp (ih (c + p)))

theorem volume_pickOne (ps : List ℝ) (hp : ∀ p ∈ ps, 0 ≤ p) (c : ℝ) (hc : 0 ≤ c) (hs : c + ps.sum = 1) (A : Set ℕ)
    {B : Set ℝ} (hB : MeasurableSet B) :
    volume (pickOne ps c ⁻¹' (A ×ˢ B) ∩ Set.Ico c 1) = mass (indexed (ps.map XR.fin)) A * uniform01 B := by
  induction ps generalizing c A with
  | nil =>
    have : c = 1 := by simpa using hs
    simp [this, indexed, mass_nil]
  | cons p ps ih =>
    have h0 : 0 ≤ p := hp p (by simp)
    have h1 : 0 ≤ ps.sum := List.sum_nonneg (fun q hq => hp q (by simp [hq]))
    rw [List.sum_cons] at hs
    have hm := (measurable_pickOne (p :: ps) c) (A.to_countable.measurableSet.prod hB)
    have e : pickOne (p :: ps) c ⁻¹' (A ×ˢ B) ∩ Set.Ico c 1 =
        (pickOne (p :: ps) c ⁻¹' (A ×ˢ B) ∩ Set.Ico c (c + p)) ∪
        (pickOne (p :: ps) c ⁻¹' (A ×ˢ B) ∩ Set.Ico (c + p) 1) := by
      rw [← Set.inter_union_distrib_left, Set.Ico_union_Ico_eq_Ico (by linarith) (by linarith)]
    rw [e, measure_union _ (hm.inter measurableSet_Ico), List.map_cons, indexed_cons, mass_cons, mass_map (· + 1), add_mul]
    · congr 1
      · by_cases hp0 : p = 0
        · subst hp0
          simp [prob]
        · have hp1 : 0 < p := lt_of_le_of_ne h0 (Ne.symm hp0)
          by_cases hA : 0 ∈ A
          · have ha := (affine_chance (I := Set.Ico c (c + p)) measurableSet_Ico hp1
              (fun s _ _ => by simp [Set.mem_Ico]) hc (by linarith) B hB).2
            rw [if_pos hA]
            simp only [prob]
            rw [← ha, uniform01, Measure.restrict_apply]
            · congr 1
              ext s
              simp only [Set.mem_inter_iff, Set.mem_preimage, Set.mem_prod, Set.mem_Ico, Set.mem_ofPred_eq]
              constructor
              · rintro ⟨⟨-, h3⟩, h4, h5⟩
                simp only [pickOne, h5, if_true] at h3
                exact ⟨⟨_, h3, ⟨h4, h5⟩, rfl⟩, by linarith, by linarith⟩
              · rintro ⟨⟨s', h3, ⟨h4, h5⟩, rfl⟩, -⟩
                simp only [pickOne, h5, if_true]
                exact ⟨⟨hA, h3⟩, h4, trivial⟩
            · exact (affine_chance (I := Set.Ico c (c + p)) measurableSet_Ico hp1
                (fun s _ _ => by simp [Set.mem_Ico]) hc (by linarith) B hB).1
          · rw [if_neg hA, zero_mul]
            have : pickOne (p :: ps) c ⁻¹' (A ×ˢ B) ∩ Set.Ico c (c + p) = ∅ := by
              ext s
              simp only [Set.mem_inter_iff, Set.mem_preimage, Set.mem_prod, Set.mem_Ico, Set.mem_empty_iff_false, iff_false]
              rintro ⟨⟨h3, -⟩, -, h5⟩
              simp only [pickOne, h5, if_true] at h3
              exact hA h3
            rw [this, measure_empty]
      · rw [← ih (fun q hq => hp q (by simp [hq])) (c + p) (by linarith) (by linarith) ((· + 1) ⁻¹' A)]
        congr 1
        ext s
        simp only [Set.mem_inter_iff, Set.mem_preimage, Set.mem_prod, Set.mem_Ico]
        constructor
        · rintro ⟨h3, h4, h5⟩
          have : ¬ s < c + p := by linarith
          simp only [pickOne, this, if_false] at h3
          exact ⟨h3, h4, h5⟩
        · rintro ⟨h3, h4, h5⟩
          have : ¬ s < c + p := by linarith
          simp only [pickOne, this, if_false]
          exact ⟨h3, h4, h5⟩
    · rw [Set.disjoint_left]
      rintro s ⟨-, -, h3⟩ ⟨-, h4, -⟩
      linarith

theorem pickOne_chance {ps : List ℝ} (hp : ∀ p ∈ ps, 0 ≤ p) (hs : ps.sum = 1) (A : Set ℕ) :
    Chance uniform01 (fun s s' => (pickOne ps 0 s).1 ∈ A ∧ (pickOne ps 0 s).2 = s') (mass (indexed (ps.map XR.fin)) A) := by
  intro B hB
  have e : {s | ∃ s' ∈ B, (pickOne ps 0 s).1 ∈ A ∧ (pickOne ps 0 s).2 = s'} = pickOne ps 0 ⁻¹' (A ×ˢ B) := by
    ext s
    simp only [Set.mem_ofPred_eq, Set.mem_preimage, Set.mem_prod]
    constructor
    · rintro ⟨s', h1, h2, rfl⟩; exact ⟨h2, h1⟩
    · rintro ⟨h1, h2⟩; exact ⟨_, h2, h1, rfl⟩
  have hm := (measurable_pickOne ps 0) (A.to_countable.measurableSet.prod hB)
  rw [e]
  refine ⟨hm, ?_⟩
  conv_lhs => rw [uniform01, Measure.restrict_apply hm]
  exact volume_pickOne ps hp 0 le_rfl (by linarith) A hB

theorem valid_fin {p : List (XR ℝ)} (h : validProbs p = true) :
    ∃ ps : List ℝ, p = ps.map XR.fin ∧ (∀ q ∈ ps, 0 ≤ q) ∧ ps.sum = 1 := by
  simp only [validProbs, Bool.and_eq_true, List.all_eq_true, decide_eq_true_eq] at h
  obtain ⟨h1, h2⟩ := h
  have : ∃ ps : List ℝ, p = ps.map XR.fin ∧ (∀ q ∈ ps, 0 ≤ q) := by
    clear h2
    induction p with
    | nil => exact ⟨[], rfl, by simp⟩
    | cons x p ih =>
      obtain ⟨ps, rfl, h3⟩ := ih (fun y hy => h1 y (by simp [hy]))
      obtain ⟨h4, h5⟩ := h1 x (by simp)
      cases x with
      | fin w =>
        refine ⟨w :: ps, rfl, ?_⟩
        intro q hq
        rcases List.mem_cons.1 hq with rfl | hq
        · simpa [XR.le] using h4
        · exact h3 q hq
      | _ => cases h5
  obtain ⟨ps, rfl, h3⟩ := this
  refine ⟨ps, rfl, h3, ?_⟩
  have e : (ps.map XR.fin).sum = XR.fin ps.sum := by
    clear h1 h2 h3
    induction ps with
    | nil => rfl
    | cons a l ih => simp [ih]
  rw [e] at h2
  exact XR.fin.inj h2

/-- The generator of the unit interval picks fairly. -/
theorem fair01 : FairPick uniform01 rand01 := by
  intro p hv As
  obtain ⟨ps, rfl, h1, h2⟩ := valid_fin hv
  have e : (ps.map XR.fin).map toReal = ps := by
    rw [List.map_map]
    exact List.map_id ps
  simp only [rand01]
  rw [e]
  induction As with
  | nil =>
    refine Chance.refl.congr (fun s s' => ?_)
    simp [pickMany]
  | cons A As ih =>
    rw [List.map_cons, List.prod_cons]
    refine ((pickOne_chance h1 h2 A).comp ih).congr (fun s s' => ?_)
    simp only [pickMany, List.length_cons]
    constructor
    · rintro ⟨m, ⟨h3, rfl⟩, is, h4, h5⟩
      refine ⟨(pickOne ps 0 s).1 :: is, ?_, .cons h3 h5⟩
      rw [h4]
    · rintro ⟨is, h3, h4⟩
      simp only [Prod.mk.injEq] at h3
      obtain ⟨rfl, h5⟩ := h3
      cases h4 with
      | cons h6 h7 =>
        exact ⟨_, ⟨h6, rfl⟩, _, Prod.ext rfl h5, h7⟩

end Spec
