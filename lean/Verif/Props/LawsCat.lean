import Verif.Model.Categorical
import Verif.Props.LawsResample
import Verif.Lemmas.Tables
import Mathlib.Algebra.BigOperators.Group.Finset.Basic

/-!
# The law of categories drawn together, and the density of counts: C238 - C239
-/

namespace Props.LawsCat

set_option linter.unusedSectionVars false

open Py Spec Model MeasureTheory Props.LawsResample

variable {S N : Type} [MeasurableSpace S] [DecidableEq N]

theorem catProbs_numpy {kv : Dict N ℝ} (hpos : 0 < (kv.map Prod.snd).sum) :
    catProbs (asNumpy kv) = (kv.map Prod.snd).map (fun u => XR.fin (u / (kv.map Prod.snd).sum)) := by
  unfold catProbs asNumpy
  have e : (kv.map (fun p => (p.1, XR.fin p.2))).map Prod.snd = (kv.map Prod.snd).map XR.fin := by
    rw [List.map_map, List.map_map]; rfl
  simp only [e]
  rw [Props.Resample.sum_fin, List.map_map]
  refine List.map_congr_left (fun w _ => ?_)
  exact if_neg hpos.ne'

theorem fst_numpy (kv : Dict N ℝ) : (asNumpy kv).map Prod.fst = kv.map Prod.fst := by
  unfold asNumpy
  rw [List.map_map]
  rfl

/-- The share of a category; none for one that is not there. -/
noncomputable def share (kv : Dict N ℝ) (k : N) : ENNReal := ENNReal.ofReal ((kv.get? k).getD 0 / (kv.map Prod.snd).sum)

theorem mass_share {kv : Dict N ℝ} (hwf : kv.WF) (h0 : ∀ p ∈ kv, 0 ≤ p.2) (hpos : 0 < (kv.map Prod.snd).sum) (k : N) :
    mass ((kv.map Prod.fst).zip ((kv.map Prod.snd).map ENNReal.ofReal)) {k} /
      mass ((kv.map Prod.fst).zip ((kv.map Prod.snd).map ENNReal.ofReal)) Set.univ = share kv k := by
  have hn : ∀ u ∈ kv.map Prod.snd, 0 ≤ u := by
    intro u hu
    obtain ⟨p, hp, rfl⟩ := List.mem_map.1 hu
    exact h0 p hp
  rw [mass_univ _ _ (by simp), sum_ofReal _ hn, share, ENNReal.ofReal_div_of_pos hpos]
  congr 1
  cases hk : kv.get? k with
  | some w => rw [mass_key kv hwf hk]; rfl
  | none =>
    have : ∀ l : List (N × ENNReal), (∀ x ∈ l, x.1 ≠ k) → mass l {k} = 0 := by
      intro l
      induction l with
      | nil => intro _; exact mass_nil _
      | cons x l ih =>
        intro hx
        rw [mass_cons, ih (fun y hy => hx y (by simp [hy])), if_neg (by rw [Set.mem_singleton_iff]; exact hx x (by simp)),
          add_zero]
    rw [this]
    · simp
    · rintro x hx rfl
      rw [Dict.get?_eq_none_iff] at hk
      exact hk (List.of_mem_zip hx).1

theorem forall_single (out ks : List N) :
    List.Forall₂ (fun h A => h ∈ A) out (ks.map (fun k => ({k} : Set N))) ↔ out = ks := by
  rw [List.forall₂_map_right_iff]
  constructor
  · intro h
    induction h with
    | nil => rfl
    | cons h1 _ ih => rw [Set.mem_singleton_iff.1 h1, ih]
  · rintro rfl
    induction out with
    | nil => exact .nil
    | cons a l ih => exact .cons rfl ih

/-- **C238**: the categories of one call of `sample` are independent, each drawn with its share of the weight. -/
theorem C238 {μ : Measure S} {r : Rand S ℝ} (hr : FairPick μ r) {kv : Dict N ℝ} (hwf : kv.WF)
    (h0 : ∀ p ∈ kv, 0 ≤ p.2) (hpos : 0 < (kv.map Prod.snd).sum) (ks : List N) (hn : ks.length ≠ 1) :
    Chance μ (fun s s' => catSamples r (asNumpy kv) ks.length s = (.ok (.many ks), s')) ((ks.map (share kv)).prod) := by
  have hn0 : ∀ u ∈ kv.map Prod.snd, 0 ≤ u := by
    intro u hu
    obtain ⟨p, hp, rfl⟩ := List.mem_map.1 hu
    exact h0 p hp
  have hlaw := weights_law hr hn0 hpos (kv.map Prod.fst) (by simp) id (ks.map (fun k => ({k} : Set N)))
  have e : (ks.map (fun k => ({k} : Set N))).map (fun A => mass (((kv.map Prod.fst).map id).zip ((kv.map Prod.snd).map
      ENNReal.ofReal)) A / mass (((kv.map Prod.fst).map id).zip ((kv.map Prod.snd).map ENNReal.ofReal)) Set.univ) =
      ks.map (share kv) := by
    rw [List.map_map]
    refine List.map_congr_left (fun k _ => ?_)
    rw [Function.comp_apply, List.map_id]
    exact mass_share hwf h0 hpos k
  rw [e, List.length_map] at hlaw
  refine hlaw.congr (fun s s' => ?_)
  unfold catSamples
  rw [catProbs_numpy hpos, fst_numpy]
  constructor
  · rintro ⟨is, out, h1, h2, h3⟩
    have h3 : out = ks := (forall_single out ks).1 h3
    subst h3
    rw [h1]
    simp only
    rw [h2]
    simp [hn]
  · intro h
    rcases hc : r.choice ((kv.map Prod.snd).map (fun u => XR.fin (u / (kv.map Prod.snd).sum))) ks.length s with ⟨_ | is, m⟩ <;>
      rw [hc] at h
    · cases h
    · simp only at h
      cases hs : select (kv.map Prod.fst) is with
      | error e => rw [hs] at h; cases h
      | ok out =>
        rw [hs] at h
        simp only [if_neg hn, Prod.mk.injEq, Except.ok.injEq, Drawn.many.injEq] at h
        exact ⟨is, out, by rw [h.2], hs, (forall_single out ks).2 h.1⟩

/-- **C238** (one): asked for one category, `sample` returns it bare, drawn as `__call__` draws it. -/
theorem C238_one {r : Rand S ℝ} (hsize : ∀ p n s, validProbs p = true → (r.pick p n s).1.length = n) (kv : Dict N (XR ℝ))
    (s s' : S) (k : N) : catSamples r kv 1 s = (.ok (.one k), s') ↔ catSample r kv s = (.ok k, s') := by
  unfold catSamples catSample
  rcases hc : r.choice (catProbs kv) 1 s with ⟨_ | is, m⟩
  · simp
  · have hv : validProbs (catProbs kv) = true := by
      by_contra hv
      simp [Rand.choice, hv] at hc
    have hlen := hsize _ 1 s hv
    simp only [Rand.choice, hv, if_true, Prod.mk.injEq, Except.ok.injEq] at hc
    rw [hc.1] at hlen
    obtain ⟨i, rfl⟩ := List.length_eq_one_iff.1 hlen
    simp only
    cases hi : kv[i]? with
    | none =>
      have : select (kv.map Prod.fst) [i] = .error .IndexError := by
        unfold select
        rw [List.mapM_cons, List.getElem?_map, hi]
        rfl
      simp [this]
    | some p =>
      have : select (kv.map Prod.fst) [i] = .ok [p.1] := by
        rw [Props.Resample.select_ok]
        simp [hi]
      simp [this]

example : ∀ p n s, validProbs p = true → (rand01.pick p n s).1.length = n := fun p n s _ => rand01_size p n s

/-- The counts of the members of a list, as `collections.Counter` gives them. -/
def Counts (ks : List N) (v : Dict N ℝ) : Prop :=
  v.WF ∧ ∀ k, v.get? k = if k ∈ ks then some (ks.count k : ℝ) else none

theorem expX_nmul (n : ℕ) (hn : n ≠ 0) {w : ℝ} (hw : 0 ≤ w) :
    expX (XR.fin (n : ℝ) * npLog w) = ENNReal.ofReal w ^ n := by
  unfold npLog
  split
  · rename_i hp
    rw [XR.fin_mul_fin]
    simp only [expX]
    rw [mul_comm, Real.exp_mul, Real.exp_log hp, Real.rpow_natCast, ENNReal.ofReal_pow hw]
  · rename_i hp
    have h0 : w = 0 := le_antisymm (not_lt.1 hp) hw
    subst h0
    rw [if_pos rfl]
    have hn' : (0 : ℝ) < n := by exact_mod_cast Nat.pos_of_ne_zero hn
    have : XR.fin (n : ℝ) * XR.ninf = XR.ninf := by
      show XR.mul _ _ = _
      simp [XR.mul, XR.scaleInf, hn', hn'.ne', not_lt.2 hn'.le]
    rw [this]
    simp [expX, hn]

theorem counts_logpdf {kv : Dict N ℝ} {ks : List N} {v : Dict N ℝ} (hv : Counts ks v) (hk : ∀ k ∈ ks, k ∈ kv.keys)
    (h0 : ∀ p ∈ kv, 0 ≤ p.2) :
    ∃ l, Cat.logpdfCounts kv v = .ok l ∧
      expX l = (ks.map (fun k => ENNReal.ofReal ((kv.get? k).getD 0))).prod := by
  have hmem : ∀ p ∈ v, p.1 ∈ ks ∧ p.2 = (ks.count p.1 : ℝ) := by
    intro p hp
    have := hv.2 p.1
    rw [Dict.get?_of_mem hv.1 hp] at this
    split at this
    · rename_i h; exact ⟨h, Option.some.inj this⟩
    · cases this
  have hmap : v.mapM (Cat.countTerm kv) =
      .ok (v.map (fun p => XR.fin (ks.count p.1 : ℝ) * npLog ((kv.get? p.1).getD 0))) := by
    apply Lemmas.Tables.mapM_of
    intro p hp
    obtain ⟨h1, h2⟩ := hmem p hp
    cases hg : kv.get? p.1 with
    | none => rw [Dict.get?_eq_none_iff] at hg; exact absurd (hk _ h1) hg
    | some w => simp [Cat.countTerm, hg, h2]
  refine ⟨_, by rw [Cat.logpdfCounts, hmap]; rfl, ?_⟩
  rw [expX_sum, List.map_map]
  have e1 : v.map (expX ∘ fun p => XR.fin (ks.count p.1 : ℝ) * npLog ((kv.get? p.1).getD 0)) =
      (Dict.keys v).map (fun k => ENNReal.ofReal ((kv.get? k).getD 0) ^ ks.count k) := by
    rw [Dict.keys, List.map_map]
    refine List.map_congr_left (fun p hp => ?_)
    obtain ⟨h1, -⟩ := hmem p hp
    have hw : 0 ≤ (kv.get? p.1).getD 0 := by
      cases hg : kv.get? p.1 with
      | none => simp
      | some w => exact h0 _ (Dict.mem_of_get? hg)
    exact expX_nmul _ (List.count_pos_iff.2 h1).ne' hw
  rw [e1, ← List.prod_toFinset _ hv.1, Finset.prod_list_map_count]
  refine Finset.prod_congr ?_ (fun _ _ => rfl)
  ext k
  rw [List.mem_toFinset, List.mem_toFinset, ← Dict.get?_isSome_iff, hv.2 k]
  split <;> simp [*]

/-- **C239**: for weights that sum to one, the log density of counts is the log of the chance that `sample` draws a
given list of categories with these counts. -/
theorem C239 {μ : Measure S} {r : Rand S ℝ} (hr : FairPick μ r) {kv : Dict N ℝ} (hwf : kv.WF)
    (h0 : ∀ p ∈ kv, 0 ≤ p.2) (h1 : (kv.map Prod.snd).sum = 1) (ks : List N) (hn : ks.length ≠ 1)
    (hk : ∀ k ∈ ks, k ∈ kv.keys) {v : Dict N ℝ} (hv : Counts ks v) :
    ∃ l, Cat.logpdfCounts kv v = .ok l ∧
      Chance μ (fun s s' => catSamples r (asNumpy kv) ks.length s = (.ok (.many ks), s')) (expX l) := by
  obtain ⟨l, h2, h3⟩ := counts_logpdf hv hk h0
  refine ⟨l, h2, ?_⟩
  rw [h3]
  have h := C238 hr hwf h0 (by rw [h1]; exact one_pos) ks hn
  unfold share at h
  simp only [h1, div_one] at h
  exact h

/-- **C239** (weights that do not sum to one): the density takes the weights as given, the sampler scales them, so the
density is too large by the total weight for every category drawn. -/
theorem C239_scale {μ : Measure S} {r : Rand S ℝ} (hr : FairPick μ r) {kv : Dict N ℝ} (hwf : kv.WF)
    (h0 : ∀ p ∈ kv, 0 ≤ p.2) (hpos : 0 < (kv.map Prod.snd).sum) (ks : List N) (hn : ks.length ≠ 1)
    (hk : ∀ k ∈ ks, k ∈ kv.keys) {v : Dict N ℝ} (hv : Counts ks v) :
    ∃ l p, Cat.logpdfCounts kv v = .ok l ∧
      Chance μ (fun s s' => catSamples r (asNumpy kv) ks.length s = (.ok (.many ks), s')) p ∧
      expX l = p * ENNReal.ofReal (kv.map Prod.snd).sum ^ ks.length := by
  obtain ⟨l, h2, h3⟩ := counts_logpdf hv hk h0
  refine ⟨l, _, h2, C238 hr hwf h0 hpos ks hn, ?_⟩
  rw [h3]
  have hp0 : ENNReal.ofReal (kv.map Prod.snd).sum ≠ 0 := by simpa using hpos
  clear h2 h3 hv hk hn
  induction ks with
  | nil => simp
  | cons k ks ih =>
    simp only [List.map_cons, List.prod_cons, List.length_cons]
    have hs : ENNReal.ofReal ((kv.get? k).getD 0) = share kv k * ENNReal.ofReal (kv.map Prod.snd).sum := by
      rw [share, ENNReal.ofReal_div_of_pos hpos, ENNReal.div_mul_cancel hp0 ENNReal.ofReal_ne_top]
    rw [ih, pow_succ, hs]
    ring

/-- Weights that sum to two, as counts of cases do. -/
example : ∃ l p, Cat.logpdfCounts [("a", 1), ("b", (1 : ℝ))] [("a", 2)] = .ok l ∧
    Chance uniform01 (fun s s' => catSamples rand01 (asNumpy [("a", 1), ("b", (1 : ℝ))]) 2 s =
      (.ok (.many ["a", "a"]), s')) p ∧ expX l = p * ENNReal.ofReal (1 + (1 + 0)) ^ 2 :=
  C239_scale fair01 (kv := [("a", 1), ("b", (1 : ℝ))]) (show ["a", "b"].Nodup by decide) (by simp) (by norm_num) ["a", "a"]
    (by decide) (show ∀ k ∈ ["a", "a"], k ∈ ["a", "b"] by decide)
    ⟨show ["a"].Nodup by decide, fun k => by
      by_cases ha : k = "a"
      · subst ha; simp [Dict.get?]
      · simp [Dict.get?, ha, Ne.symm ha]⟩

/-- **C239** (edges): an unknown category is refused even if it is counted zero times, and a category of weight zero
counted zero times makes the density NaN, although the rest may well be drawn. -/
theorem C239_edges (kv v : Dict N ℝ) :
    (∀ k x, v.get? k = some x → kv.get? k = none → Cat.logpdfCounts kv v = .error .KeyError) ∧
    (∀ k, v.get? k = some 0 → kv.get? k = some 0 → (∀ k ∈ v.keys, k ∈ kv.keys) → Cat.logpdfCounts kv v = .ok .nan) := by
  constructor
  · intro k x hv hk
    have hm := Dict.mem_of_get? hv
    unfold Cat.logpdfCounts
    have : ∀ l : List (N × ℝ), (k, x) ∈ l → l.mapM (Cat.countTerm kv) = .error .KeyError := by
      intro l
      induction l with
      | nil => simp
      | cons p l ih =>
        intro hp
        rw [List.mapM_cons]
        cases hg : kv.get? p.1 with
        | none => simp only [Cat.countTerm, hg]; rfl
        | some w =>
          rcases List.mem_cons.1 hp with rfl | hp
          · rw [hk] at hg; cases hg
          · simp only [Cat.countTerm, hg, ih hp]
            rfl
    rw [this v hm]
    rfl
  · intro k hv hk hall
    have hm := Dict.mem_of_get? hv
    have hmap : v.mapM (Cat.countTerm kv) =
        .ok (v.map (fun p => XR.fin p.2 * npLog ((kv.get? p.1).getD 0))) := by
      apply Lemmas.Tables.mapM_of
      intro p hp
      cases hg : kv.get? p.1 with
      | none =>
        rw [Dict.get?_eq_none_iff] at hg
        exact absurd (hall _ (Dict.mem_keys_of_mem (show (p.1, p.2) ∈ v from hp))) hg
      | some w => simp [Cat.countTerm, hg]
    rw [Cat.logpdfCounts, hmap]
    show Except.ok _ = _
    congr 1
    have hnan : XR.nan ∈ v.map (fun p => XR.fin p.2 * npLog ((kv.get? p.1).getD 0)) := by
      refine List.mem_map.2 ⟨(k, 0), hm, ?_⟩
      simp only [hk, Option.getD_some, npLog, lt_irrefl, if_false, if_true]
      show XR.mul _ _ = _
      simp [XR.mul, XR.scaleInf]
    have : ∀ l : List (XR ℝ), XR.nan ∈ l → l.sum = XR.nan := by
      intro l
      induction l with
      | nil => simp
      | cons a l ih =>
        intro h
        rw [List.sum_cons]
        rcases List.mem_cons.1 h with rfl | h
        · exact XR.nan_add _
        · rw [ih h]; exact XR.add_nan _
    exact this _ hnan

/-- Three categories. -/
noncomputable def abc : Dict String ℝ := [("a", 1 / 2), ("b", 1 / 2), ("c", 0)]

/-- Two `a` and one `b` have the density 1/8. -/
example : ∃ l, Cat.logpdfCounts abc [("a", 2), ("b", 1)] = .ok l ∧
    Chance uniform01 (fun s s' => catSamples rand01 (asNumpy abc) 3 s = (.ok (.many ["a", "b", "a"]), s')) (expX l) := by
  refine C239 fair01 (kv := abc) (show ["a", "b", "c"].Nodup by decide) (by simp [abc]) (by norm_num [abc]) ["a", "b", "a"]
    (by decide) (show ∀ k ∈ ["a", "b", "a"], k ∈ ["a", "b", "c"] by decide) ⟨show ["a", "b"].Nodup by decide, fun k => ?_⟩
  by_cases ha : k = "a"
  · subst ha; simp [Dict.get?]
  · by_cases hb : k = "b"
    · subst hb; simp [Dict.get?]
    · simp [Dict.get?, ha, hb, Ne.symm ha, Ne.symm hb]

example : Cat.logpdfCounts abc [("a", 2), ("c", 0)] = .ok .nan :=
  (C239_edges abc [("a", 2), ("c", 0)]).2 "c" rfl rfl (show ∀ k ∈ ["a", "c"], k ∈ ["a", "b", "c"] by decide)

end Props.LawsCat
