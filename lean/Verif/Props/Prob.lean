import Verif.Model.Prob
import Verif.Props.Sampling
import Verif.Props.Toy
import Mathlib.Tactic.NormNum
import Mathlib.Tactic.Linarith

/-!
# Properties of distributions: C39, C83
-/

namespace Props.Prob

set_option linter.unusedSectionVars false

open Py Model Props.Sampling

variable {N V C O S L K : Type} [DecidableEq N]

/-! ## C39 -/

/-- What a constant can produce. -/
theorem const_support [DecidableEq V] [Zero K] (k : V) (s : S) : ((Const.dist k : Dist V S (XR K)).sample s) = (.ok k, s) :=
  rfl

/-- **C39** fails for constants: every value a constant cannot produce has log density `+inf`, the value it always
produces has 0. -/
theorem C39_refuted_const [DecidableEq V] [Zero K] (k v : V) (hv : ∀ s : S,
    ((Const.dist k : Dist V S (XR K)).sample s).1 ≠ .ok v) (s : S) :
    (Const.dist k : Dist V S (XR K)).logpdf v = .ok .pinf ∧ (Const.dist k : Dist V S (XR K)).logpdf k = .ok 0 := by
  have hne : v ≠ k := fun e => hv s (by rw [const_support, e])
  constructor
  · show Except.ok (Const.logpdf k v) = _
    rw [Const.logpdf, if_neg hne]
  · show Except.ok (Const.logpdf k k) = _
    rw [Const.logpdf, if_pos rfl]

example : (Const.dist 3 : Dist Nat Nat (XR Int)).logpdf 4 = .ok .pinf := rfl

theorem sum_pinf [AddCommMonoid K] : ∀ {ls : List (XR K)}, XR.pinf ∈ ls → (∀ l ∈ ls, l ≠ .ninf ∧ l ≠ .nan) → ls.sum = .pinf := by
  intro ls
  induction ls with
  | nil => intro h; cases h
  | cons l ls ih =>
    intro h hf
    rw [List.sum_cons]
    have hl := hf l (by simp)
    by_cases hin : XR.pinf ∈ ls
    · rw [ih hin (fun x hx => hf x (by simp [hx]))]
      cases l <;> simp_all [XR.add_def, XR.add]
    · rcases List.mem_cons.1 h with h | h
      · subst h
        have : ∀ ms : List (XR K), (∀ m ∈ ms, m ≠ .ninf ∧ m ≠ .nan) → ms.sum ≠ .ninf ∧ ms.sum ≠ .nan := by
          intro ms
          induction ms with
          | nil => intro _; constructor <;> (intro h; cases h)
          | cons m ms ihm =>
            intro hm
            have h1 := hm m (by simp)
            have h2 := ihm (fun x hx => hm x (by simp [hx]))
            rw [List.sum_cons]
            cases m <;> cases hs : ms.sum <;> simp_all [XR.add_def, XR.add]
        have h3 := this ls (fun x hx => hf x (by simp [hx]))
        cases hs : ls.sum <;> simp_all [XR.add_def, XR.add]
      · exact absurd h hin

/-- **C39** fails in `evaluate_nodes`: a constant with an impossible value makes a parameter set infinitely likely,
whatever the other values, as long as none of them is impossible for another distribution. -/
theorem C39_refuted_evaluate [DecidableEq V] [AddCommMonoid K] (sem : Sem N V C O S (XR K)) {bn : BN N V C O} (hr : Ready bn)
    {pars : Dict N V} {lp : XR K} (h : evaluateNodes sem bn pars = .ok lp) {x n : N} {f : Expr N C O} {ps : List N}
    {v k : V} (hx : pars.get? x = some v) (hl : bn.loci.get? x = some (.dist n f ps))
    (hc : getDistribution sem f pars.get? = .ok (Const.dist k)) (hne : v ≠ k)
    (hothers : ∀ y l, y ∈ pars.keys → bn.loci.get? y = some l → l.evaluate sem pars.get? ≠ .ok .ninf ∧
      l.evaluate sem pars.get? ≠ .ok .nan) : lp = .pinf := by
  obtain ⟨h1, h2⟩ := (evaluateNodes_iff sem bn pars lp).1 h
  have hn := (hr.facts.1.defined x).1 ⟨_, hl⟩
  have hxk : x ∈ pars.keys := (Dict.mem_keys_iff_exists _ _).2 ⟨v, hx⟩
  have hname : n = x := hr.facts.1.named x _ hl
  subst hname
  have ht : ∀ y l, y ∈ pars.keys → bn.loci.get? y = some l → y ∈ bn.dag.nodes →
      l.evaluate sem pars.get? = .ok (term sem bn pars y) := by
    intro y l hy hyl hyn
    have := h1 y hy hyn
    rw [BN.get_ok hyl] at this
    exact this
  have h3 : term sem bn pars n = .pinf := by
    have h5 := ht n _ hxk hl hn
    have e : (Const.dist k : Dist V S (XR K)).logpdf v = .ok .pinf := by
      show Except.ok (Const.logpdf k v) = _
      rw [Const.logpdf, if_neg hne]
    have h6 : Loci.evaluate sem (.dist n f ps) pars.get? = .ok .pinf := by
      unfold Loci.evaluate
      simp only [hc, hx]
      show (match (Const.dist k : Dist V S (XR K)).logpdf v with
        | .error .ValidationError => (.ok .ninf : Result (XR K))
        | r => r) = _
      rw [e]
    rw [h6] at h5
    injection h5 with h5
    exact h5.symm
  have h4 : (((pars.keys.filter (· ∈ bn.dag.nodes)).map (term sem bn pars)).sum) = .pinf := by
    refine sum_pinf (List.mem_map.2 ⟨n, List.mem_filter.2 ⟨hxk, by simpa using hn⟩, h3⟩) ?_
    intro l hl'
    obtain ⟨y, hy, rfl⟩ := List.mem_map.1 hl'
    obtain ⟨hy1, hy2⟩ := List.mem_filter.1 hy
    have hyn : y ∈ bn.dag.nodes := by simpa using hy2
    obtain ⟨ly, hly⟩ := (hr.facts.1.defined y).2 hyn
    have e := ht y ly hy1 hly hyn
    obtain ⟨a, b⟩ := hothers y ly hy1 hly
    exact ⟨fun hh => a (by rw [e, hh]), fun hh => b (by rw [e, hh])⟩
  rw [h2, h4]
  rfl

/-- An environment in which `norm(loc)` is a constant. -/
def constSem : Sem String Toy.TV Toy.TC Unit Int (XR Int) :=
  { Toy.sem with create := fun v => match v with
      | .bp _ args => match args.lookup "loc" with
        | some m => .ok (Const.dist (.num m))
        | none => .error .ValidationError
      | _ => .error .TypeError }

example : evaluateNodes constSem exBN [("m", .num 2), ("x", .num 7), ("y", .num 4)] = .ok .pinf ∧
    evaluateNodes constSem exBN [("m", .num 2), ("x", .num 2), ("y", .num 4)] = .ok 0 := by decide

/-- **C39** fails for categories: a value that is no category raises KeyError instead. -/
theorem C39_refuted_unknown {kv : Dict N ℝ} {c : N} (hc : c ∉ kv.keys) : Cat.logpdf kv c = .error .KeyError := by
  rw [Cat.logpdf, (Dict.get?_eq_none_iff _ _).2 hc]

/-- **C39** (the provable part): a category with probability 0 has log density `-inf`; one with positive probability
has a finite one, which exceeds the log of its probability by the log of the sum of the weights. -/
theorem C39_category_partial {kv : Dict N ℝ} (hpos : 0 < Cat.total kv) {c : N} {p : ℝ} (hp : Cat.prob kv c = some p) :
    (p = 0 → Cat.logpdf kv c = .ok .ninf) ∧
    (0 < p → Cat.logpdf kv c = .ok (.fin (Real.log p + Real.log (Cat.total kv)))) := by
  unfold Cat.prob at hp
  unfold Cat.logpdf
  cases hk : kv.get? c with
  | none => rw [hk] at hp; cases hp
  | some w =>
    rw [hk] at hp
    have hw : w / Cat.total kv = p := by simpa using hp
    have hw' : w = p * Cat.total kv := by rw [← hw]; field_simp
    simp only
    constructor
    · rintro rfl
      rw [zero_mul] at hw'
      rw [hw', npLog]
      simp
    · intro h
      have : 0 < w := by rw [hw']; exact mul_pos h hpos
      rw [npLog, if_pos this, hw', Real.log_mul (ne_of_gt h) (ne_of_gt hpos)]

/-- **C39** fails for weights that do not add up to 1: the log density of every possible category is wrong. -/
theorem C39_refuted_weights {kv : Dict N ℝ} (hpos : 0 < Cat.total kv) (h1 : Cat.total kv ≠ 1) {c : N} {p : ℝ}
    (hp : Cat.prob kv c = some p) (h : 0 < p) : Cat.logpdf kv c ≠ .ok (.fin (Real.log p)) := by
  rw [(C39_category_partial hpos hp).2 h]
  intro e
  injection e with e
  injection e with e
  have : Real.log (Cat.total kv) = 0 := by linarith
  rcases Real.log_eq_zero.1 this with h | h | h
  · exact absurd h (ne_of_gt hpos)
  · exact h1 h
  · linarith

/-- The weights of the example in the source, with `kk = 3500`. -/
example : 0 < Cat.total [("M", (411 : ℝ)), ("O", 3500), ("Y", 52)] ∧ Cat.total [("M", (411 : ℝ)), ("O", 3500), ("Y", 52)] ≠ 1 ∧
    Cat.prob [("M", (411 : ℝ)), ("O", 3500), ("Y", 52)] "M" = some (411 / 3963) := by
  refine ⟨?_, ?_, ?_⟩ <;> norm_num [Cat.total, Cat.prob, Dict.get?_cons]

/-! ## C83 -/

theorem sort3_spec {K : Type} [Field K] [LinearOrder K] (a m b : K) : ∃ lo mid hi, [a, m, b].insertionSort (· ≤ ·) = [lo, mid, hi] ∧ lo ≤ mid ∧ mid ≤ hi ∧
    List.Perm [lo, mid, hi] [a, m, b] := by
  have hp := List.perm_insertionSort (· ≤ ·) [a, m, b]
  have hs := List.pairwise_insertionSort (· ≤ ·) [a, m, b]
  generalize [a, m, b].insertionSort (· ≤ ·) = l at hp hs
  have hl := hp.length_eq
  match l, hl with
  | [lo, mid, hi], _ =>
    simp only [List.pairwise_cons] at hs
    exact ⟨lo, mid, hi, rfl, hs.1 _ (by simp), hs.2.1 _ (by simp), hp⟩

/-- **C83**: whatever the three numbers, `triang` gets the smallest as `loc`, their range as a positive `scale`, and
`c` in `[0, 1]`, such that `loc + c * scale` is the middle one; when all three are equal the creation fails with
ZeroDivisionError. -/
theorem C83_triangle {K : Type} [Field K] [LinearOrder K] [IsStrictOrderedRing K] (a m b : K) :
    (a = m ∧ m = b ∧ triangle a m b = .error .ZeroDivisionError) ∨
    ∃ loc scale c, triangle a m b = .ok (loc, scale, c) ∧ 0 < scale ∧ 0 ≤ c ∧ c ≤ 1 ∧
      List.Perm [loc, loc + c * scale, loc + scale] [a, m, b] := by
  obtain ⟨lo, mid, hi, hs, h1, h2, h3⟩ := sort3_spec a m b
  unfold triangle
  rw [hs]
  simp only
  by_cases h : hi - lo = 0
  · left
    have e1 : lo = mid := le_antisymm h1 (by linarith)
    have e2 : mid = hi := le_antisymm h2 (by linarith)
    subst e1 e2
    have ha : a = lo := by
      have : a ∈ [lo, lo, lo] := h3.mem_iff.2 (by simp)
      simpa using this
    have hm : m = lo := by
      have : m ∈ [lo, lo, lo] := h3.mem_iff.2 (by simp)
      simpa using this
    have hb : b = lo := by
      have : b ∈ [lo, lo, lo] := h3.mem_iff.2 (by simp)
      simpa using this
    exact ⟨by rw [ha, hm], by rw [hm, hb], by rw [if_pos h]⟩
  · right
    have hpos : 0 < hi - lo := lt_of_le_of_ne (by linarith) (Ne.symm h)
    refine ⟨lo, hi - lo, (mid - lo) / (hi - lo), by rw [if_neg h], hpos, ?_, ?_, ?_⟩
    · exact div_nonneg (by linarith) (le_of_lt hpos)
    · rw [div_le_one hpos]; linarith
    · have e1 : lo + (mid - lo) / (hi - lo) * (hi - lo) = mid := by
        rw [div_mul_cancel₀ _ h]; ring
      have e2 : lo + (hi - lo) = hi := by ring
      rw [e1, e2]
      exact h3

example : triangle (5 : ℚ) 3 2 = .ok (2, 3, 1 / 3) := by
  have : [(5 : ℚ), 3, 2].insertionSort (· ≤ ·) = [2, 3, 5] := by decide +kernel
  rw [triangle, this]
  norm_num

end Props.Prob
