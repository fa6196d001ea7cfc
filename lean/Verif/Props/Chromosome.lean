import Verif.Lemmas.ChromHeap
import Verif.Lemmas.Chromosome
import Verif.Props.Sampling

/-!
# Properties of chromosomes (C29-C31, C79, C80)
-/

namespace Props.Chromosome

set_option linter.unusedSectionVars false

open Py Model Model.BN Model.Chromosome Spec Relation Props.Sampling
open Props.BN (Built defineAll)

variable {N V C O S L K : Type} [DecidableEq N]

/-! ## C29 -/

section History
open ChromHeap

/-- How many objects a history (most recent operation first) has created. -/
def created : List (Op N V K) → Nat
  | [] => 0
  | .new _ _ :: r => created r + 1
  | .clone j :: r => if j < created r then created r + 1 else created r
  | .json j :: r => if j < created r then created r + 1 else created r
  | .set _ _ _ :: r => created r
  | .impulse _ _ :: r => created r

/-- The value last written under key `x` of object `i`; a copy starts with the values its source has at that time. -/
def lastValue : List (Op N V K) → Nat → N → Option V
  | [], _, _ => none
  | .new vs _ :: r, i, x => if i = created r then vs.get? x else lastValue r i x
  | .clone j :: r, i, x => if i = created r then lastValue r j x else lastValue r i x
  | .json j :: r, i, x => if i = created r then lastValue r j x else lastValue r i x
  | .set j y v :: r, i, x => if i = j ∧ x = y ∧ j < created r then some v else lastValue r i x
  | .impulse j new :: r, i, x =>
    if i = j ∧ (lastValue r i x).isSome then (new.get? x).or (lastValue r i x) else lastValue r i x

/-- The probability of object `i`: that of its creation, NaN as soon as something has been written to it. -/
def lastProb : List (Op N V K) → Nat → XR K
  | [], _ => .nan
  | .new _ p :: r, i => if i = created r then p else lastProb r i
  | .clone j :: r, i => if i = created r then lastProb r j else lastProb r i
  | .json j :: r, i => if i = created r then lastProb r j else lastProb r i
  | .set j _ _ :: r, i => if i = j then .nan else lastProb r i
  | .impulse j new :: r, i =>
    if i = j ∧ (new.keys.any fun x => (lastValue r i x).isSome) then .nan else lastProb r i

theorem run_snoc (ops : List (Op N V K)) (op : Op N V K) :
    run empty (ops ++ [op]) = step (run empty ops) op := by
  simp [run]

theorem history (r : List (Op N V K)) (hwf : ∀ i new, Op.impulse i new ∈ r → Dict.WF new) :
    (run (empty : ChromHeap N V K) r.reverse).Inv ∧ (run (empty : ChromHeap N V K) r.reverse).objs.length = created r ∧
    ∀ i, (i < created r → ∃ d, (run (empty : ChromHeap N V K) r.reverse).view i = some (d, lastProb r i) ∧
        ∀ x, d.get? x = lastValue r i x) ∧
      (created r ≤ i → ∀ x, lastValue r i x = none) := by
  induction r with
  | nil => exact ⟨inv_empty, rfl, fun i => ⟨fun h => absurd h (Nat.not_lt_zero i), fun _ _ => rfl⟩⟩
  | cons op r ih =>
    obtain ⟨hinv, hlen, hv⟩ := ih (fun i new h => hwf i new (by simp [h]))
    rw [List.reverse_cons, run_snoc]
    generalize run (empty : ChromHeap N V K) r.reverse = h at hinv hlen hv
    have hobj : ∀ j, j < created r → ∃ o, h.objs[j]? = some o := by
      intro j hj
      rw [← hlen] at hj
      exact ⟨_, List.getElem?_eq_getElem hj⟩
    have hnone : ∀ j, ¬ j < created r → h.objs[j]? = none := by
      intro j hj
      rw [← hlen] at hj
      exact List.getElem?_eq_none (by omega)
    -- copying
    have hcopy : ∀ j, j < created r → ∃ o d, h.objs[j]? = some o ∧ h.dicts[o.1]? = some d ∧
        (h.init d o.2).Inv ∧ (h.init d o.2).objs.length = created r + 1 ∧
        ∀ i, (i < created r + 1 → ∃ d', (h.init d o.2).view i =
            some (d', if i = created r then lastProb r j else lastProb r i) ∧
            ∀ x, d'.get? x = if i = created r then lastValue r j x else lastValue r i x) := by
      intro j hj
      obtain ⟨o, ho⟩ := hobj j hj
      obtain ⟨d, hd, hview⟩ := hinv.dict ho
      obtain ⟨hi', hview'⟩ := hinv.init d o.2
      obtain ⟨d0, hd0, hget⟩ := (hv j).1 hj
      rw [hview] at hd0
      simp only [Option.some.injEq, Prod.mk.injEq] at hd0
      obtain ⟨rfl, hp⟩ := hd0
      refine ⟨o, d, ho, hd, hi', by simp [ChromHeap.init, hlen], ?_⟩
      intro i hi
      rw [hview', hlen]
      by_cases hic : i = created r
      · simp only [if_pos hic]
        exact ⟨d, by rw [hp], hget⟩
      · simp only [if_neg hic]
        exact (hv i).1 (by omega)
    cases op with
    | new vs p =>
      obtain ⟨hi', hview'⟩ := hinv.init vs p
      refine ⟨hi', by simp [ChromHeap.step, ChromHeap.init, hlen, created], ?_⟩
      intro i
      refine ⟨fun hi => ?_, fun hi x => ?_⟩
      · show ∃ d, (h.init vs p).view i = _ ∧ _
        rw [hview', hlen]
        simp only [lastValue, lastProb]
        by_cases hic : i = created r
        · simp only [if_pos hic]
          exact ⟨vs, rfl, fun _ => rfl⟩
        · simp only [if_neg hic]
          simp only [created] at hi
          exact (hv i).1 (by omega)
      · simp only [created] at hi
        simp only [lastValue]
        rw [if_neg (by omega)]
        exact (hv i).2 (by omega) x
    | clone j =>
      by_cases hj : j < created r
      · obtain ⟨o, d, ho, hd, hi', hl', hrest⟩ := hcopy j hj
        have hs : step h (.clone j) = h.init d o.2 := by
          simp only [ChromHeap.step, ChromHeap.clone, ho, hd]
        rw [hs]
        simp only [created, if_pos hj, lastValue, lastProb]
        refine ⟨hi', hl', fun i => ⟨hrest i, fun hi x => ?_⟩⟩
        rw [if_neg (by omega)]
        exact (hv i).2 (by omega) x
      · have hs : step h (.clone j) = h := by
          simp only [ChromHeap.step, ChromHeap.clone, hnone j hj]
        rw [hs]
        simp only [created, if_neg hj, lastValue, lastProb]
        refine ⟨hinv, hlen, fun i => ⟨fun hi => ?_, fun hi x => ?_⟩⟩
        · simp only [if_neg (show ¬ i = created r by omega)]
          exact (hv i).1 hi
        · split
          · exact (hv j).2 (by omega) x
          · exact (hv i).2 (by omega) x
    | json j =>
      by_cases hj : j < created r
      · obtain ⟨o, d, ho, hd, hi', hl', hrest⟩ := hcopy j hj
        have hs : step h (.json j) = h.init d o.2 := by
          simp only [ChromHeap.step, ChromHeap.jsonCopy, ho, hd]
        rw [hs]
        simp only [created, if_pos hj, lastValue, lastProb]
        refine ⟨hi', hl', fun i => ⟨hrest i, fun hi x => ?_⟩⟩
        rw [if_neg (by omega)]
        exact (hv i).2 (by omega) x
      · have hs : step h (.json j) = h := by
          simp only [ChromHeap.step, ChromHeap.jsonCopy, hnone j hj]
        rw [hs]
        simp only [created, if_neg hj, lastValue, lastProb]
        refine ⟨hinv, hlen, fun i => ⟨fun hi => ?_, fun hi x => ?_⟩⟩
        · simp only [if_neg (show ¬ i = created r by omega)]
          exact (hv i).1 hi
        · split
          · exact (hv j).2 (by omega) x
          · exact (hv i).2 (by omega) x
    | set j y v =>
      by_cases hj : j < created r
      · obtain ⟨o, ho⟩ := hobj j hj
        obtain ⟨d, hd, hview⟩ := hinv.dict ho
        obtain ⟨hi', hl', hview'⟩ := hinv.upd ho (d.set y v) .nan
        obtain ⟨d0, hd0, hget⟩ := (hv j).1 hj
        rw [hview] at hd0
        simp only [Option.some.injEq, Prod.mk.injEq] at hd0
        obtain ⟨rfl, -⟩ := hd0
        have hs : step h (.set j y v) = ⟨h.dicts.set o.1 (d.set y v), h.objs.set j (o.1, .nan)⟩ := by
          simp only [ChromHeap.step, ChromHeap.set, ho, hd]
        rw [hs]
        refine ⟨hi', hl'.trans hlen, fun i => ⟨fun hi => ?_, fun hi x => ?_⟩⟩
        · rw [hview']
          simp only [lastValue, lastProb]
          by_cases hij : i = j
          · subst hij
            simp only [if_true]
            refine ⟨_, rfl, fun x => ?_⟩
            rw [Dict.get?_set, hget x]
            by_cases hxy : x = y
            · simp [hxy, hj]
            · simp [hxy, Ne.symm hxy]
          · simp only [hij, false_and, if_false]
            exact (hv i).1 hi
        · simp only [created] at hi
          simp only [lastValue]
          rw [if_neg (by omega)]
          exact (hv i).2 hi x
      · have hs : step h (.set j y v) = h := by
          simp only [ChromHeap.step, ChromHeap.set, hnone j hj]
        rw [hs]
        simp only [created, lastValue, lastProb]
        refine ⟨hinv, hlen, fun i => ⟨fun hi => ?_, fun hi x => ?_⟩⟩
        · simp only [if_neg (show ¬ i = j by omega), hj, and_false, if_false]
          exact (hv i).1 hi
        · simp only [hj, and_false, if_false]
          exact (hv i).2 hi x
    | impulse j new =>
      have hwn : new.WF := hwf j new (by simp)
      by_cases hj : j < created r
      · obtain ⟨o, ho⟩ := hobj j hj
        obtain ⟨d, hd, hview⟩ := hinv.dict ho
        obtain ⟨d0, hd0, hget⟩ := (hv j).1 hj
        rw [hview] at hd0
        simp only [Option.some.injEq, Prod.mk.injEq] at hd0
        obtain ⟨rfl, hop⟩ := hd0
        have hmem : ∀ x, x ∈ d.keys ↔ (lastValue r j x).isSome := by
          intro x; rw [← hget, Dict.get?_isSome_iff]
        have hempty : (new.filterItems (fun k _ => k ∈ d.keys)).isEmpty
            = !(new.keys.any fun x => (lastValue r j x).isSome) := by
          have hh : (new.filterItems (fun k _ => k ∈ d.keys)) = [] ↔ ¬ ∃ x ∈ new.keys, (lastValue r j x).isSome := by
            unfold Dict.filterItems Dict.keys
            rw [List.filter_eq_nil_iff]
            constructor
            · rintro hall ⟨x, hx, hs⟩
              obtain ⟨p, hp, rfl⟩ := List.mem_map.1 hx
              exact hall p hp (decide_eq_true ((hmem p.1).2 hs))
            · intro hno p hp hc
              exact hno ⟨p.1, List.mem_map.2 ⟨p, hp, rfl⟩, (hmem p.1).1 (of_decide_eq_true hc)⟩
          rw [Bool.eq_iff_iff, List.isEmpty_iff, hh]
          simp
        generalize himp : new.filterItems (fun k _ => k ∈ d.keys) = imp at hempty
        have hd' : ∀ x, (d.update imp).get? x =
            if (lastValue r j x).isSome then (new.get? x).or (lastValue r j x) else lastValue r j x := by
          intro x
          rw [← himp, Dict.get?_update _ _ (hwn.filterItems _), Dict.get?_filterItems_key, hget]
          by_cases hk : x ∈ d.keys
          · simp only [hk, decide_true, if_true, (hmem x).1 hk]
          · have : (lastValue r j x).isSome = false := by
              rw [Bool.eq_false_iff]; intro hc; exact hk ((hmem x).2 hc)
            simp [hk, this]
        have hs : step h (.impulse j new) = ⟨h.dicts.set o.1 (d.update imp),
            h.objs.set j (o.1, if imp.isEmpty then o.2 else .nan)⟩ := by
          simp only [ChromHeap.step, ChromHeap.impulse, ho, hd, himp]
          split
          · congr 1
            have : h.objs.set j o = h.objs := by
              obtain ⟨hlt, he⟩ := List.getElem?_eq_some_iff.1 ho
              rw [← he]
              exact List.set_getElem_self hlt
            exact this.symm
          · rfl
        obtain ⟨hi', hl', hview'⟩ := hinv.upd ho (d.update imp) (if imp.isEmpty then o.2 else .nan)
        rw [hs]
        refine ⟨hi', hl'.trans hlen, fun i => ⟨fun hi => ?_, fun hi x => ?_⟩⟩
        · rw [hview']
          simp only [lastValue, lastProb]
          by_cases hij : i = j
          · subst hij
            simp only [if_true, true_and]
            refine ⟨_, ?_, hd'⟩
            rw [hempty, hop]
            cases new.keys.any fun x => (lastValue r i x).isSome <;> simp
          · simp only [hij, false_and, if_false]
            exact (hv i).1 hi
        · simp only [created] at hi
          simp only [lastValue]
          rw [if_neg (by omega)]
          exact (hv i).2 hi x
      · have hs : step h (.impulse j new) = h := by
          simp only [ChromHeap.step, ChromHeap.impulse, hnone j hj]
        rw [hs]
        simp only [created, lastValue, lastProb]
        refine ⟨hinv, hlen, fun i => ⟨fun hi => ?_, fun hi x => ?_⟩⟩
        · simp only [show ¬ i = j by omega, false_and, if_false]
          exact (hv i).1 hi
        · rw [(hv i).2 hi x]; simp

/-- **C29**: after every history of constructions, assignments, impulses, copies by `clone` and through json, reading
key `x` of chromosome `i` gives the last value written to it (a `KeyError` when there is none), where writes to other
chromosomes, in particular to copies and originals, do not count. -/
theorem C29_read (ops : List (Op N V K)) (hwf : ∀ i new, Op.impulse i new ∈ ops → Dict.WF new) {i : Nat}
    (hi : i < created ops.reverse) (x : N) :
    (run (empty : ChromHeap N V K) ops).get i x = match lastValue ops.reverse i x with
      | some v => .ok v
      | none => .error .KeyError := by
  obtain ⟨-, -, hv⟩ := history ops.reverse (fun i new h => hwf i new (by simpa using h))
  rw [List.reverse_reverse] at hv
  obtain ⟨d, hd, hget⟩ := (hv i).1 hi
  unfold ChromHeap.get
  have : (run (empty : ChromHeap N V K) ops).locus i = some d := by
    unfold view at hd
    unfold ChromHeap.locus
    cases ho : (run (empty : ChromHeap N V K) ops).objs[i]? with
    | none => rw [ho] at hd; cases hd
    | some o =>
      rw [ho] at hd
      simp only [Option.bind_some, Option.map_eq_some_iff, Prod.mk.injEq] at hd ⊢
      obtain ⟨d', hd', rfl, -⟩ := hd
      exact hd'
  rw [this]
  simp only
  rw [hget]
  cases lastValue ops.reverse i x <;> rfl

/-- **C29**: and its probability is the one given at creation until something is written, NaN afterwards. -/
theorem C29_probability (ops : List (Op N V K)) (hwf : ∀ i new, Op.impulse i new ∈ ops → Dict.WF new) {i : Nat}
    (hi : i < created ops.reverse) :
    (run (empty : ChromHeap N V K) ops).prob i = some (lastProb ops.reverse i) := by
  obtain ⟨-, -, hv⟩ := history ops.reverse (fun i new h => hwf i new (by simpa using h))
  rw [List.reverse_reverse] at hv
  obtain ⟨d, hd, -⟩ := (hv i).1 hi
  unfold view at hd
  unfold ChromHeap.prob
  cases ho : (run (empty : ChromHeap N V K) ops).objs[i]? with
  | none => rw [ho] at hd; cases hd
  | some o =>
    rw [ho] at hd
    simp only [Option.bind_some, Option.map_eq_some_iff, Prod.mk.injEq] at hd
    obtain ⟨d', -, -, hp⟩ := hd
    simp [hp]

/-- Writing to a clone: the clone has the new value and no probability, the original keeps its own. -/
example :
    let ops : List (Op String Nat Int) := [.new [("a", 1), ("b", 2)] (.fin 7), .clone 0, .set 1 "a" 5,
      .impulse 1 [("b", 6), ("c", 9)], .json 0]
    let h := run empty ops
    (h.get 0 "a", h.get 0 "b", h.prob 0) = (.ok 1, .ok 2, some (.fin 7)) ∧
    (h.get 1 "a", h.get 1 "b", h.get 1 "c", h.prob 1) = (.ok 5, .ok 6, .error .KeyError, some .nan) ∧
    (h.get 2 "a", h.prob 2) = (.ok 1, some (.fin 7)) ∧ created ops.reverse = 3 := by decide

/-- **C79 is false**: the dictionary in `to_json()` is the one of the object, so that a write to the exported data
changes the chromosome, and does so without clearing its probability. -/
theorem C79_refuted : ∃ (h : ChromHeap String Nat Int) (h' : ChromHeap String Nat Int), h'.Inv ∧
    h' = h.writeJson 0 "a" 5 ∧ h.get 0 "a" = .ok 1 ∧ h'.get 0 "a" = .ok 5 ∧ h'.prob 0 = some (.fin 7) := by
  refine ⟨run empty [.new [("a", 1)] (.fin 7)], _, ?_, rfl, by decide, by decide, by decide⟩
  exact ((inv_empty.init [("a", 1)] (.fin 7)).1.upd (i := 0) (o := (0, .fin 7)) rfl [("a", 5)] (.fin 7)).1

/-- **C79**, what holds: a chromosome rebuilt from the exported data is independent of the original. -/
theorem C79_partial (h : ChromHeap N V K) (hi : h.Inv) {i : Nat} (hil : i < h.objs.length) (x : N) (v : V) :
    let h' := h.jsonCopy i
    let c := h.objs.length
    h'.get c = h.get i ∧ (h'.writeJson i x v).get c = h.get i ∧ (h'.writeJson c x v).get i = h.get i := by
  have hget : ∀ (g : ChromHeap N V K) (j : Nat) (d : Dict N V) (p : XR K), g.view j = some (d, p) →
      g.get j = fun y => match d.get? y with | some v => .ok v | none => .error .KeyError := by
    intro g j d p hg
    unfold view at hg
    funext y
    unfold ChromHeap.get ChromHeap.locus
    cases ho : g.objs[j]? with
    | none => rw [ho] at hg; cases hg
    | some o =>
      rw [ho] at hg
      simp only [Option.bind_some, Option.map_eq_some_iff, Prod.mk.injEq] at hg ⊢
      obtain ⟨d', hd', rfl, -⟩ := hg
      rw [hd']
      simp only
      cases d'.get? y <;> rfl
  have hw : ∀ (g : ChromHeap N V K) (hgi : g.Inv) (j : Nat) (o : Nat × XR K), g.objs[j]? = some o → ∃ d,
      g.view j = some (d, o.2) ∧ g.writeJson j x v = ⟨g.dicts.set o.1 (d.set x v), g.objs.set j (o.1, o.2)⟩ := by
    intro g hgi j o ho
    obtain ⟨d, hd, hview⟩ := hgi.dict ho
    refine ⟨d, hview, ?_⟩
    simp only [ChromHeap.writeJson, ho, hd]
    congr 1
    obtain ⟨hlt, he⟩ := List.getElem?_eq_some_iff.1 ho
    have : g.objs.set j o = g.objs := by rw [← he]; exact List.set_getElem_self hlt
    exact this.symm
  obtain ⟨o, ho⟩ : ∃ o, h.objs[i]? = some o := ⟨_, List.getElem?_eq_getElem hil⟩
  obtain ⟨d, hd, hview⟩ := hi.dict ho
  have hs : h.jsonCopy i = h.init d o.2 := by simp only [ChromHeap.jsonCopy, ho, hd]
  obtain ⟨hi', hview'⟩ := hi.init d o.2
  have h0 : (h.init d o.2).view h.objs.length = some (d, o.2) := by rw [hview', if_pos rfl]
  have h1 : (h.init d o.2).view i = some (d, o.2) := by rw [hview', if_neg (by omega), hview]
  have oi : (h.init d o.2).objs[i]? = some o := by
    show (h.objs ++ _)[i]? = _
    rw [List.getElem?_append_left hil, ho]
  have oc : (h.init d o.2).objs[h.objs.length]? = some (h.dicts.length, o.2) := by
    show (h.objs ++ _)[h.objs.length]? = _
    simp
  simp only
  rw [hs, hget h i _ _ hview, hget _ _ _ _ h0]
  refine ⟨rfl, ?_, ?_⟩
  · obtain ⟨d1, -, hw1⟩ := hw _ hi' i o oi
    obtain ⟨-, -, hv1⟩ := hi'.upd oi (d1.set x v) o.2
    rw [hw1]
    exact hget _ _ d o.2 (by rw [hv1, if_neg (by omega), h0])
  · obtain ⟨d1, -, hw1⟩ := hw _ hi' _ _ oc
    obtain ⟨-, -, hv1⟩ := hi'.upd oc (d1.set x v) o.2
    rw [hw1]
    exact hget _ _ d o.2 (by rw [hv1, if_neg (by omega), h1])

end History

/-! ## C30, C31 -/

/-- `x` is set by the intervention `new` on chromosome `ch`. -/
def Intervened (isNone : V → Bool) (ch : Chromosome N V K) (new : Dict N V) (x : N) : Prop :=
  x ∈ ch.locus.keys ∧ ∃ v, new.get? x = some v ∧ isNone v = false

/-- `x` is to be drawn again: held, not set, and given as `None` or below a held key of `new`. -/
def Shocked (isNone : V → Bool) (bn : BN N V C O) (ch : Chromosome N V K) (new : Dict N V) (x : N) : Prop :=
  x ∈ ch.locus.keys ∧ ¬ Intervened isNone ch new x ∧
    (x ∈ new.keys ∨ ∃ k ∈ new.keys, k ∈ ch.locus.keys ∧ TransGen bn.dag.E k x)

/-- The value of `x` is one its definition yields on the values of the chromosome. -/
def Consistent (sem : Sem N V C O S L) (bn : BN N V C O) (ch : Chromosome N V K) (x : N) : Prop :=
  ∃ l v s1 s2, bn.loci.get? x = some l ∧ ch.locus.get? x = some v ∧ l.render sem ch.locus.get? s1 = (.ok v, s2)

theorem get?_filterItems (d : Dict N V) (hw : d.WF) (c : N → V → Bool) (x : N) :
    Dict.get? (d.filterItems c) x = (d.get? x).filter (c x) := by
  cases h : d.get? x with
  | none =>
    rw [Option.filter_none]
    rw [Dict.get?_eq_none_iff] at h ⊢
    intro hx
    obtain ⟨p, hp, rfl⟩ := List.mem_map.1 hx
    exact h (List.mem_map.2 ⟨p, (List.mem_filter.1 hp).1, rfl⟩)
  | some v =>
    have hm := Dict.mem_of_get? h
    rw [Option.filter_some]
    split
    · rename_i hc
      exact Dict.get?_of_mem (hw.filterItems _) (List.mem_filter.2 ⟨hm, hc⟩)
    · rename_i hc
      rw [Dict.get?_eq_none_iff]
      intro hx
      obtain ⟨p, hp, rfl⟩ := List.mem_map.1 hx
      obtain ⟨hp1, hp2⟩ := List.mem_filter.1 hp
      have := Dict.get?_of_mem hw (show (p.1, p.2) ∈ d from hp1)
      rw [h] at this
      cases this
      exact hc hp2

/-- What `impulse` does, given its held keys are nodes. -/
theorem impulse_cases (isNone : V → Bool) (sem : Sem N V C O S L) {bn : BN N V C O} (hr : Ready bn)
    (ch : Chromosome N V K) {new : Dict N V} (hn : new.WF)
    (hh : ∃ k ∈ new.keys, k ∈ ch.locus.keys) (hnodes : ∀ k ∈ new.keys, k ∈ ch.locus.keys → k ∈ bn.dag.nodes) (s : S) :
    ∃ (imp : Dict N V) (sh od : List N), imp.WF ∧
      (∀ x, imp.get? x = if x ∈ ch.locus.keys then (new.get? x).filter (fun v => !isNone v) else none) ∧
      (∀ x, x ∈ sh ↔ Shocked isNone bn ch new x) ∧
      bn.order = .ok od ∧ TopologicalOrder (· ∈ bn.dag.nodes) bn.dag.E od ∧
      impulse isNone sem bn ch new s =
        match renderLoop sem bn sh od { ch with locus := ch.locus.update imp } s with
        | (ch2, s', .error e) => (ch2, s', .error e)
        | (ch2, s', .ok ()) => (if imp.isEmpty then ch2 else ch2.reset, s', .ok ()) := by
  obtain ⟨hw, ⟨od, ho, ht⟩, -⟩ := hr.facts
  have hheldWF : Dict.WF (new.filterItems (fun k _ => k ∈ ch.locus.keys)) := hn.filterItems _
  have hheld : ∀ x, Dict.get? (new.filterItems (fun k _ => k ∈ ch.locus.keys)) x
      = if x ∈ ch.locus.keys then new.get? x else none := by
    intro x; rw [Dict.get?_filterItems_key]; simp
  have hheldk : ∀ x, x ∈ Dict.keys (new.filterItems (fun k _ => k ∈ ch.locus.keys)) ↔
      x ∈ new.keys ∧ x ∈ ch.locus.keys := by
    intro x; rw [Dict.mem_keys_filterItems_key]; simp
  have hds := Digraph.downstream_ok (g := bn.dag) (xs := Dict.keys (new.filterItems (fun k _ => k ∈ ch.locus.keys)))
    (by
      obtain ⟨k, h1, h2⟩ := hh
      intro hc
      have := (hheldk k).2 ⟨h1, h2⟩
      rw [hc] at this; cases this)
    (by intro x hx; exact hnodes x ((hheldk x).1 hx).1 ((hheldk x).1 hx).2)
  refine ⟨(new.filterItems (fun k _ => k ∈ ch.locus.keys)).filterItems (fun _ v => !isNone v),
    ((((Dict.keys (new.filterItems (fun k _ => k ∈ ch.locus.keys))).flatMap bn.dag.desL).filter
      (· ∉ Dict.keys ((new.filterItems (fun k _ => k ∈ ch.locus.keys)).filterItems (fun _ v => !isNone v)))) ++
      Dict.keys ((new.filterItems (fun k _ => k ∈ ch.locus.keys)).filterItems (fun _ v => isNone v))).filter
      (· ∈ ch.locus.keys), od,
    hheldWF.filterItems _, ?_, ?_, ho, ht, ?_⟩
  · intro x
    rw [get?_filterItems _ hheldWF, hheld]
    split <;> rfl
  rotate_left
  · unfold impulse
    unfold Digraph.downstream at hds
    simp only [hds, ho]
    generalize renderLoop sem bn _ od _ s = q
    rcases q with ⟨_, _, _ | _⟩ <;> rfl
  · have himp : ∀ x, x ∈ Dict.keys ((new.filterItems (fun k _ => k ∈ ch.locus.keys)).filterItems
        (fun _ v => !isNone v)) ↔ Intervened isNone ch new x := by
      intro x
      rw [Dict.mem_keys_iff_exists]
      simp only [get?_filterItems _ hheldWF, hheld, Intervened]
      by_cases hx : x ∈ ch.locus.keys
      · simp only [hx, if_true, true_and, Option.filter_eq_some_iff]
        simp
      · simp [hx]
    have hnon : ∀ x, x ∈ Dict.keys ((new.filterItems (fun k _ => k ∈ ch.locus.keys)).filterItems
        (fun _ v => isNone v)) ↔ x ∈ ch.locus.keys ∧ ∃ v, new.get? x = some v ∧ isNone v = true := by
      intro x
      rw [Dict.mem_keys_iff_exists]
      simp only [get?_filterItems _ hheldWF, hheld]
      by_cases hx : x ∈ ch.locus.keys
      · simp only [hx, if_true, true_and, Option.filter_eq_some_iff]
      · simp [hx]
    intro x
    rw [List.mem_filter, List.mem_append, List.mem_filter, hnon, decide_eq_true_eq, decide_eq_true_eq, himp,
      List.mem_flatMap]
    unfold Shocked
    constructor
    · rintro ⟨h | h, hx⟩
      · obtain ⟨⟨k, hk, hd⟩, hno⟩ := h
        obtain ⟨hk1, hk2⟩ := (hheldk k).1 hk
        refine ⟨hx, hno, Or.inr ⟨k, hk1, hk2, ?_⟩⟩
        exact (Digraph.mem_desL_acyclic hw.wf hw.acyclic (hnodes k hk1 hk2) x).1 hd
      · obtain ⟨-, v, hv, hv'⟩ := h
        refine ⟨hx, ?_, Or.inl ((Dict.mem_keys_iff_exists _ _).2 ⟨v, hv⟩)⟩
        rintro ⟨-, w, hw1, hw2⟩
        rw [hv] at hw1; cases hw1
        rw [hv'] at hw2; cases hw2
    · rintro ⟨hx, hno, h | ⟨k, hk1, hk2, hp⟩⟩
      · obtain ⟨v, hv⟩ := (Dict.mem_keys_iff_exists _ _).1 h
        refine ⟨Or.inr ⟨hx, v, hv, ?_⟩, hx⟩
        by_contra hc
        exact hno ⟨hx, v, hv, by simpa using hc⟩
      · exact ⟨Or.inl ⟨⟨k, (hheldk k).2 ⟨hk1, hk2⟩,
          (Digraph.mem_desL_acyclic hw.wf hw.acyclic (hnodes k hk1 hk2) x).2 hp⟩, hno⟩, hx⟩

/-- The parts of a successful `impulse`. -/
theorem impulse_ok (isNone : V → Bool) (sem : Sem N V C O S L) {bn : BN N V C O} (hr : Ready bn)
    {ch ch' : Chromosome N V K} {new : Dict N V} (hn : new.WF)
    (hh : ∃ k ∈ new.keys, k ∈ ch.locus.keys) (hnodes : ∀ k ∈ new.keys, k ∈ ch.locus.keys → k ∈ bn.dag.nodes)
    {s s' : S} (h : impulse isNone sem bn ch new s = (ch', s', .ok ())) :
    ch'.locus.keys = ch.locus.keys ∧ ch'.logProb = .nan ∧
    (∀ x v, x ∈ ch.locus.keys → new.get? x = some v → isNone v = false → ch'.locus.get? x = some v) ∧
    (∀ x, ¬ Intervened isNone ch new x → (x ∉ bn.dag.nodes ∨ ¬ Shocked isNone bn ch new x) →
      ch'.locus.get? x = ch.locus.get? x) ∧
    (∀ x, x ∈ bn.dag.nodes → Shocked isNone bn ch new x →
      ∃ (ρ : Dict N V) (s1 s2 : S) (v : V), Rendered sem bn x v ρ s1 s2 ∧ ch'.locus.get? x = some v ∧
        ρ.keys = ch.locus.keys ∧ (∀ y, bn.dag.E y x ∨ y ∉ bn.dag.nodes ∨ ¬ Shocked isNone bn ch new y →
          ρ.get? y = ch'.locus.get? y) ∧ ρ.get? x = ch.locus.get? x) := by
  obtain ⟨imp, sh, od, hiw, himp, hsh, -, ht, he⟩ := impulse_cases isNone sem hr ch hn hh hnodes s
  rw [he] at h
  rcases hl : renderLoop sem bn sh od { ch with locus := ch.locus.update imp } s with ⟨ch2, s2, r2⟩
  rw [hl] at h
  cases r2 with
  | error e => cases h
  | ok u =>
    simp only [Prod.mk.injEq, and_true] at h
    obtain ⟨hch, rfl⟩ := h
    have hloc : ch'.locus = ch2.locus := by rw [← hch]; split <;> rfl
    have hsub : ∀ x ∈ imp.keys, x ∈ ch.locus.keys := by
      intro x hx
      obtain ⟨v, hv⟩ := (Dict.mem_keys_iff_exists _ _).1 hx
      rw [himp] at hv
      by_contra hc
      rw [if_neg hc] at hv; cases hv
    have hkeys : (ch.locus.update imp).keys = ch.locus.keys := Dict.keys_update_of_subset _ _ hsub
    obtain ⟨h1, h2, h3, h4, h5⟩ := renderLoop_ok sem bn sh od ht.nodup hl
      (by intro k hk; show k ∈ (ch.locus.update imp).keys; rw [hkeys]; exact ((hsh k).1 hk).1)
    simp only at h1 h2 h5
    have hint : ∀ x v, x ∈ ch.locus.keys → new.get? x = some v → isNone v = false → imp.get? x = some v := by
      intro x v hx hv hv'
      rw [himp, if_pos hx, hv]; simp [Option.filter, hv']
    have hnint : ∀ x, ¬ Intervened isNone ch new x → (ch.locus.update imp).get? x = ch.locus.get? x := by
      intro x hx
      rw [Dict.get?_update _ _ hiw, himp]
      split
      · rename_i hxk
        cases hv : new.get? x with
        | none => rfl
        | some v =>
          have : isNone v = true := by
            by_contra hc
            exact hx ⟨hxk, v, hv, by simpa using hc⟩
          simp [Option.filter, this]
      · rfl
    refine ⟨by rw [hloc, h1, hkeys], ?_, ?_, ?_, ?_⟩
    · rw [← hch]
      split
      · rename_i hie
        refine h4 ?_
        obtain ⟨k, hk1, hk2⟩ := hh
        refine ⟨k, (ht.complete k).2 (hnodes k hk1 hk2), (hsh k).2 ⟨hk2, ?_, Or.inl hk1⟩⟩
        rintro ⟨-, v, hv, hv'⟩
        have := hint k v hk2 hv hv'
        rw [List.isEmpty_iff.1 hie] at this
        cases this
      · rfl
    · intro x v hx hv hv'
      rw [hloc, h2 x (Or.inl (fun hs => ((hsh x).1 hs).2.1 ⟨hx, v, hv, hv'⟩)), Dict.get?_update _ _ hiw,
        hint x v hx hv hv']
      rfl
    · intro x hx hno
      rw [hloc, h2 x, hnint x hx]
      rcases hno with hno | hno
      · exact Or.inr (fun hm => hno ((ht.complete x).1 hm))
      · exact Or.inl (fun hm => hno ((hsh x).1 hm))
    · intro x hx hsx
      obtain ⟨pre, suf, e⟩ := List.append_of_mem ((ht.complete x).2 hx)
      obtain ⟨ρ, s1, s2', v, hre, hv, hk, hle, hown⟩ := h5 pre x suf e ((hsh x).2 hsx)
      refine ⟨ρ, s1, s2', v, hre, by rw [hloc]; exact hv, hk.trans hkeys, ?_, hown.trans (hnint x hsx.2.1)⟩
      intro y hy
      rw [hloc]
      apply hle
      rcases hy with hy | hy | hy
      · exact Or.inl (ht.parentsFirst pre x suf e y hy)
      · exact Or.inr (Or.inr (fun hm => hy ((ht.complete y).1 hm)))
      · exact Or.inr (Or.inl (fun hm => hy ((hsh y).1 hm)))

/-- **C30**: a successful `impulse` keeps the key set, sets what it is told to set, leaves alone what is neither set nor
below a held key nor given as `None`, and clears the probability. -/
theorem C30_frame (isNone : V → Bool) (sem : Sem N V C O S L) {bn : BN N V C O} (hr : Ready bn)
    {ch ch' : Chromosome N V K} {new : Dict N V} (hn : new.WF)
    (hh : ∃ k ∈ new.keys, k ∈ ch.locus.keys) (hnodes : ∀ k ∈ new.keys, k ∈ ch.locus.keys → k ∈ bn.dag.nodes)
    {s s' : S} (h : impulse isNone sem bn ch new s = (ch', s', .ok ())) :
    ch'.locus.keys = ch.locus.keys ∧ ch'.logProb = .nan ∧
    (∀ x v, x ∈ ch.locus.keys → new.get? x = some v → isNone v = false → ch'.locus.get? x = some v) ∧
    (∀ x, ¬ Intervened isNone ch new x → ¬ Shocked isNone bn ch new x → ch'.locus.get? x = ch.locus.get? x) := by
  obtain ⟨h1, h2, h3, h4, -⟩ := impulse_ok isNone sem hr hn hh hnodes h
  exact ⟨h1, h2, h3, fun x hx hs => h4 x hx (Or.inr hs)⟩

theorem shocked_mem {isNone : V → Bool} {bn : BN N V C O} (hr : Ready bn) {ch : Chromosome N V K} {new : Dict N V}
    (hnodes : ∀ k ∈ new.keys, k ∈ ch.locus.keys → k ∈ bn.dag.nodes) {x : N}
    (h : Shocked isNone bn ch new x) : x ∈ bn.dag.nodes := by
  obtain ⟨hx, -, h | ⟨k, -, -, hp⟩⟩ := h
  · exact hnodes x h hx
  · exact Digraph.mem_nodes_of_trans_right hr.facts.1.wf hp

/-- **C30**: every node that is drawn again ends with a value its definition yields on the final values. -/
theorem C30_redrawn (isNone : V → Bool) (sem : Sem N V C O S L) (hcl : ∀ c, (sem.reparse c).names = [])
    {bn : BN N V C O} (hr : Ready bn)
    {ch ch' : Chromosome N V K} {new : Dict N V} (hn : new.WF) (hns : NoShadow bn ch.locus.keys)
    (hh : ∃ k ∈ new.keys, k ∈ ch.locus.keys) (hnodes : ∀ k ∈ new.keys, k ∈ ch.locus.keys → k ∈ bn.dag.nodes)
    {s s' : S} (h : impulse isNone sem bn ch new s = (ch', s', .ok ())) {x : N}
    (hx : Shocked isNone bn ch new x) : Consistent sem bn ch' x := by
  obtain ⟨h1, -, -, -, h5⟩ := impulse_ok isNone sem hr hn hh hnodes h
  have hw := hr.facts.1
  obtain ⟨ρ, s1, s2, v, ⟨l, hl, hre⟩, hv, hk, hle, hown⟩ := h5 x (shocked_mem hr hnodes hx) hx
  refine ⟨l, v, s1, s2, hl, hv, ?_⟩
  have hpar : ∀ p ∈ l.parents, ρ.get? p = ch'.locus.get? p := fun p hp =>
    hle p (Or.inl ((hw.edges p x).2 ⟨l, hl, hp⟩))
  rw [← Loci.render_congr sem hcl l hpar ?_ ?_ s1]
  · exact hre
  · rintro n f ps rfl y hy
    rcases hns x n f ps hl y ((Expr.mem_names y f).1 hy) with hy | ⟨-, hy⟩
    · exact hpar y hy
    · rw [(Dict.get?_eq_none_iff _ _).2 (by rw [hk]; exact hy), (Dict.get?_eq_none_iff _ _).2 (by rw [h1]; exact hy)]
  · rintro n rfl
    have hnx : n = x := hw.named x _ hl
    subst hnx
    simp only [Loci.render] at hre
    cases hg : ρ.get? n with
    | none => rw [hg] at hre; cases hre
    | some w => rw [hg] at hre; cases hre; exact hv.symm

/-- **C30**: consistency of the values that are not set is preserved. -/
theorem C30_consistent (isNone : V → Bool) (sem : Sem N V C O S L) (hcl : ∀ c, (sem.reparse c).names = [])
    {bn : BN N V C O} (hr : Ready bn)
    {ch ch' : Chromosome N V K} {new : Dict N V} (hn : new.WF) (hns : NoShadow bn ch.locus.keys)
    (hh : ∃ k ∈ new.keys, k ∈ ch.locus.keys) (hnodes : ∀ k ∈ new.keys, k ∈ ch.locus.keys → k ∈ bn.dag.nodes)
    {s s' : S} (h : impulse isNone sem bn ch new s = (ch', s', .ok ()))
    {x : N} (hxi : ¬ Intervened isNone ch new x) (hc : Consistent sem bn ch x) : Consistent sem bn ch' x := by
  by_cases hx : Shocked isNone bn ch new x
  · exact C30_redrawn isNone sem hcl hr hn hns hh hnodes h hx
  obtain ⟨h1, -, -, h4⟩ := C30_frame isNone sem hr hn hh hnodes h
  have hw := hr.facts.1
  obtain ⟨l, v, s1, s2, hl, hv, hre⟩ := hc
  have hxk : x ∈ ch.locus.keys := (Dict.mem_keys_iff_exists _ _).2 ⟨v, hv⟩
  refine ⟨l, v, s1, s2, hl, by rw [h4 x hxi hx, hv], ?_⟩
  have hpar : ∀ p ∈ l.parents, ch.locus.get? p = ch'.locus.get? p := by
    intro p hp
    have he := (hw.edges p x).2 ⟨l, hl, hp⟩
    refine (h4 p ?_ ?_).symm
    · rintro ⟨hpk, w, hw1, -⟩
      exact hx ⟨hxk, hxi, Or.inr ⟨p, (Dict.mem_keys_iff_exists _ _).2 ⟨w, hw1⟩, hpk, TransGen.single he⟩⟩
    · rintro ⟨hpk, -, hp' | ⟨k, hk1, hk2, hkp⟩⟩
      · exact hx ⟨hxk, hxi, Or.inr ⟨p, hp', hpk, TransGen.single he⟩⟩
      · exact hx ⟨hxk, hxi, Or.inr ⟨k, hk1, hk2, hkp.tail he⟩⟩
  rw [← Loci.render_congr sem hcl l hpar ?_ ?_ s1]
  · exact hre
  · rintro n f ps rfl y hy
    rcases hns x n f ps hl y ((Expr.mem_names y f).1 hy) with hy | ⟨-, hy⟩
    · exact hpar y hy
    · rw [(Dict.get?_eq_none_iff _ _).2 hy, (Dict.get?_eq_none_iff _ _).2 (by rw [h1]; exact hy)]
  · rintro n rfl
    have hnx : n = x := hw.named x _ hl
    subst hnx
    exact (h4 n hxi hx).symm

/-- **C30**: a held key that is not a node of the network is refused, and nothing changes. -/
theorem C30_unknown (isNone : V → Bool) (sem : Sem N V C O S L) (bn : BN N V C O) (ch : Chromosome N V K)
    {new : Dict N V} {k : N} (hk : k ∈ new.keys) (hc : k ∈ ch.locus.keys) (hb : k ∉ bn.dag.nodes) (s : S) :
    impulse isNone sem bn ch new s = (ch, s, .error .NetworkXError) := by
  have hd := Digraph.downstream_error (g := bn.dag)
    (xs := Dict.keys (new.filterItems (fun k _ => k ∈ ch.locus.keys)))
    ⟨k, by rw [Dict.mem_keys_filterItems_key]; simp [hk, hc], hb⟩
  unfold Digraph.downstream at hd
  unfold impulse
  simp only [hd]

/-- The isNone test of the examples: the string value stands for `None`. -/
def exNone : Toy.TV → Bool
  | .str _ => true
  | _ => false

/-- The chromosome of the examples. -/
def exCh : Chromosome String Toy.TV Int :=
  ⟨[("u", .num 10), ("m", .num 2), ("x", .num 7), ("y", .num 16), ("z", .num 26)], .fin (-25)⟩

/-- Setting `m` redraws `x`, `y` and `z` and keeps `u`. -/
example : impulse exNone Toy.sem exBN exCh [("m", .num 3), ("q", .num 0)] 5
    = (⟨[("u", .num 10), ("m", .num 3), ("x", .num 8), ("y", .num 19), ("z", .num 29)], .nan⟩, 6, .ok ()) ∧
    NoShadow exBN exCh.locus.keys ∧ (∀ k ∈ Dict.keys [("m", Toy.TV.num 3), ("q", .num 0)],
      k ∈ exCh.locus.keys → k ∈ exBN.dag.nodes) :=
  ⟨by decide, noShadow_of_check (by decide), by decide⟩

/-- Giving `x` as `None` draws it again with what depends on it. -/
example : impulse exNone Toy.sem exBN exCh [("x", .str "None")] 9
    = (⟨[("u", .num 10), ("m", .num 2), ("x", .num 11), ("y", .num 24), ("z", .num 34)], .nan⟩, 10, .ok ()) := by
  decide

/-- **C31 is false**: an intervention with nothing to do raises `TypeError` instead of being a no-op. -/
theorem C31_refuted : ∃ (bn : BN String Toy.TV Toy.TC Unit) (ch : Chromosome String Toy.TV Int)
    (new : Dict String Toy.TV) (s : Int), Ready bn ∧ (∀ k ∈ new.keys, k ∉ ch.locus.keys) ∧
    (impulse exNone Toy.sem bn ch new s).2.2 = .error .TypeError :=
  ⟨exBN, exCh, [("q", .num 0)], 5, ⟨_, _, exBuilt, Or.inl rfl⟩, by decide, by decide⟩

/-- **C31**, what holds: the chromosome and the random state are unchanged - but the call always raises `TypeError`
(missing: a normal return). -/
theorem C31_partial (isNone : V → Bool) (sem : Sem N V C O S L) (bn : BN N V C O) (ch : Chromosome N V K)
    {new : Dict N V} (hno : ∀ k ∈ new.keys, k ∉ ch.locus.keys) (s : S) :
    impulse isNone sem bn ch new s = (ch, s, .error .TypeError) := by
  have : new.filterItems (fun k _ => k ∈ ch.locus.keys) = [] := by
    unfold Dict.filterItems
    rw [List.filter_eq_nil_iff]
    intro p hp
    have := hno p.1 (Dict.mem_keys_of_mem (v := p.2) hp)
    simpa using this
  unfold impulse
  simp only [this]
  rfl

/-- **C31** without a network: a true no-op. -/
theorem C31_plain (ch : Chromosome N V K) {new : Dict N V} (hno : ∀ k ∈ new.keys, k ∉ ch.locus.keys) :
    impulsePlain ch new = ch := by
  have : new.filterItems (fun k _ => k ∈ ch.locus.keys) = [] := by
    unfold Dict.filterItems
    rw [List.filter_eq_nil_iff]
    intro p hp
    have := hno p.1 (Dict.mem_keys_of_mem (v := p.2) hp)
    simpa using this
  unfold impulsePlain
  simp only [this]
  rfl

/-! ## C80 -/

/-- **C80 is false**: when re-rendering fails, the new values are already in the chromosome but its old probability is
still there, so it claims to be evaluated.  Here `y` is held but its parent `x` is not. -/
theorem C80_refuted : ∃ (bn : BN String Toy.TV Toy.TC Unit) (ch ch' : Chromosome String Toy.TV Int)
    (new : Dict String Toy.TV) (s s' : Int) (e : Err), Ready bn ∧
    impulse exNone Toy.sem bn ch new s = (ch', s', .error e) ∧ ch'.locus ≠ ch.locus ∧
    ch.isEvaluated = true ∧ ch'.isEvaluated = true := by
  refine ⟨exBN, ⟨[("m", .num 2), ("y", .num 16)], .fin (-25)⟩, ⟨[("m", .num 3), ("y", .num 16)], .fin (-25)⟩,
    [("m", .num 3)], 5, 5, .KeyError, ⟨_, _, exBuilt, Or.inl rfl⟩, by decide, by decide, by decide, by decide⟩

theorem renderLoop_keeps (sem : Sem N V C O S L) (bn : BN N V C O) (sh : List N) :
    ∀ (xs : List N) {ch ch' : Chromosome N V K} {s s' : S} {r : Result Unit},
    renderLoop sem bn sh xs ch s = (ch', s', r) → ch' = ch ∨ ch'.logProb = .nan := by
  intro xs
  induction xs with
  | nil =>
    intro ch ch' s s' r h
    cases h; exact Or.inl rfl
  | cons x xs ih =>
    intro ch ch' s s' r h
    simp only [renderLoop] at h
    split at h
    · split at h
      · cases h; exact Or.inl rfl
      · split at h
        · cases h; exact Or.inl rfl
        · rcases ih h with h | h
          · right; rw [h]; rfl
          · exact Or.inr h
    · exact ih h

/-- **C80**, what holds: a chromosome that is still evaluated after a failed `impulse` has lost no value other than
those it was told to set. -/
theorem C80_partial (isNone : V → Bool) (sem : Sem N V C O S L) (bn : BN N V C O) {ch ch' : Chromosome N V K}
    {new : Dict N V} (hn : new.WF) {s s' : S} {e : Err}
    (h : impulse isNone sem bn ch new s = (ch', s', .error e)) (he : ch'.isEvaluated = true) {x : N}
    (hx : ¬ Intervened isNone ch new x) : ch'.locus.get? x = ch.locus.get? x := by
  have hheldWF : Dict.WF (new.filterItems (fun k _ => k ∈ ch.locus.keys)) := hn.filterItems _
  have hupd : (ch.locus.update ((new.filterItems (fun k _ => k ∈ ch.locus.keys)).filterItems
      (fun _ v => !isNone v))).get? x = ch.locus.get? x := by
    rw [Dict.get?_update _ _ (hheldWF.filterItems _), get?_filterItems _ hheldWF, get?_filterItems _ hn]
    cases hv : new.get? x with
    | none => rfl
    | some v =>
      by_cases hk : x ∈ ch.locus.keys
      · have : isNone v = true := by
          by_contra hc
          exact hx ⟨hk, v, hv, by simpa using hc⟩
        simp [Option.filter, hk, this]
      · simp [Option.filter, hk]
  have hnn : ch'.logProb ≠ .nan := by
    intro hc; unfold isEvaluated at he; rw [hc] at he; cases he
  unfold impulse at h
  simp only at h
  split at h
  · cases h; rfl
  · split at h
    · cases h; exact hupd
    · split at h
      · rename_i hl
        cases h
        rcases renderLoop_keeps sem bn _ _ hl with h | h
        · rw [h]; exact hupd
        · exact absurd h hnn
      · cases h

end Props.Chromosome
