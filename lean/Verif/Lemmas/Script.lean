import Verif.Model.Script

/-!
# Helper lemmas on text
-/

namespace Model

set_option linter.unusedSectionVars false

open Py

variable {N V C O S L : Type} [DecidableEq N]

theorem mapM_ok_mem {α β : Type} {f : α → Result β} : ∀ {l : List α} {ls : List β}, l.mapM f = .ok ls →
    (∀ t ∈ ls, ∃ x ∈ l, f x = .ok t) ∧ ∀ x ∈ l, ∃ t ∈ ls, f x = .ok t := by
  intro l
  induction l with
  | nil => intro ls h; cases h; simp
  | cons a l ih =>
    intro ls h
    rw [List.mapM_cons] at h
    cases ha : f a with
    | error e => rw [ha] at h; cases h
    | ok b =>
      rw [ha] at h
      cases hl : l.mapM f with
      | error e => rw [hl] at h; cases h
      | ok bs =>
        rw [hl] at h
        cases h
        obtain ⟨h1, h2⟩ := ih hl
        refine ⟨?_, ?_⟩
        · intro t ht
          rcases List.mem_cons.1 ht with rfl | ht
          · exact ⟨a, by simp, ha⟩
          · obtain ⟨x, hx, e⟩ := h1 t ht
            exact ⟨x, by simp [hx], e⟩
        · intro x hx
          rcases List.mem_cons.1 hx with rfl | hx
          · exact ⟨b, by simp, ha⟩
          · obtain ⟨t, ht, e⟩ := h2 x hx
            exact ⟨t, by simp [ht], e⟩

theorem drop_takeWhile (p : Char → Bool) : ∀ t : Text, t.drop (t.takeWhile p).length = t.dropWhile p := by
  intro t
  induction t with
  | nil => rfl
  | cons c t ih =>
    by_cases h : p c = true
    · rw [List.takeWhile_cons_of_pos h, List.dropWhile_cons_of_pos h]; simpa using ih
    · rw [List.takeWhile_cons_of_neg h, List.dropWhile_cons_of_neg h]; rfl

theorem takeWhile_split {p : Char → Bool} {a r : Text} (ha : ∀ c ∈ a, p c = true) (hr : ∀ c ∈ r.head?, p c = false) :
    (a ++ r).takeWhile p = a := by
  rw [List.takeWhile_append_of_pos ha]
  cases r with
  | nil => simp
  | cons c r =>
    rw [List.takeWhile_cons_of_neg (by rw [hr c (by simp)]; simp)]; simp

theorem dropWhile_head {p : Char → Bool} (t : Text) : ∀ c ∈ (t.dropWhile p).head?, p c = false := by
  induction t with
  | nil => simp
  | cons x t ih =>
    by_cases h : p x = true
    · rw [List.dropWhile_cons_of_pos h]; exact ih
    · rw [List.dropWhile_cons_of_neg h]
      intro c hc
      simp at hc
      subst hc
      simpa using h

theorem mem_takeWhile {p : Char → Bool} (t : Text) : ∀ c ∈ t.takeWhile p, p c = true := by
  induction t with
  | nil => simp
  | cons x t ih =>
    by_cases h : p x = true
    · rw [List.takeWhile_cons_of_pos h]
      intro c hc
      rcases List.mem_cons.1 hc with rfl | hc
      · exact h
      · exact ih c hc
    · rw [List.takeWhile_cons_of_neg h]; simp

/-- `\A(\w+)sep(\S+)` matches exactly the texts that start with a name, the separator and a body. -/
theorem matchSep_iff (cls : CharClass) {sep : Char} (hs : cls.word sep = false) (t n b : Text) :
    matchSep cls sep t = some (n, b) ↔ n ≠ [] ∧ b ≠ [] ∧ (∀ c ∈ n, cls.word c = true) ∧
      (∀ c ∈ b, cls.space c = false) ∧ ∃ r, t = n ++ sep :: (b ++ r) ∧ ∀ c ∈ r.head?, cls.space c = true := by
  unfold matchSep
  simp only
  rw [drop_takeWhile]
  constructor
  · intro h
    have htt : t.takeWhile cls.word ++ t.dropWhile cls.word = t := List.takeWhile_append_dropWhile
    cases hd : t.dropWhile cls.word with
    | nil => rw [hd] at h; cases h
    | cons c r =>
      rw [hd] at h htt
      simp only at h
      split at h
      · rename_i hc
        obtain ⟨rfl, h1, h2⟩ := hc
        cases h
        refine ⟨h1, h2, mem_takeWhile t, fun x hx => by simpa using mem_takeWhile r x hx,
          r.dropWhile (fun c => !cls.space c), ?_, fun x hx => by simpa using dropWhile_head r x hx⟩
        rw [List.takeWhile_append_dropWhile]
        exact htt.symm
      · cases h
  · rintro ⟨h1, h2, h3, h4, r, rfl, h5⟩
    have e1 : (n ++ sep :: (b ++ r)).takeWhile cls.word = n :=
      takeWhile_split h3 (by intro c hc; simp at hc; subst hc; exact hs)
    have e2 : (n ++ sep :: (b ++ r)).dropWhile cls.word = sep :: (b ++ r) := by
      rw [← drop_takeWhile, e1]; simp
    have e3 : (b ++ r).takeWhile (fun c => !cls.space c) = b :=
      takeWhile_split (fun c hc => by simp [h4 c hc]) (fun c hc => by simp [h5 c hc])
    rw [e2]
    simp only [e1, e3]
    rw [if_pos ⟨trivial, h1, h2⟩]

/-- No match when the run of word characters is not followed by the separator. -/
theorem matchSep_none (cls : CharClass) {sep c : Char} {w r : Text} (hw : ∀ x ∈ w, cls.word x = true)
    (hc : cls.word c = false) (hne : c ≠ sep) : matchSep cls sep (w ++ c :: r) = none := by
  have e1 : (w ++ c :: r).takeWhile cls.word = w :=
    takeWhile_split hw (by intro x hx; simp at hx; subst hx; exact hc)
  unfold matchSep
  simp [e1, hne]

theorem matchSep_words (cls : CharClass) {sep : Char} {w : Text} (hw : ∀ x ∈ w, cls.word x = true) :
    matchSep cls sep w = none := by
  have e1 : w.takeWhile cls.word = w := by
    have := takeWhile_split (p := cls.word) (a := w) (r := []) hw (by simp)
    simpa using this
  unfold matchSep
  simp [e1]

/-- The description is split off at a `#` that is followed by text without further `#`. -/
theorem matchHash_split (cls : CharClass) {a d r : Text} (ha : a ≠ []) (hd : d ≠ [])
    (hsa : ∀ c ∈ a, cls.space c = false) (hsd : ∀ c ∈ d, cls.space c = false) (hh : '#' ∉ d)
    (hr : ∀ c ∈ r.head?, cls.space c = true) : matchHash cls (a ++ '#' :: (d ++ r)) = some (a, d) := by
  have e : (a ++ '#' :: (d ++ r)).takeWhile (fun c => !cls.space c) = a ++ '#' :: d := by
    have := takeWhile_split (p := fun c => !cls.space c) (a := a ++ '#' :: d) (r := r)
      (by
        intro c hc
        rcases List.mem_append.1 hc with hc | hc
        · simp [hsa c hc]
        · rcases List.mem_cons.1 hc with rfl | hc
          · simp [cls.space_sep '#' (by simp)]
          · simp [hsd c hc])
      (fun c hc => by simp [hr c hc])
    rw [← this]
    simp
  unfold matchHash
  simp only [e]
  have hlen : (a ++ '#' :: d).length = (a.length + 1) + d.length := by simp; omega
  rw [hlen, List.range_add, List.range_succ, List.reverse_append, List.findSome?_append]
  have h0 : ((List.range d.length).map (a.length + 1 + ·)).reverse.findSome? (fun i =>
      if 1 ≤ i ∧ (a ++ '#' :: d)[i]? = some '#' ∧ i + 1 < a.length + 1 + d.length then
        some ((a ++ '#' :: d).take i, (a ++ '#' :: d).drop (i + 1)) else none) = none := by
    rw [List.findSome?_eq_none_iff]
    intro i hi
    rw [List.mem_reverse, List.mem_map] at hi
    obtain ⟨j, hj, rfl⟩ := hi
    rw [if_neg]
    rintro ⟨-, h, -⟩
    have : (a ++ '#' :: d)[a.length + 1 + j]? = d[j]? := by
      rw [List.getElem?_append_right (by omega)]
      have : a.length + 1 + j - a.length = j + 1 := by omega
      rw [this, List.getElem?_cons_succ]
    rw [this] at h
    exact hh (List.mem_of_getElem? h)
  rw [h0]
  simp only [List.reverse_append, List.reverse_cons, List.reverse_nil, List.nil_append, List.singleton_append,
    List.findSome?_cons, Option.none_or]
  have ha' : 1 ≤ a.length := List.length_pos_iff.2 ha
  have hd' : 0 < d.length := List.length_pos_iff.2 hd
  rw [if_pos]
  · simp
  · refine ⟨ha', ?_, by omega⟩
    rw [List.getElem?_append_right (Nat.le_refl _)]
    simp

theorem matchHash_none_of_space (cls : CharClass) {t : Text} (h : ∀ c ∈ t.head?, cls.space c = true) :
    matchHash cls t = none := by
  have e : t.takeWhile (fun c => !cls.space c) = [] := by
    have := takeWhile_split (p := fun c => !cls.space c) (a := []) (r := t) (by simp) (fun c hc => by simp [h c hc])
    simpa using this
  unfold matchHash
  simp [e]

namespace BN

theorem splitLines_ne_nil (t : Text) : splitLines t ≠ [] := by
  induction t with
  | nil => simp [splitLines]
  | cons c t ih =>
    unfold splitLines
    split
    · simp
    · split <;> simp

theorem splitLines_single {a : Text} (h : '\n' ∉ a) : splitLines a = [a] := by
  induction a with
  | nil => rfl
  | cons c a ih =>
    simp only [List.mem_cons, not_or] at h
    unfold splitLines
    rw [if_neg (Ne.symm h.1), ih h.2]

theorem splitLines_append {a : Text} (h : '\n' ∉ a) (b : Text) :
    splitLines (a ++ '\n' :: b) = a :: splitLines b := by
  induction a with
  | nil => simp [splitLines]
  | cons c a ih =>
    simp only [List.mem_cons, not_or] at h
    rw [List.cons_append, splitLines, if_neg (Ne.symm h.1), ih h.2]

theorem splitLines_join (ls : List Text) (h : ∀ l ∈ ls, '\n' ∉ l) (b : Text) :
    splitLines (ls.flatMap (fun l => l ++ ['\n']) ++ b) = ls ++ splitLines b := by
  induction ls with
  | nil => rfl
  | cons l ls ih =>
    have e : (l :: ls).flatMap (fun l => l ++ ['\n']) ++ b
        = l ++ '\n' :: (ls.flatMap (fun l => l ++ ['\n']) ++ b) := by
      simp [List.flatMap_cons]
    rw [e, splitLines_append (h l (by simp)), ih (fun x hx => h x (by simp [hx]))]
    rfl

end BN

end Model
