import Verif.Lemmas.Sampling
import Verif.Lemmas.Dag

/-!
# Helper lemmas on chromosomes
-/

namespace Model

set_option linter.unusedSectionVars false

open Py Spec Relation

variable {N V C O S L K : Type} [DecidableEq N]

namespace Chromosome

theorem renderLoop_ok (sem : Sem N V C O S L) (bn : BN N V C O) (sh : List N) :
    ∀ (xs : List N) {ch ch' : Chromosome N V K} {s s' : S}, xs.Nodup →
    renderLoop sem bn sh xs ch s = (ch', s', .ok ()) →
    (∀ k ∈ sh, k ∈ ch.locus.keys) →
    ch'.locus.keys = ch.locus.keys ∧
    (∀ k, (k ∉ sh ∨ k ∉ xs) → ch'.locus.get? k = ch.locus.get? k) ∧
    ((∀ k ∈ xs, k ∉ sh) → ch' = ch) ∧
    ((∃ k ∈ xs, k ∈ sh) → ch'.logProb = .nan) ∧
    (∀ pre k suf, xs = pre ++ k :: suf → k ∈ sh →
      ∃ (ρ : Dict N V) (s1 s2 : S) (v : V), Rendered sem bn k v ρ s1 s2 ∧ ch'.locus.get? k = some v ∧
        ρ.keys = ch.locus.keys ∧
        (∀ y, y ∈ pre ∨ y ∉ sh ∨ y ∉ xs → ρ.get? y = ch'.locus.get? y) ∧
        (ρ.get? k = ch.locus.get? k)) := by
  intro xs
  induction xs with
  | nil =>
    intro ch ch' s s' _ h _
    simp only [renderLoop, Prod.mk.injEq, and_true] at h
    obtain ⟨rfl, rfl⟩ := h
    exact ⟨rfl, fun _ _ => rfl, fun _ => rfl, by simp, by simp⟩
  | cons x xs ih =>
    intro ch ch' s s' hnd h hsh
    obtain ⟨hx, hnd'⟩ := List.nodup_cons.1 hnd
    simp only [renderLoop] at h
    by_cases hxs : x ∈ sh
    · rw [if_pos hxs] at h
      cases hg : bn.get x with
      | error e => rw [hg] at h; cases h
      | ok l =>
        rw [hg] at h
        simp only at h
        rcases hr : l.render sem ch.locus.get? s with ⟨r0, s0⟩
        rw [hr] at h
        cases r0 with
        | error e => cases h
        | ok v =>
          simp only at h
          have hkeys : (ch.set x v).locus.keys = ch.locus.keys := by
            show (ch.locus.set x v).keys = _
            rw [Dict.keys_set, if_pos (hsh x hxs)]
          obtain ⟨h1, h2, h3, h4, h5⟩ := ih hnd' h (by rw [hkeys]; exact hsh)
          have hother : ∀ k, k ≠ x → (ch.set x v).locus.get? k = ch.locus.get? k := fun k hk =>
            Dict.get?_set_ne _ _ (Ne.symm hk)
          have hself : ch'.locus.get? x = some v := by
            rw [h2 x (Or.inr hx)]; exact Dict.get?_set_self _ _ _
          have hnan : ch'.logProb = .nan := by
            by_cases hex : ∃ k ∈ xs, k ∈ sh
            · exact h4 hex
            · rw [h3 (fun k hk hks => hex ⟨k, hk, hks⟩)]; rfl
          refine ⟨h1.trans hkeys, ?_, ?_, fun _ => hnan, ?_⟩
          · intro k hk
            have hkx : k ≠ x := by
              rintro rfl
              rcases hk with hk | hk
              · exact hk hxs
              · exact hk (by simp)
            rw [h2 k (hk.imp_right (fun hh hm => hh (by simp [hm]))), hother k hkx]
          · intro hall; exact absurd hxs (hall x (by simp))
          · intro pre k suf e hks
            cases pre with
            | nil =>
              simp only [List.nil_append, List.cons.injEq] at e
              obtain ⟨rfl, rfl⟩ := e
              refine ⟨ch.locus, s, s0, v, ⟨l, get_eq_ok hg, hr⟩, hself, rfl, ?_, rfl⟩
              intro y hy
              have hyx : y ≠ x := by
                rintro rfl
                rcases hy with hy | hy | hy
                · cases hy
                · exact hy hxs
                · exact hy (by simp)
              rw [h2 y, hother y hyx]
              rcases hy with hy | hy | hy
              · cases hy
              · exact Or.inl hy
              · exact Or.inr (fun hm => hy (by simp [hm]))
            | cons p pre =>
              simp only [List.cons_append, List.cons.injEq] at e
              obtain ⟨rfl, rfl⟩ := e
              have hkx : k ≠ x := by rintro rfl; exact hx (by simp)
              obtain ⟨ρ, s1, s2, w, hre, hw, hk, hle, hown⟩ := h5 pre k suf rfl hks
              refine ⟨ρ, s1, s2, w, hre, hw, hk.trans hkeys, ?_, hown.trans (hother k hkx)⟩
              intro y hy
              apply hle
              rcases hy with hy | hy | hy
              · rcases List.mem_cons.1 hy with rfl | hy
                · exact Or.inr (Or.inr hx)
                · exact Or.inl hy
              · exact Or.inr (Or.inl hy)
              · exact Or.inr (Or.inr (fun hm => hy (List.mem_cons_of_mem _ hm)))
    · rw [if_neg hxs] at h
      obtain ⟨h1, h2, h3, h4, h5⟩ := ih hnd' h hsh
      refine ⟨h1, ?_, ?_, ?_, ?_⟩
      · intro k hk
        exact h2 k (hk.imp_right (fun hh hm => hh (by simp [hm])))
      · intro hall; exact h3 (fun k hk => hall k (by simp [hk]))
      · rintro ⟨k, hk, hks⟩
        rcases List.mem_cons.1 hk with rfl | hk
        · exact absurd hks hxs
        · exact h4 ⟨k, hk, hks⟩
      · intro pre k suf e hks
        cases pre with
        | nil =>
          simp only [List.nil_append, List.cons.injEq] at e
          obtain ⟨rfl, rfl⟩ := e
          exact absurd hks hxs
        | cons p pre =>
          simp only [List.cons_append, List.cons.injEq] at e
          obtain ⟨rfl, rfl⟩ := e
          obtain ⟨ρ, s1, s2, w, hre, hw, hk, hle, hown⟩ := h5 pre k suf rfl hks
          refine ⟨ρ, s1, s2, w, hre, hw, hk, ?_, hown⟩
          intro y hy
          apply hle
          rcases hy with hy | hy | hy
          · rcases List.mem_cons.1 hy with rfl | hy
            · exact Or.inr (Or.inl hxs)
            · exact Or.inl hy
          · exact Or.inr (Or.inl hy)
          · exact Or.inr (Or.inr (fun hm => hy (List.mem_cons_of_mem _ hm)))

end Chromosome

end Model
