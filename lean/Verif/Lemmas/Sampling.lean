import Verif.Model.Sampling
import Verif.Lemmas.BN
import Verif.Props.Expr
import Verif.Props.BN

/-!
# Helper lemmas on sampling
-/

namespace Model

set_option linter.unusedSectionVars false

open Py Spec Relation

variable {N V C O S L K : Type} [DecidableEq N]

/-- What a definition may read from a dictionary: its parents, all names of a distribution, itself if exogenous. -/
theorem Loci.render_congr (sem : Sem N V C O S L) (hcl : ∀ c, (sem.reparse c).names = []) (l : Loci N V C O)
    {ρ ρ' : N → Option V} (h : ∀ p ∈ l.parents, ρ p = ρ' p)
    (hd : ∀ n f ps, l = .dist n f ps → ∀ y ∈ f.names, ρ y = ρ' y)
    (he : ∀ n, l = .exo n → ρ n = ρ' n) (s : S) : l.render sem ρ s = l.render sem ρ' s := by
  cases l with
  | value n v => rfl
  | exo n => simp only [Loci.render, he n rfl]
  | dist n f ps =>
    simp only [Loci.render, Props.Expr.getDistribution_congr sem hcl (hd n f ps rfl)]
  | func n e ps => exact Props.Expr.C33_no_capture sem n e ps h s
  | pseudo n ps => rfl

/-- One successful rendering recorded by the loop. -/
structure Rendered (sem : Sem N V C O S L) (bn : BN N V C O) (x : N) (v : V) (ρ : Dict N V) (s s' : S) : Prop where
  intro ::
  fact : ∃ l, bn.loci.get? x = some l ∧ l.render sem ρ.get? s = (.ok v, s')

theorem get_eq_ok {bn : BN N V C O} {x : N} {l : Loci N V C O} (h : bn.get x = .ok l) :
    bn.loci.get? x = some l := by
  unfold BN.get at h
  cases hl : bn.loci.get? x with
  | none => rw [hl] at h; cases h
  | some l' => rw [hl] at h; cases h; rfl

theorem sampleLoop_ok (sem : Sem N V C O S L) (bn : BN N V C O) (sel : N → Bool) :
    ∀ (xs : List N) {res r : Dict N V} {s s' : S}, sampleLoop sem bn sel xs res s = (.ok r, s') →
    (∀ k, k ∈ r.keys ↔ k ∈ res.keys ∨ (k ∈ xs ∧ sel k)) ∧
    (∀ k v, res.get? k = some v → r.get? k = some v) ∧
    (res.WF → r.WF) ∧
    (∀ pre k suf, xs = pre ++ k :: suf → k ∉ pre → sel k → k ∉ res.keys →
      ∃ ρ s1 s2 v, Rendered sem bn k v ρ s1 s2 ∧ r.get? k = some v ∧
        (∀ y, y ∈ ρ.keys ↔ y ∈ res.keys ∨ (y ∈ pre ∧ sel y)) ∧
        (∀ y w, ρ.get? y = some w → r.get? y = some w)) := by
  intro xs
  induction xs with
  | nil =>
    intro res r s s' h
    simp only [sampleLoop, Prod.mk.injEq, Except.ok.injEq] at h
    obtain ⟨rfl, rfl⟩ := h
    exact ⟨by simp, fun k v h => h, fun h => h, by simp⟩
  | cons x xs ih =>
    intro res r s s' h
    simp only [sampleLoop] at h
    by_cases hx : (sel x && x ∉ res.keys) = true
    · rw [if_pos hx] at h
      have hsel : sel x = true := by simp at hx; exact hx.1
      have hxr : x ∉ res.keys := by simp at hx; exact hx.2
      cases hg : bn.get x with
      | error e => rw [hg] at h; cases h
      | ok l =>
        rw [hg] at h
        simp only at h
        rcases hr : l.render sem res.get? s with ⟨r0, s0⟩
        rw [hr] at h
        cases r0 with
        | error e => cases h
        | ok v =>
          simp only at h
          obtain ⟨h1, h2, h3, h4⟩ := ih h
          have hk : ∀ k, k ∈ r.keys ↔ k ∈ res.keys ∨ (k ∈ x :: xs ∧ sel k) := by
            intro k
            rw [h1, Dict.mem_keys_set, List.mem_cons]
            by_cases hkx : k = x
            · subst hkx; simp [hsel]
            · simp [hkx]
          have hkeep : ∀ k v, res.get? k = some v → r.get? k = some v := by
            intro k w hw
            apply h2
            rw [Dict.get?_set_ne]
            · exact hw
            · rintro rfl
              exact hxr ((Dict.mem_keys_iff_exists _ _).2 ⟨w, hw⟩)
          refine ⟨hk, hkeep, fun hw => h3 (hw.set _ _), ?_⟩
          intro pre k suf e hkp hks hkr
          cases pre with
          | nil =>
            simp only [List.nil_append, List.cons.injEq] at e
            obtain ⟨rfl, rfl⟩ := e
            refine ⟨res, s, s0, v, ⟨l, get_eq_ok hg, hr⟩, h2 _ _ (Dict.get?_set_self _ _ _), by simp, hkeep⟩
          | cons p pre =>
            simp only [List.cons_append, List.cons.injEq] at e
            obtain ⟨rfl, rfl⟩ := e
            have hkx : k ≠ x := fun hh => hkp (by simp [hh])
            obtain ⟨ρ, s1, s2, w, hre, hw, hmem, hle⟩ := h4 pre k suf rfl (fun hh => hkp (by simp [hh])) hks
              (by rw [Dict.mem_keys_set]; simp [hkx, hkr])
            refine ⟨ρ, s1, s2, w, hre, hw, ?_, hle⟩
            intro y
            rw [hmem, Dict.mem_keys_set, List.mem_cons]
            by_cases hyx : y = x
            · subst hyx; simp [hsel]
            · simp [hyx]
    · rw [if_neg hx] at h
      obtain ⟨h1, h2, h3, h4⟩ := ih h
      have hx' : sel x = true → x ∈ res.keys := by
        intro hs
        by_contra hc
        exact hx (by simp [hs, hc])
      refine ⟨?_, h2, h3, ?_⟩
      · intro k
        rw [h1, List.mem_cons]
        by_cases hkx : k = x
        · subst hkx
          constructor
          · rintro (hh | ⟨hh, hs⟩)
            · exact Or.inl hh
            · exact Or.inr ⟨Or.inr hh, hs⟩
          · rintro (hh | ⟨hh, hs⟩)
            · exact Or.inl hh
            · exact Or.inl (hx' hs)
        · simp [hkx]
      · intro pre k suf e hkp hks hkr
        cases pre with
        | nil =>
          simp only [List.nil_append, List.cons.injEq] at e
          obtain ⟨rfl, rfl⟩ := e
          exact absurd (hx' hks) hkr
        | cons p pre =>
          simp only [List.cons_append, List.cons.injEq] at e
          obtain ⟨rfl, rfl⟩ := e
          obtain ⟨ρ, s1, s2, w, hre, hw, hmem, hle⟩ := h4 pre k suf rfl (fun hh => hkp (by simp [hh])) hks hkr
          refine ⟨ρ, s1, s2, w, hre, hw, ?_, hle⟩
          intro y
          rw [hmem, List.mem_cons]
          by_cases hyx : y = x
          · subst hyx
            constructor
            · rintro (hh | ⟨hh, hs⟩)
              · exact Or.inl hh
              · exact Or.inr ⟨Or.inr hh, hs⟩
            · rintro (hh | ⟨hh, hs⟩)
              · exact Or.inl hh
              · exact Or.inl (hx' hs)
          · simp [hyx]

theorem sampleLoop_error (sem : Sem N V C O S L) (bn : BN N V C O) (sel : N → Bool) :
    ∀ (xs : List N) {res : Dict N V} {e : Err} {s s' : S}, sampleLoop sem bn sel xs res s = (.error e, s') →
    ∃ pre k suf, xs = pre ++ k :: suf ∧ sel k = true ∧ k ∉ res.keys ∧
      ∃ (ρ : Dict N V) (s1 : S), (∀ y, y ∈ ρ.keys ↔ y ∈ res.keys ∨ (y ∈ pre ∧ sel y)) ∧
        (∀ y w, res.get? y = some w → ρ.get? y = some w) ∧
        (bn.get k = .error e ∨ ∃ l, bn.loci.get? k = some l ∧ l.render sem ρ.get? s1 = (.error e, s')) := by
  intro xs
  induction xs with
  | nil => intro res e s s' h; cases h
  | cons x xs ih =>
    intro res e s s' h
    simp only [sampleLoop] at h
    by_cases hx : (sel x && x ∉ res.keys) = true
    · rw [if_pos hx] at h
      have hsel : sel x = true := by simp at hx; exact hx.1
      have hxr : x ∉ res.keys := by simp at hx; exact hx.2
      cases hg : bn.get x with
      | error e' =>
        rw [hg] at h
        cases h
        exact ⟨[], x, xs, rfl, hsel, hxr, res, s, by simp, fun y w hw => hw, Or.inl hg⟩
      | ok l =>
        rw [hg] at h
        simp only at h
        rcases hr : l.render sem res.get? s with ⟨r0, s0⟩
        rw [hr] at h
        cases r0 with
        | error e' =>
          cases h
          exact ⟨[], x, xs, rfl, hsel, hxr, res, s, by simp, fun y w hw => hw, Or.inr ⟨l, get_eq_ok hg, hr⟩⟩
        | ok v =>
          simp only at h
          obtain ⟨pre, k, suf, e1, hk1, hk2, ρ, s1, hm, hle, hc⟩ := ih h
          rw [Dict.mem_keys_set, not_or] at hk2
          refine ⟨x :: pre, k, suf, by rw [e1]; rfl, hk1, hk2.2, ρ, s1, ?_, ?_, hc⟩
          · intro y
            rw [hm, Dict.mem_keys_set, List.mem_cons]
            by_cases hyx : y = x
            · subst hyx; simp [hsel]
            · simp [hyx]
          · intro y w hw
            apply hle
            rw [Dict.get?_set_ne]
            · exact hw
            · rintro rfl
              exact hxr ((Dict.mem_keys_iff_exists _ _).2 ⟨w, hw⟩)
    · rw [if_neg hx] at h
      have hx' : sel x = true → x ∈ res.keys := by
        intro hs
        by_contra hc
        exact hx (by simp [hs, hc])
      obtain ⟨pre, k, suf, e1, hk1, hk2, ρ, s1, hm, hle, hc⟩ := ih h
      refine ⟨x :: pre, k, suf, by rw [e1]; rfl, hk1, hk2, ρ, s1, ?_, hle, hc⟩
      intro y
      rw [hm, List.mem_cons]
      by_cases hyx : y = x
      · subst hyx
        constructor
        · rintro (hh | ⟨hh, hs⟩)
          · exact Or.inl hh
          · exact Or.inr ⟨Or.inr hh, hs⟩
        · rintro (hh | ⟨hh, hs⟩)
          · exact Or.inl hh
          · exact Or.inl (hx' hs)
      · simp [hyx]

/-- When the renderings needed all reproduce a given assignment, the loop computes it. -/
theorem sampleLoop_follows (sem : Sem N V C O S L) (bn : BN N V C O) (sel : N → Bool) (star : N → Option V) :
    ∀ (xs : List N) (pre : List N) (res : Dict N V) (s : S),
    (∀ y w, res.get? y = some w → star y = some w) →
    (∀ y ∈ pre, sel y = true → y ∈ res.keys) →
    (∀ pre' k suf, pre ++ xs = pre' ++ k :: suf → sel k = true → k ∉ res.keys →
      ∀ ρ : Dict N V, (∀ y w, res.get? y = some w → ρ.get? y = some w) →
        (∀ y ∈ pre', sel y = true → y ∈ ρ.keys) → (∀ y w, ρ.get? y = some w → star y = some w) →
        ∃ l v, bn.loci.get? k = some l ∧ star k = some v ∧ ∀ s, l.render sem ρ.get? s = (.ok v, s)) →
    ∃ r, sampleLoop sem bn sel xs res s = (.ok r, s) ∧ ∀ y w, r.get? y = some w → star y = some w := by
  intro xs
  induction xs with
  | nil => intro pre res s h1 _ _; exact ⟨res, rfl, h1⟩
  | cons x xs ih =>
    intro pre res s h1 h2 h3
    simp only [sampleLoop]
    by_cases hx : (sel x && x ∉ res.keys) = true
    · have hsel : sel x = true := by simp at hx; exact hx.1
      have hxr : x ∉ res.keys := by simp at hx; exact hx.2
      obtain ⟨l, v, hl, hv, hr⟩ := h3 pre x xs rfl hsel hxr res (fun y w h => h) h2 h1
      rw [if_pos hx, BN.get_ok hl]
      simp only [hr]
      have hext : ∀ y w, res.get? y = some w → (res.set x v).get? y = some w := by
        intro y w hw
        rw [Dict.get?_set_ne]
        · exact hw
        · rintro rfl
          exact hxr ((Dict.mem_keys_iff_exists _ _).2 ⟨w, hw⟩)
      refine ih (pre ++ [x]) (res.set x v) s ?_ ?_ ?_
      · intro y w hw
        rw [Dict.get?_set] at hw
        split at hw
        · rename_i hxy; subst hxy; cases hw; exact hv
        · exact h1 y w hw
      · intro y hy hs
        rw [Dict.mem_keys_set]
        rcases List.mem_append.1 hy with hy | hy
        · exact Or.inr (h2 y hy hs)
        · simp at hy; exact Or.inl hy
      · intro pre' k suf e hks hkr ρ hρ1 hρ2 hρ3
        rw [List.append_assoc] at e
        rw [Dict.mem_keys_set, not_or] at hkr
        exact h3 pre' k suf e hks hkr.2 ρ (fun y w hw => hρ1 y w (hext y w hw)) hρ2 hρ3
    · rw [if_neg hx]
      refine ih (pre ++ [x]) res s h1 ?_ ?_
      · intro y hy hs
        rcases List.mem_append.1 hy with hy | hy
        · exact h2 y hy hs
        · simp at hy
          subst hy
          by_contra hc
          exact hx (by simp [hs, hc])
      · intro pre' k suf e
        rw [List.append_assoc] at e
        exact h3 pre' k suf e

end Model
