import Verif.Lemmas.Tables

/-!
# Properties of transition matrices, probability tables and time series (C121-C128)
-/

namespace Props.Tables

open Py Model Lemmas Lemmas.Tables

set_option linter.unusedSectionVars false

variable {N K S : Type} [DecidableEq N] [Field K] [LinearOrder K] [IsStrictOrderedRing K]

/-- Weights that are numbers. -/
def numbers (kv : Dict N K) : Dict N (XR K) := kv.map (fun p => (p.1, XR.fin p.2))

theorem numbers_snd (kv : Dict N K) : (numbers kv).map Prod.snd = (kv.map Prod.snd).map XR.fin := by
  simp [numbers, List.map_map, Function.comp_def]

theorem catSample_ok {r : Rand S K} (hr : r.Honest) (kv : Dict N K) (h0 : ∀ p ∈ kv, 0 ≤ p.2)
    (hs : 0 < (kv.map Prod.snd).sum) (s : S) :
    ∃ b w s', catSample r (numbers kv) s = (.ok b, s') ∧ (b, w) ∈ kv ∧ 0 < w := by
  have hp : catProbs (numbers kv) = ((kv.map Prod.snd).map (· / (kv.map Prod.snd).sum)).map XR.fin := by
    unfold catProbs
    simp only [numbers_snd]
    rw [sum_fin]
    generalize (kv.map Prod.snd) = ws at hs ⊢
    rw [List.map_map, List.map_map]
    apply List.map_congr_left
    intro w _
    exact XR.fin_div_fin_of_ne w hs.ne'
  have hv : validProbs (catProbs (numbers kv)) = true := by
    unfold catProbs
    simp only [numbers_snd]
    apply valid_of_pos
    · intro w hw
      obtain ⟨p, hp, rfl⟩ := List.mem_map.1 hw
      exact h0 p hp
    · exact hs
  have hsize := hr.size _ 1 s hv
  have hsup := hr.support _ 1 s hv
  unfold catSample Rand.choice
  rw [if_pos hv]
  rcases hpk : r.pick (catProbs (numbers kv)) 1 s with ⟨is, s'⟩
  rw [hpk] at hsize hsup
  cases is with
  | nil => simp at hsize
  | cons i is =>
    obtain ⟨w, hw, hpos⟩ := hsup i (by simp)
    rw [hp, List.getElem?_map, List.getElem?_map, List.getElem?_map] at hw
    cases hk : kv[i]? with
    | none => simp [hk] at hw
    | some p =>
      simp only [hk, Option.map_some, Option.some.injEq] at hw
      subst hw
      have hlt : 0 < p.2 := by
        simp only [XR.lt_fin, decide_eq_true_eq] at hpos
        rcases (h0 p (List.mem_of_getElem? hk)).lt_or_eq with h | h
        · exact h
        · rw [← h, zero_div] at hpos
          exact absurd hpos (lt_irrefl _)
      refine ⟨p.1, p.2, s', ?_, List.mem_of_getElem? hk, hlt⟩
      simp [numbers, List.getElem?_map, hk]

theorem catSample_bad (r : Rand S K) (kv : Dict N K)
    (h : (kv.map Prod.snd).sum = 0 ∨ ∃ p ∈ kv, p.2 / (kv.map Prod.snd).sum < 0) (s : S) :
    catSample r (numbers kv) s = (.error .ValueError, s) := by
  have hv : validProbs (catProbs (numbers kv)) = false := by
    unfold catProbs
    simp only [numbers_snd]
    rw [sum_fin]
    by_cases h0 : (kv.map Prod.snd).sum = 0
    · rw [h0]
      cases kv with
      | nil => simp [validProbs, XR.zero_def]
      | cons p kv =>
        unfold validProbs
        simp only [List.map_cons, List.all_cons]
        have : (XR.fin p.2 / XR.fin (0 : K)).isFinite = false := by
          rw [XR.fin_div_fin]
          simp only [if_true, XR.scaleInf]
          split_ifs <;> rfl
        simp [this]
    · rcases h with h | ⟨p, hp, hneg⟩
      · exact absurd h h0
      · rw [Bool.eq_false_iff]
        intro hv
        unfold validProbs at hv
        rw [Bool.and_eq_true, List.all_eq_true] at hv
        have := hv.1 (XR.fin p.2 / XR.fin (kv.map Prod.snd).sum)
          (List.mem_map.2 ⟨_, List.mem_map.2 ⟨_, List.mem_map.2 ⟨p, hp, rfl⟩, rfl⟩, rfl⟩)
        rw [XR.fin_div_fin_of_ne _ h0] at this
        simp only [XR.le_fin, Bool.and_eq_true, decide_eq_true_eq] at this
        exact absurd this.1 (not_le.2 hneg)
  unfold catSample Rand.choice
  rw [hv]
  rfl

theorem get?_table (m : Transitions N K) (k : N) :
    m.table.get? k = (m.rows.reverse.find? (fun p => decide (p.1 = k))).map Prod.snd := by
  unfold Transitions.table
  rw [foldl_set_get? (fun p : N × Dict N (XR K) => p.1) (fun p => p.2)]
  simp

theorem get?_table_last (m : Transitions N K) (pre post : List (N × Dict N (XR K))) (k : N) (kv : Dict N (XR K))
    (h : m.rows = pre ++ (k, kv) :: post) (hp : ∀ p ∈ post, p.1 ≠ k) : m.table.get? k = some kv := by
  rw [get?_table, h, List.reverse_append, List.reverse_cons, List.append_assoc, List.find?_append]
  have : post.reverse.find? (fun p => decide (p.1 = k)) = none := by
    rw [List.find?_eq_none]
    intro p hp'
    simpa using hp p (List.mem_reverse.1 hp')
  rw [this]
  simp

/-- **C121**: from a state with non-negative weights, not all zero, the next state is one of positive weight in the
(last) row of that state; weights that sum to zero or have mixed signs are refused, and so is an unknown state. -/
theorem C121 {r : Rand S K} (hr : r.Honest) (m : Transitions N K) (k : N) (s : S) :
    (∀ pre post kv, m.rows = pre ++ (k, numbers kv) :: post → (∀ p ∈ post, p.1 ≠ k) →
      ((∀ p ∈ kv, 0 ≤ p.2) → 0 < (kv.map Prod.snd).sum →
        ∃ b w s', m.next r k s = (.ok b, s') ∧ (b, w) ∈ kv ∧ 0 < w) ∧
      ((kv.map Prod.snd).sum = 0 ∨ (∃ p ∈ kv, p.2 / (kv.map Prod.snd).sum < 0) →
        m.next r k s = (.error .ValueError, s))) ∧
    ((∀ p ∈ m.rows, p.1 ≠ k) → m.next r k s = (.error .KeyError, s)) := by
  refine ⟨fun pre post kv h hp => ?_, fun h => ?_⟩
  · have hg := get?_table_last m pre post k _ h hp
    unfold Transitions.next
    rw [hg]
    exact ⟨fun h0 hs => catSample_ok hr kv h0 hs s, fun h => catSample_bad r kv h s⟩
  · unfold Transitions.next
    rw [get?_table]
    have : m.rows.reverse.find? (fun p => decide (p.1 = k)) = none := by
      rw [List.find?_eq_none]
      intro p hp'
      simpa using h p (List.mem_reverse.1 hp')
    rw [this]
    rfl

/-- Two states; nobody leaves the second. -/
def weather : Transitions String ℚ :=
  ⟨[("wet", numbers [("wet", 1), ("dry", 3)]), ("dry", numbers [("wet", 0), ("dry", 1)])]⟩

example : weather.next firstRand "dry" 0 = (.ok "dry", 1) := by decide +kernel
example : (firstRand : Rand Nat ℚ).Honest := firstRand_honest
example : weather.rows = [("wet", numbers [("wet", 1), ("dry", 3)])] ++ ("dry", numbers [("wet", 0), ("dry", 1)]) :: [] :=
  rfl

/-- **C122** is false: asked for one or for three successors of a known state, `sample` raises. -/
theorem C122_refuted :
    ∃ (m : Transitions String ℚ) (k : String), (∃ b s', m.next firstRand k 0 = (.ok b, s')) ∧
      m.sample firstRand 1 (some k) none 0 = (.error .TypeError, 0) ∧
      m.sample firstRand 3 (some k) none 0 = (.error .KeyError, 0) ∧
      m.sample firstRand 2 none (some [k, k]) 0 = (.error .KeyError, 0) :=
  ⟨weather, "wet", ⟨"wet", 1, by decide +kernel⟩, by decide +kernel, by decide +kernel, by decide +kernel⟩

/-- **C122**, what does hold: `sample` never draws anything.  It raises whatever the matrix and the arguments are, except
for an empty list of current states.  Missing: that it gives a successor for every current state. -/
theorem C122_partial (r : Rand S K) (m : Transitions N K) (n : Nat) (current : Option N) (currents : Option (List N))
    (s : S) :
    (∀ out s', m.sample r n current currents s = (.ok out, s') → n ≠ 1 ∧ currents = some [] ∧ out = [] ∧ s' = s) ∧
    (n ≠ 1 → m.sample r n current (some []) s = (.ok [], s)) ∧
    (n = 1 → m.sample r n current currents s = (.error .TypeError, s)) ∧
    (n ≠ 1 → currents ≠ some [] → m.sample r n current currents s = (.error .KeyError, s)) := by
  have h1 : n = 1 → m.sample r n current currents s = (.error .TypeError, s) := by
    rintro rfl
    rfl
  have h2 : n ≠ 1 → m.sample r n current (some []) s = (.ok [], s) := by
    intro hn
    simp [Transitions.sample, hn, Transitions.callAll]
  have h3 : n ≠ 1 → currents ≠ some [] → m.sample r n current currents s = (.error .KeyError, s) := by
    intro hn hc
    unfold Transitions.sample
    rw [if_neg hn]
    rcases currents with _ | _ | ⟨k, ks⟩
    · cases current with
      | none => rfl
      | some k =>
        obtain ⟨j, hj⟩ : ∃ j, max n 1 = j + 1 := ⟨max n 1 - 1, by omega⟩
        simp [hj, List.range_succ_eq_map, Transitions.callAll, Transitions.call]
    · exact absurd rfl hc
    · obtain ⟨j, hj⟩ : ∃ j, max n (k :: ks).length = j + 1 :=
        ⟨max n (k :: ks).length - 1, by simp only [List.length_cons]; omega⟩
      simp only [hj]
      simp [List.range_succ_eq_map, Transitions.callAll, Transitions.call]
  refine ⟨fun out s' h => ?_, h2, h1, h3⟩
  by_cases hn : n = 1
  · rw [h1 hn] at h
    cases h
  · by_cases hc : currents = some []
    · rw [hc, h2 hn] at h
      cases h
      exact ⟨hn, hc, rfl, rfl⟩
    · rw [h3 hn hc] at h
      cases h

example : weather.sample firstRand 4 none (some []) 0 = (.ok [], 0) := by decide +kernel

end Props.Tables
