import Verif.Model.Digraph
import Verif.Spec.Graph
import Mathlib.Data.List.Perm.Subperm
import Batteries.Data.List.Perm
import Mathlib.Tactic.Tauto
import Mathlib.Tactic.Push

/-! # Lemmas about graphs, breadth-first search and Kahn's algorithm -/

namespace Model.Digraph

set_option linter.unusedSectionVars false

open Py Spec Relation

variable {α : Type _} [DecidableEq α]

@[simp] theorem mem_preds (g : Digraph α) (u v : α) : u ∈ g.preds v ↔ g.E u v := by
  unfold preds E
  rw [List.mem_filterMap]
  constructor
  · rintro ⟨⟨a, b⟩, h, h2⟩
    dsimp at h2
    split at h2
    · cases h2; subst_vars; exact h
    · cases h2
  · intro h; exact ⟨(u, v), h, by simp⟩

@[simp] theorem mem_succs (g : Digraph α) (u v : α) : v ∈ g.succs u ↔ g.E u v := by
  unfold succs E
  rw [List.mem_filterMap]
  constructor
  · rintro ⟨⟨a, b⟩, h, h2⟩
    dsimp at h2
    split at h2
    · cases h2; subst_vars; exact h
    · cases h2
  · intro h; exact ⟨(u, v), h, by simp⟩

theorem nodup_succs {g : Digraph α} (h : g.WF) (u : α) : (g.succs u).Nodup := by
  unfold succs
  refine List.Nodup.filterMap ?_ h.nodup_edges
  rintro ⟨a, b⟩ ⟨c, d⟩ x hx hy
  dsimp at hx hy
  split at hx <;> simp_all

theorem nodup_preds {g : Digraph α} (h : g.WF) (u : α) : (g.preds u).Nodup := by
  unfold preds
  refine List.Nodup.filterMap ?_ h.nodup_edges
  rintro ⟨a, b⟩ ⟨c, d⟩ x hx hy
  dsimp at hx hy
  split at hx <;> simp_all

/-! ## Breadth-first search -/

section bfs
variable {next : α → List α} {R : α → α → Prop} {N : List α}

/-- Everything the search returns is reachable from the start. -/
theorem bfs_sound (hR : ∀ x y, y ∈ next x ↔ R x y) (s : α) :
    ∀ n done todo, (∀ y ∈ done ++ todo, ReflTransGen R s y) →
      ∀ y ∈ bfs next n done todo, ReflTransGen R s y := by
  intro n
  induction n with
  | zero => intro done todo h y hy; exact h y (by simp [bfs] at hy; simp [hy])
  | succ n ih =>
    intro done todo h y hy
    cases todo with
    | nil => exact h y (by simpa [bfs] using hy)
    | cons x todo =>
      refine ih _ _ ?_ y hy
      intro z hz
      simp only [List.append_assoc, List.mem_append, List.mem_cons, List.mem_filter,
        List.mem_dedup, List.not_mem_nil, or_false] at hz
      rcases hz with hz | rfl | hz | ⟨hz, -⟩
      · exact h z (by simp [hz])
      · exact h z (by simp)
      · exact h z (by simp [hz])
      · exact (h x (by simp)).tail ((hR x z).1 hz)

/-- With enough fuel the result contains the queue and is closed under `next`. -/
theorem bfs_closed (hN : ∀ x ∈ N, ∀ y ∈ next x, y ∈ N) :
    ∀ n done todo, (done ++ todo).Nodup → (∀ y ∈ done ++ todo, y ∈ N) →
      N.length + 1 ≤ n + done.length →
      (∀ x ∈ done, ∀ y ∈ next x, y ∈ done ++ todo) →
      (∀ y ∈ done ++ todo, y ∈ bfs next n done todo) ∧
      (∀ x ∈ bfs next n done todo, ∀ y ∈ next x, y ∈ bfs next n done todo) := by
  intro n
  induction n with
  | zero =>
    intro done todo hnd' hsub hfuel _
    exfalso
    have hle : done.length ≤ N.length := by
      have h1 : done.Nodup := (List.nodup_append.1 hnd').1
      have := (List.subperm_of_subset (l₂ := N) h1 (fun y hy => hsub y (by simp [hy]))).length_le
      exact this
    omega
  | succ n ih =>
    intro done todo hnd' hsub hfuel hcl
    cases todo with
    | nil => simpa [bfs] using hcl
    | cons x todo =>
      have key := ih (done ++ [x])
        (todo ++ (next x).dedup.filter (fun y => y ∉ done ++ x :: todo)) ?_ ?_ ?_ ?_
      · refine ⟨fun y hy => key.1 y ?_, key.2⟩
        simp only [List.append_assoc, List.mem_append, List.mem_cons, List.not_mem_nil,
          or_false] at hy ⊢
        tauto
      · have e : (done ++ [x]) ++ (todo ++ (next x).dedup.filter (fun y => y ∉ done ++ x :: todo))
            = (done ++ x :: todo) ++ (next x).dedup.filter (fun y => y ∉ done ++ x :: todo) := by
          simp
        rw [e, List.nodup_append]
        refine ⟨hnd', (List.nodup_dedup _).filter _, ?_⟩
        intro a ha b hb hab
        subst hab
        rw [List.mem_filter] at hb
        simp only [decide_eq_true_eq] at hb
        exact hb.2 ha
      · intro y hy
        simp only [List.append_assoc, List.mem_append, List.mem_cons, List.mem_filter,
          List.mem_dedup, List.not_mem_nil, or_false] at hy
        rcases hy with hy | rfl | hy | ⟨hy, -⟩
        · exact hsub y (by simp [hy])
        · exact hsub y (by simp)
        · exact hsub y (by simp [hy])
        · exact hN x (hsub x (by simp)) y hy
      · simp; omega
      · intro z hz y hy
        simp only [List.mem_append, List.mem_cons, List.not_mem_nil, or_false] at hz
        have e : ∀ y, y ∈ (done ++ [x]) ++ (todo ++ (next x).dedup.filter
            (fun y => y ∉ done ++ x :: todo)) ↔ y ∈ done ++ x :: todo ∨ (y ∈ next x ∧
              y ∉ done ++ x :: todo) := by
          intro y; simp; tauto
        rw [e]
        rcases hz with hz | rfl
        · exact Or.inl (hcl z hz y hy)
        · by_cases h : y ∈ done ++ z :: todo
          · exact Or.inl h
          · exact Or.inr ⟨hy, h⟩

theorem mem_bfs (hR : ∀ x y, y ∈ next x ↔ R x y) (hN : ∀ x ∈ N, ∀ y ∈ next x, y ∈ N)
    {s : α} (hs : s ∈ N) (y : α) :
    y ∈ bfs next (N.length + 1) [] [s] ↔ ReflTransGen R s y := by
  constructor
  · exact bfs_sound hR s _ _ _ (by intro y hy; simp at hy; subst hy; exact .refl) y
  · intro h
    have := bfs_closed (next := next) hN (N.length + 1) [] [s] (by simp)
      (by intro y hy; simp at hy; subst hy; exact hs) (by simp) (by simp)
    induction h with
    | refl => exact this.1 s (by simp)
    | tail _ h2 ih => exact this.2 _ ih _ ((hR _ _).2 h2)

end bfs

theorem reflTransGen_swap_iff {R : α → α → Prop} {a b : α} :
    ReflTransGen (fun x y => R y x) a b ↔ ReflTransGen R b a :=
  Relation.reflTransGen_swap

theorem reach_ne_iff {R : α → α → Prop} {a b : α} (h : b ≠ a) :
    ReflTransGen R a b ↔ TransGen R a b := by
  rw [Relation.reflTransGen_iff_eq_or_transGen]
  tauto

theorem ancestors_eq_error (g : Digraph α) {x : α} (h : x ∉ g.nodes) :
    g.ancestors x = .error .NetworkXError := by simp [ancestors, h]

theorem descendants_eq_error (g : Digraph α) {x : α} (h : x ∉ g.nodes) :
    g.descendants x = .error .NetworkXError := by simp [descendants, h]

theorem exists_ancestors {g : Digraph α} (hg : g.WF) {x : α} (hx : x ∈ g.nodes) :
    ∃ l, g.ancestors x = .ok l ∧ ∀ y, y ∈ l ↔ y ≠ x ∧ TransGen g.E y x := by
  refine ⟨_, by simp only [ancestors, hx, if_true]; rfl, ?_⟩
  intro y
  simp only [List.mem_filter, decide_eq_true_eq]
  rw [mem_bfs (R := fun a b => g.E b a) (N := g.nodes) (by simp) ?_ hx]
  · rw [Relation.reflTransGen_swap]
    constructor
    · rintro ⟨h1, h2⟩; exact ⟨h2, (reach_ne_iff (Ne.symm h2)).1 h1⟩
    · rintro ⟨h1, h2⟩; exact ⟨(reach_ne_iff (Ne.symm h1)).2 h2, h1⟩
  · intro a _ b hb
    rw [mem_preds] at hb
    exact hg.left_mem hb

theorem exists_descendants {g : Digraph α} (hg : g.WF) {x : α} (hx : x ∈ g.nodes) :
    ∃ l, g.descendants x = .ok l ∧ ∀ y, y ∈ l ↔ y ≠ x ∧ TransGen g.E x y := by
  refine ⟨_, by simp only [descendants, hx, if_true]; rfl, ?_⟩
  intro y
  simp only [List.mem_filter, decide_eq_true_eq]
  rw [mem_bfs (R := g.E) (N := g.nodes) (by simp) ?_ hx]
  · constructor
    · rintro ⟨h1, h2⟩; exact ⟨h2, (reach_ne_iff h2).1 h1⟩
    · rintro ⟨h1, h2⟩; exact ⟨(reach_ne_iff h1).2 h2, h1⟩
  · intro a _ b hb
    rw [mem_succs] at hb
    exact hg.right_mem hb

/-! ## Kahn's algorithm -/

/-- Loop invariant: `done ++ queue` are distinct nodes, listed parents first with all parents of a
listed node already in `done` (or before it in `done`), and every node all of whose parents are
done is listed. -/
structure KahnInv (g : Digraph α) (done queue : List α) : Prop where
  nodup : (done ++ queue).Nodup
  sub : ∀ x ∈ done ++ queue, x ∈ g.nodes
  first : ParentsFirst g.E done
  ready : ∀ v ∈ queue, ∀ u, g.E u v → u ∈ done
  full : ∀ v ∈ g.nodes, (∀ u, g.E u v → u ∈ done) → v ∈ done ++ queue

theorem parentsFirst_snoc {E : α → α → Prop} {l : List α} {x : α} (h : ParentsFirst E l)
    (hx : ∀ u, E u x → u ∈ l) : ParentsFirst E (l ++ [x]) := by
  intro pre v suf e u hu
  rcases List.eq_nil_or_concat suf with rfl | ⟨suf', y, rfl⟩
  · have := List.append_inj' e rfl
    obtain ⟨rfl, h2⟩ := this
    simp at h2; subst h2
    exact hx u hu
  · have e' : l ++ [x] = (pre ++ v :: suf') ++ [y] := by simpa using e
    have := (List.append_inj' e' rfl).1
    exact h pre v suf' this u hu

theorem KahnInv.step {g : Digraph α} (hg : g.WF) {done queue : List α} {x : α}
    (h : KahnInv g done (x :: queue)) :
    KahnInv g (done ++ [x])
      (queue ++ (g.succs x).filter (fun v => (g.preds v).all (· ∈ done ++ [x]))) := by
  have hxd : x ∉ done := by
    have := h.nodup
    rw [List.nodup_append] at this
    intro hx
    exact this.2.2 x hx x (by simp) rfl
  have hnew : ∀ v ∈ (g.succs x).filter (fun v => (g.preds v).all (· ∈ done ++ [x])),
      g.E x v ∧ ∀ u, g.E u v → u ∈ done ++ [x] := by
    intro v hv
    simp only [List.mem_filter, mem_succs, List.all_eq_true, mem_preds, decide_eq_true_eq] at hv
    exact hv
  have hnotold : ∀ v, g.E x v → v ∉ done ++ x :: queue := by
    intro v hv hmem
    rw [List.mem_append] at hmem
    rcases hmem with hmem | hmem
    · obtain ⟨pre, suf, rfl⟩ := List.append_of_mem hmem
      have := h.first pre v suf rfl x hv
      exact hxd (by simp [this])
    · exact hxd (h.ready v hmem x hv)
  refine ⟨?_, ?_, ?_, ?_, ?_⟩
  · have e : (done ++ [x]) ++ (queue ++ (g.succs x).filter
        (fun v => (g.preds v).all (· ∈ done ++ [x]))) =
        (done ++ x :: queue) ++ (g.succs x).filter
        (fun v => (g.preds v).all (· ∈ done ++ [x])) := by simp
    rw [e, List.nodup_append]
    refine ⟨h.nodup, (nodup_succs hg x).filter _, ?_⟩
    intro a ha b hb hab
    subst hab
    exact hnotold a (hnew a hb).1 ha
  · intro y hy
    rw [List.append_assoc, List.mem_append] at hy
    rcases hy with hy | hy
    · exact h.sub y (by simp [hy])
    · rw [List.mem_append] at hy
      rcases hy with hy | hy
      · simp at hy; subst hy; exact h.sub y (by simp)
      · rw [List.mem_append] at hy
        rcases hy with hy | hy
        · exact h.sub y (by simp [hy])
        · exact hg.right_mem (hnew y hy).1
  · exact parentsFirst_snoc h.first (h.ready x (by simp))
  · intro v hv u hu
    rw [List.mem_append] at hv
    rcases hv with hv | hv
    · simp [h.ready v (by simp [hv]) u hu]
    · exact (hnew v hv).2 u hu
  · intro v hv hall
    by_cases hxv : g.E x v
    · refine List.mem_append_right _ (List.mem_append_right _ ?_)
      simp only [List.mem_filter, mem_succs, List.all_eq_true, mem_preds, decide_eq_true_eq]
      exact ⟨hxv, hall⟩
    · have : v ∈ done ++ x :: queue := by
        refine h.full v hv ?_
        intro u hu
        have := hall u hu
        simp only [List.mem_append, List.mem_singleton] at this
        rcases this with this | rfl
        · exact this
        · exact absurd hu hxv
      simp only [List.mem_append, List.mem_cons] at this ⊢
      tauto

theorem kahn_inv {g : Digraph α} (hg : g.WF) : ∀ n done queue, KahnInv g done queue →
    g.nodes.length ≤ n + done.length → KahnInv g (kahn g n done queue) [] := by
  intro n
  induction n with
  | zero =>
    intro done queue h hf
    have h1 : (done ++ queue).length ≤ g.nodes.length :=
      (List.subperm_of_subset h.nodup (fun y hy => h.sub y hy)).length_le
    rw [List.length_append] at h1
    have : queue = [] := List.eq_nil_of_length_eq_zero (by omega)
    subst this
    exact h
  | succ n ih =>
    intro done queue h hf
    cases queue with
    | nil => exact h
    | cons x queue =>
      refine ih _ _ (h.step hg) ?_
      simp; omega

theorem kahn_start {g : Digraph α} (hg : g.WF) :
    KahnInv g [] (g.nodes.filter (fun v => (g.preds v).isEmpty)) := by
  refine ⟨?_, ?_, ?_, ?_, ?_⟩
  · simpa using hg.nodup_nodes.filter _
  · intro x hx
    simp only [List.nil_append, List.mem_filter] at hx
    exact hx.1
  · intro pre v suf e
    simp at e
  · intro v hv u hu
    simp only [List.mem_filter, List.isEmpty_iff] at hv
    rw [← mem_preds, hv.2] at hu
    exact hu
  · intro v hv hall
    simp only [List.nil_append, List.mem_filter, List.isEmpty_iff]
    refine ⟨hv, ?_⟩
    rw [List.eq_nil_iff_forall_not_mem]
    intro u hu
    rw [mem_preds] at hu
    simpa using hall u hu

/-- The output of the loop of `topologicalSort`. -/
def kahnOut (g : Digraph α) : List α :=
  kahn g g.nodes.length [] (g.nodes.filter (fun v => (g.preds v).isEmpty))

theorem kahnOut_inv {g : Digraph α} (hg : g.WF) : KahnInv g g.kahnOut [] :=
  kahn_inv hg _ _ _ (kahn_start hg) (by simp)

/-- A node that is not in the output has a predecessor that is not in the output. -/
theorem kahnOut_stuck {g : Digraph α} (hg : g.WF) {v : α} (hv : v ∈ g.nodes) (h : v ∉ g.kahnOut) :
    ∃ u ∈ g.nodes, u ∉ g.kahnOut ∧ g.E u v := by
  by_contra hcon
  push Not at hcon
  apply h
  have := (kahnOut_inv hg).full v hv
  rw [List.append_nil] at this
  apply this
  intro u hu
  by_contra hn
  exact hcon u (hg.left_mem hu) hn hu

theorem acyclic_of_parentsFirst {E : α → α → Prop} {l : List α} (hnd : l.Nodup)
    (h : ParentsFirst E l) {x : α} (hx : x ∈ l) : ¬ TransGen E x x := by
  -- every path into a listed node starts strictly before it
  have key : ∀ u v, TransGen E u v → ∀ pre suf, l = pre ++ v :: suf → u ∈ pre := by
    intro u v huv
    induction huv with
    | single huv => intro pre suf e; exact h pre _ suf e _ huv
    | @tail b c _ hbc ih =>
      intro pre suf e
      have hb := h pre _ suf e _ hbc
      obtain ⟨p1, p2, rfl⟩ := List.append_of_mem hb
      have := ih p1 (p2 ++ c :: suf) (by rw [e]; simp)
      simp [this]
  intro hxx
  obtain ⟨pre, suf, rfl⟩ := List.append_of_mem hx
  have := key x x hxx pre suf rfl
  rw [List.nodup_append] at hnd
  exact hnd.2.2 x this x (by simp) rfl

theorem parentsFirst_trans {E : α → α → Prop} {l : List α} (h : ParentsFirst E l)
    {u v : α} (huv : TransGen E u v) : ∀ pre suf, l = pre ++ v :: suf → u ∈ pre := by
  induction huv with
  | single huv => intro pre suf e; exact h pre _ suf e _ huv
  | @tail b c _ hbc ih =>
    intro pre suf e
    have hb := h pre _ suf e _ hbc
    obtain ⟨p1, p2, rfl⟩ := List.append_of_mem hb
    have := ih p1 (p2 ++ c :: suf) (by rw [e]; simp)
    simp [this]

/-- From any node of a finite set closed under picking a predecessor one can walk backwards for
ever, so there is a cycle. -/
theorem exists_cycle {E : α → α → Prop} (S : List α)
    (hS : ∀ v ∈ S, ∃ u ∈ S, E u v) {v : α} (hv : v ∈ S) : ∃ x, TransGen E x x := by
  by_contra hcon
  push Not at hcon
  -- a backwards walk of length n visits n+1 distinct nodes
  have walk : ∀ n, ∃ l : List α, l.length = n + 1 ∧ l.Nodup ∧ (∀ x ∈ l, x ∈ S) ∧
      ∃ h t, l = h :: t ∧ ∀ y ∈ t, TransGen E h y := by
    intro n
    induction n with
    | zero => exact ⟨[v], rfl, by simp, by simpa using hv, v, [], rfl, by simp⟩
    | succ n ih =>
      obtain ⟨l, hl, hnd, hsub, h, t, rfl, hreach⟩ := ih
      obtain ⟨u, hu, huh⟩ := hS h (hsub h (by simp))
      have hr : ∀ y ∈ h :: t, TransGen E u y := by
        intro y hy
        rcases List.mem_cons.1 hy with rfl | hy
        · exact .single huh
        · exact (TransGen.single huh).trans (hreach y hy)
      refine ⟨u :: h :: t, by simp [← hl], ?_, ?_, u, h :: t, rfl, hr⟩
      · rw [List.nodup_cons]
        exact ⟨fun hm => hcon u (hr u hm), hnd⟩
      · intro x hx
        rcases List.mem_cons.1 hx with rfl | hx
        · exact hu
        · exact hsub x hx
  obtain ⟨l, hl, hnd, hsub, -⟩ := walk S.length
  have := (List.subperm_of_subset hnd hsub).length_le
  omega

theorem kahnOut_length_eq_iff {g : Digraph α} (hg : g.WF) :
    g.kahnOut.length = g.nodes.length ↔ Acyclic g.E := by
  have hi := kahnOut_inv hg
  have hnd : g.kahnOut.Nodup := by simpa using hi.nodup
  have hsub : ∀ x ∈ g.kahnOut, x ∈ g.nodes := fun x hx => hi.sub x (by simp [hx])
  have hsp := List.subperm_of_subset hnd hsub
  constructor
  · intro h x hxx
    have hp := hsp.perm_of_length_le (by omega)
    have hx : x ∈ g.nodes := by
      cases hxx with
      | single h => exact hg.left_mem h
      | tail _ h => exact hg.right_mem h
    exact acyclic_of_parentsFirst hnd hi.first (hp.mem_iff.2 hx) hxx
  · intro hac
    have hall : ∀ v ∈ g.nodes, v ∈ g.kahnOut := by
      intro v hv
      by_contra hn
      obtain ⟨x, hx⟩ := exists_cycle (E := g.E) (g.nodes.filter (· ∉ g.kahnOut)) (by
        intro w hw
        simp only [List.mem_filter, decide_eq_true_eq] at hw
        obtain ⟨u, hu, hu2, hu3⟩ := kahnOut_stuck hg hw.1 hw.2
        exact ⟨u, by simp [hu, hu2], hu3⟩) (v := v) (by simp [hv, hn])
      exact hac x hx
    have h1 := hsp.length_le
    have h2 := (List.subperm_of_subset hg.nodup_nodes hall).length_le
    omega

theorem topologicalSort_ok {g : Digraph α} (hg : g.WF) {l : List α}
    (h : g.topologicalSort = .ok l) : TopologicalOrder (· ∈ g.nodes) g.E l := by
  unfold topologicalSort at h
  dsimp only at h
  split at h
  · rename_i hlen
    cases h
    have hi := kahnOut_inv hg
    change g.kahnOut.length = _ at hlen
    have hnd : g.kahnOut.Nodup := by simpa using hi.nodup
    have hsub : ∀ x ∈ g.kahnOut, x ∈ g.nodes := fun x hx => hi.sub x (by simp [hx])
    have hp := (List.subperm_of_subset hnd hsub).perm_of_length_le (by omega)
    exact ⟨hnd, fun x => hp.mem_iff, hi.first⟩
  · cases h

theorem topologicalSort_isOk_iff {g : Digraph α} (hg : g.WF) :
    (∃ l, g.topologicalSort = .ok l) ↔ Acyclic g.E := by
  rw [← kahnOut_length_eq_iff hg]
  unfold topologicalSort
  dsimp only
  change (∃ l, (if g.kahnOut.length = g.nodes.length then _ else _) = _) ↔ _
  split
  · rename_i h; simp [h]
  · rename_i h; simp [h]

theorem topologicalSort_error {g : Digraph α} {e : Err} (h : g.topologicalSort = .error e) :
    e = .NetworkXUnfeasible := by
  unfold topologicalSort at h
  dsimp only at h
  split at h
  · cases h
  · cases h; rfl

theorem exists_topologicalSort {g : Digraph α} (hg : g.WF) (ha : Acyclic g.E) :
    ∃ l, g.topologicalSort = .ok l ∧ TopologicalOrder (· ∈ g.nodes) g.E l := by
  obtain ⟨l, hl⟩ := (topologicalSort_isOk_iff hg).2 ha
  exact ⟨l, hl, topologicalSort_ok hg hl⟩

/-! ## Well-formedness of the graph operations -/

theorem wf_empty : (empty : Digraph α).WF := by
  constructor <;> simp [empty]

theorem WF.addNode {g : Digraph α} (hg : g.WF) (x : α) : (g.addNode x).WF := by
  unfold Digraph.addNode
  split
  · exact hg
  · rename_i hx
    refine ⟨?_, hg.nodup_edges, ?_, ?_⟩
    · rw [List.nodup_append]
      refine ⟨hg.nodup_nodes, by simp, ?_⟩
      intro a ha b hb hab
      simp at hb; subst hb; subst hab; exact hx ha
    · intro u v h; simp [hg.left_mem h]
    · intro u v h; simp [hg.right_mem h]

@[simp] theorem mem_nodes_addNode (g : Digraph α) (x y : α) :
    y ∈ (g.addNode x).nodes ↔ y = x ∨ y ∈ g.nodes := by
  unfold addNode
  split
  · constructor
    · exact Or.inr
    · rintro (rfl | h)
      · assumption
      · exact h
  · simp [or_comm]

@[simp] theorem edges_addNode (g : Digraph α) (x : α) : (g.addNode x).edges = g.edges := by
  unfold addNode; split <;> rfl

@[simp] theorem E_addNode (g : Digraph α) (x u v : α) : (g.addNode x).E u v ↔ g.E u v := by
  simp [E]

theorem WF.addEdge {g : Digraph α} (hg : g.WF) (u v : α) : (g.addEdge u v).WF := by
  have h1 := (hg.addNode u).addNode v
  unfold Digraph.addEdge
  dsimp only
  split
  · exact h1
  · rename_i hx
    refine ⟨h1.nodup_nodes, ?_, ?_, ?_⟩
    · dsimp only
      rw [List.nodup_append]
      refine ⟨h1.nodup_edges, by simp, ?_⟩
      intro a ha b hb hab
      simp at hb; subst hb; subst hab; exact hx ha
    · intro a b h
      simp only [List.mem_append, List.mem_singleton, Prod.mk.injEq] at h
      rcases h with h | ⟨rfl, rfl⟩
      · exact h1.left_mem h
      · simp
    · intro a b h
      simp only [List.mem_append, List.mem_singleton, Prod.mk.injEq] at h
      rcases h with h | ⟨rfl, rfl⟩
      · exact h1.right_mem h
      · simp

@[simp] theorem mem_nodes_addEdge (g : Digraph α) (u v y : α) :
    y ∈ (g.addEdge u v).nodes ↔ y = u ∨ y = v ∨ y ∈ g.nodes := by
  unfold addEdge
  dsimp only
  split <;> simp <;> tauto

@[simp] theorem E_addEdge (g : Digraph α) (u v a b : α) :
    (g.addEdge u v).E a b ↔ (a = u ∧ b = v) ∨ g.E a b := by
  unfold addEdge E
  dsimp only
  split
  · rename_i h
    simp only [edges_addNode] at h ⊢
    constructor
    · exact Or.inr
    · rintro (⟨rfl, rfl⟩ | h')
      · exact h
      · exact h'
  · simp [or_comm]

theorem WF.removeNode {g g' : Digraph α} (hg : g.WF) {x : α} (h : g.removeNode x = .ok g') :
    g'.WF := by
  unfold Digraph.removeNode at h
  split at h
  · cases h
    refine ⟨hg.nodup_nodes.filter _, hg.nodup_edges.filter _, ?_, ?_⟩
    · intro u v h
      simp only [List.mem_filter, decide_eq_true_eq] at h ⊢
      exact ⟨hg.left_mem h.1, h.2.1⟩
    · intro u v h
      simp only [List.mem_filter, decide_eq_true_eq] at h ⊢
      exact ⟨hg.right_mem h.1, h.2.2⟩
  · cases h

theorem removeNode_ok {g : Digraph α} {x : α} (hx : x ∈ g.nodes) :
    ∃ g', g.removeNode x = .ok g' ∧ (∀ y, y ∈ g'.nodes ↔ y ∈ g.nodes ∧ y ≠ x) ∧
      (∀ a b, g'.E a b ↔ g.E a b ∧ a ≠ x ∧ b ≠ x) := by
  refine ⟨_, by simp only [removeNode, hx, if_true]; rfl, ?_, ?_⟩
  · intro y; simp
  · intro a b; simp [E]

theorem removeEdge_ok {g : Digraph α} {u v : α} (h : g.E u v) :
    ∃ g', g.removeEdge u v = .ok g' ∧ g'.nodes = g.nodes ∧
      (∀ a b, g'.E a b ↔ g.E a b ∧ (a, b) ≠ (u, v)) := by
  have h' : (u, v) ∈ g.edges := h
  refine ⟨⟨g.nodes, g.edges.filter (· ≠ (u, v))⟩, by simp [removeEdge, h'], rfl, ?_⟩
  intro a b; simp [E]; tauto

theorem WF.removeEdge {g g' : Digraph α} (hg : g.WF) {u v : α} (h : g.removeEdge u v = .ok g') :
    g'.WF := by
  unfold Digraph.removeEdge at h
  split at h
  · cases h
    refine ⟨hg.nodup_nodes, hg.nodup_edges.filter _, ?_, ?_⟩
    · intro u v h
      simp only [List.mem_filter] at h
      exact hg.left_mem h.1
    · intro u v h
      simp only [List.mem_filter] at h
      exact hg.right_mem h.1
  · cases h

theorem removeEdge_error {g : Digraph α} {u v : α} (h : ¬ g.E u v) :
    g.removeEdge u v = .error .NetworkXError := by
  have h' : ¬ (u, v) ∈ g.edges := h
  simp [removeEdge, h']

theorem mem_nodes_of_E_left {g : Digraph α} (hg : g.WF) {u v : α} (h : g.E u v) : u ∈ g.nodes :=
  hg.left_mem h

theorem mem_nodes_of_E_right {g : Digraph α} (hg : g.WF) {u v : α} (h : g.E u v) : v ∈ g.nodes :=
  hg.right_mem h

theorem mem_nodes_of_trans_left {g : Digraph α} (hg : g.WF) {u v : α} (h : TransGen g.E u v) :
    u ∈ g.nodes := by
  induction h with
  | single h => exact hg.left_mem h
  | tail _ _ ih => exact ih

theorem mem_nodes_of_trans_right {g : Digraph α} (hg : g.WF) {u v : α} (h : TransGen g.E u v) :
    v ∈ g.nodes := by
  cases h with
  | single h => exact hg.right_mem h
  | tail _ h => exact hg.right_mem h

end Model.Digraph
