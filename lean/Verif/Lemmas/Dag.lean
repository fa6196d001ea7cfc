import Verif.Model.Dag
import Verif.Lemmas.Digraph

/-! # Lemmas about the graph utilities of dag.py -/

namespace Model.Digraph

set_option linter.unusedSectionVars false

open Py Spec Relation

variable {α : Type _} [DecidableEq α]

/-! ## `mapM` in `Except` -/

theorem mapM_ok_of {β : Type _} {f : α → Result β} {F : α → β} :
    ∀ {xs : List α}, (∀ x ∈ xs, f x = .ok (F x)) → xs.mapM f = .ok (xs.map F)
  | [], _ => rfl
  | x :: xs, h => by
    rw [List.mapM_cons, h x (by simp), mapM_ok_of (xs := xs) (fun y hy => h y (by simp [hy]))]
    rfl

theorem mapM_error_of {β : Type _} {f : α → Result β} {e : Err} (p : α → Prop)
    (hok : ∀ x, p x → ∃ b, f x = .ok b) (hbad : ∀ x, ¬ p x → f x = .error e) :
    ∀ {xs : List α}, (∃ x ∈ xs, ¬ p x) → xs.mapM f = .error e
  | [], h => by simp at h
  | x :: xs, h => by
    rw [List.mapM_cons]
    by_cases hx : p x
    · obtain ⟨b, hb⟩ := hok x hx
      have : ∃ y ∈ xs, ¬ p y := by
        obtain ⟨y, hy, hyp⟩ := h
        rcases List.mem_cons.1 hy with rfl | hy
        · exact absurd hx hyp
        · exact ⟨y, hy, hyp⟩
      rw [hb, mapM_error_of p hok hbad this]
      rfl
    · rw [hbad x hx]; rfl

/-! ## ancestors, descendants, unions -/

/-- The list that `ancestors` returns. -/
def ancL (g : Digraph α) (x : α) : List α :=
  (bfs g.preds (g.nodes.length + 1) [] [x]).filter (· ≠ x)

/-- The list that `descendants` returns. -/
def desL (g : Digraph α) (x : α) : List α :=
  (bfs g.succs (g.nodes.length + 1) [] [x]).filter (· ≠ x)

theorem ancestors_ok {g : Digraph α} {x : α} (hx : x ∈ g.nodes) : g.ancestors x = .ok (g.ancL x) := by
  simp [ancestors, hx, ancL]

theorem descendants_ok {g : Digraph α} {x : α} (hx : x ∈ g.nodes) :
    g.descendants x = .ok (g.desL x) := by
  simp [descendants, hx, desL]

theorem mem_ancL {g : Digraph α} (hg : g.WF) {x : α} (hx : x ∈ g.nodes) (y : α) :
    y ∈ g.ancL x ↔ y ≠ x ∧ TransGen g.E y x := by
  obtain ⟨l, hl, h⟩ := exists_ancestors hg hx
  rw [ancestors_ok hx] at hl
  cases hl
  exact h y

theorem mem_desL {g : Digraph α} (hg : g.WF) {x : α} (hx : x ∈ g.nodes) (y : α) :
    y ∈ g.desL x ↔ y ≠ x ∧ TransGen g.E x y := by
  obtain ⟨l, hl, h⟩ := exists_descendants hg hx
  rw [descendants_ok hx] at hl
  cases hl
  exact h y

theorem mem_ancL_acyclic {g : Digraph α} (hg : g.WF) (ha : Acyclic g.E) {x : α} (hx : x ∈ g.nodes)
    (y : α) : y ∈ g.ancL x ↔ TransGen g.E y x := by
  rw [mem_ancL hg hx]
  exact ⟨fun h => h.2, fun h => ⟨fun e => ha x (e ▸ h), h⟩⟩

theorem mem_desL_acyclic {g : Digraph α} (hg : g.WF) (ha : Acyclic g.E) {x : α} (hx : x ∈ g.nodes)
    (y : α) : y ∈ g.desL x ↔ TransGen g.E x y := by
  rw [mem_desL hg hx]
  exact ⟨fun h => h.2, fun h => ⟨fun e => ha x (e ▸ h), h⟩⟩

theorem upstream_ok {g : Digraph α} {xs : List α} (hne : xs ≠ [])
    (h : ∀ x ∈ xs, x ∈ g.nodes) : g.upstream xs = .ok (xs.flatMap g.ancL) := by
  unfold upstream
  rw [mapM_ok_of (F := g.ancL) (fun x hx => ancestors_ok (h x hx))]
  cases xs with
  | nil => exact absurd rfl hne
  | cons x xs => simp [setUnion, bind, Except.bind, List.flatMap]

theorem downstream_ok {g : Digraph α} {xs : List α} (hne : xs ≠ [])
    (h : ∀ x ∈ xs, x ∈ g.nodes) : g.downstream xs = .ok (xs.flatMap g.desL) := by
  unfold downstream
  rw [mapM_ok_of (F := g.desL) (fun x hx => descendants_ok (h x hx))]
  cases xs with
  | nil => exact absurd rfl hne
  | cons x xs => simp [setUnion, bind, Except.bind, List.flatMap]

theorem upstream_error {g : Digraph α} {xs : List α} (h : ∃ x ∈ xs, x ∉ g.nodes) :
    g.upstream xs = .error .NetworkXError := by
  unfold upstream
  rw [mapM_error_of (e := .NetworkXError) (· ∈ g.nodes) (fun x hx => ⟨_, ancestors_ok hx⟩)
    (fun x hx => ancestors_eq_error g hx) h]
  rfl

theorem downstream_error {g : Digraph α} {xs : List α} (h : ∃ x ∈ xs, x ∉ g.nodes) :
    g.downstream xs = .error .NetworkXError := by
  unfold downstream
  rw [mapM_error_of (e := .NetworkXError) (· ∈ g.nodes) (fun x hx => ⟨_, descendants_ok hx⟩)
    (fun x hx => descendants_eq_error g hx) h]
  rfl

/-! ## order and sort -/

theorem order_ok_of_acyclic {g : Digraph α} (hg : g.WF) (ha : Acyclic g.E) :
    ∃ l, g.order = .ok l ∧ TopologicalOrder (· ∈ g.nodes) g.E l :=
  exists_topologicalSort hg ha

theorem order_spec {g : Digraph α} (hg : g.WF) {l : List α} (h : g.order = .ok l) :
    TopologicalOrder (· ∈ g.nodes) g.E l := topologicalSort_ok hg h

theorem acyclic_of_order {g : Digraph α} (hg : g.WF) {l : List α} (h : g.order = .ok l) :
    Acyclic g.E := (topologicalSort_isOk_iff hg).1 ⟨l, h⟩

theorem checkAcyclic_iff {g : Digraph α} (hg : g.WF) : g.checkAcyclic = true ↔ Acyclic g.E := by
  rw [← topologicalSort_isOk_iff hg]
  unfold checkAcyclic
  cases g.topologicalSort <;> simp

theorem order_error_of_cyclic {g : Digraph α} (hg : g.WF) (h : ¬ Acyclic g.E) :
    g.order = .error .NetworkXUnfeasible := by
  unfold order
  cases hs : g.topologicalSort with
  | ok l => exact absurd ((topologicalSort_isOk_iff hg).1 ⟨l, hs⟩) h
  | error e => rw [topologicalSort_error hs]

/-- Sublists of an order that keep splits. -/
theorem filter_split {l : List α} {p : α → Bool} :
    ∀ {pre : List α} {v : α} {suf : List α}, l.filter p = pre ++ v :: suf →
      ∃ pre' suf', l = pre' ++ v :: suf' ∧ pre = pre'.filter p ∧ suf = suf'.filter p := by
  induction l with
  | nil => intro pre v suf h; simp at h
  | cons a l ih =>
    intro pre v suf h
    by_cases ha : p a
    · rw [List.filter_cons_of_pos ha] at h
      cases pre with
      | nil =>
        simp only [List.nil_append, List.cons.injEq] at h
        obtain ⟨rfl, rfl⟩ := h
        exact ⟨[], l, rfl, rfl, rfl⟩
      | cons b pre =>
        simp only [List.cons_append, List.cons.injEq] at h
        obtain ⟨rfl, h⟩ := h
        obtain ⟨pre', suf', rfl, rfl, rfl⟩ := ih h
        exact ⟨a :: pre', suf', rfl, by simp [ha], rfl⟩
    · rw [List.filter_cons_of_neg ha] at h
      obtain ⟨pre', suf', rfl, rfl, rfl⟩ := ih h
      exact ⟨a :: pre', suf', rfl, by simp [ha], rfl⟩

theorem respectsPaths_of_order {N : α → Prop} {E : α → α → Prop} {l : List α}
    (h : TopologicalOrder N E l) : RespectsPaths E l := by
  intro pre v suf e u hu huv
  have h1 := parentsFirst_trans h.parentsFirst huv pre suf e
  have hnd := h.nodup
  rw [e, List.nodup_append] at hnd
  exact hnd.2.2 u h1 u (by simp [hu]) rfl

theorem respectsPaths_filter {E : α → α → Prop} {l : List α} (h : RespectsPaths E l) (p : α → Bool) :
    RespectsPaths E (l.filter p) := by
  intro pre v suf e u hu
  obtain ⟨pre', suf', e', rfl, rfl⟩ := filter_split e
  exact h pre' v suf' e' u (List.mem_of_mem_filter hu)

theorem sort_ok {g : Digraph α} (hg : g.WF) (ha : Acyclic g.E) (xs : List α) :
    ∃ l, g.sort xs = .ok l ∧ l.Nodup ∧ (∀ x, x ∈ l ↔ x ∈ g.nodes ∧ x ∈ xs) ∧
      RespectsPaths g.E l := by
  obtain ⟨l, hl, ht⟩ := order_ok_of_acyclic hg ha
  refine ⟨l.filter (· ∈ xs), ?_, ht.nodup.filter _, ?_, ?_⟩
  · unfold sort; rw [hl]; rfl
  · intro x; simp [ht.complete]
  · exact respectsPaths_filter (respectsPaths_of_order ht) _

/-! ## edge removal -/

theorem removeEdges_spec {g : Digraph α} (hg : g.WF) : ∀ (es : List (α × α)), es.Nodup →
    (∀ e ∈ es, e ∈ g.edges) →
    ∃ g', g.removeEdges es = (g', .ok ()) ∧ g'.WF ∧ g'.nodes = g.nodes ∧
      ∀ a b, g'.E a b ↔ g.E a b ∧ (a, b) ∉ es := by
  intro es
  induction es generalizing g with
  | nil => intro _ _; exact ⟨g, rfl, hg, rfl, by simp⟩
  | cons e es ih =>
    intro hnd hsub
    obtain ⟨u, v⟩ := e
    obtain ⟨g1, h1, hn, hE⟩ := removeEdge_ok (g := g) (u := u) (v := v) (hsub (u, v) (by simp))
    rw [List.nodup_cons] at hnd
    obtain ⟨g2, h2, hwf, hn2, hE2⟩ := ih (hg.removeEdge h1) hnd.2 (by
      intro e' he'
      have : g1.E e'.1 e'.2 := by
        rw [hE]
        refine ⟨hsub e' (by simp [he']), ?_⟩
        rintro h
        exact hnd.1 (h ▸ he')
      exact this)
    refine ⟨g2, ?_, hwf, by rw [hn2, hn], ?_⟩
    · simp only [removeEdges, h1, h2]
    · intro a b
      rw [hE2, hE, List.mem_cons]
      tauto

theorem cutGiven_ok {g : Digraph α} (hg : g.WF) : ∀ {given : List α}, (∀ x ∈ given, x ∈ g.nodes) →
    ∃ mi, cutGiven given g = .ok mi ∧ mi.WF ∧ mi.nodes = g.nodes ∧
      ∀ a b, mi.E a b ↔ g.E a b ∧ b ∉ given := by
  intro given
  induction given generalizing g with
  | nil => intro _; exact ⟨g, rfl, hg, rfl, by simp⟩
  | cons x given ih =>
    intro h
    have hx := h x (by simp)
    obtain ⟨g1, h1, hwf1, hn1, hE1⟩ := removeEdges_spec hg ((g.preds x).map (fun p => (p, x)))
      ((nodup_preds hg x).map (fun a b hab => by simpa using hab))
      (by
        intro e he
        rw [List.mem_map] at he
        obtain ⟨p, hp, rfl⟩ := he
        exact (mem_preds g p x).1 hp)
    obtain ⟨mi, h2, hwf2, hn2, hE2⟩ := ih hwf1 (fun y hy => by rw [hn1]; exact h y (by simp [hy]))
    refine ⟨mi, ?_, hwf2, by rw [hn2, hn1], ?_⟩
    · simp only [cutGiven, hx, if_true, h1, h2]
    · intro a b
      rw [hE2, hE1, List.mem_cons, List.mem_map]
      constructor
      · rintro ⟨⟨k1, k2⟩, k3⟩
        refine ⟨k1, ?_⟩
        rintro (rfl | k4)
        · exact k2 ⟨a, (mem_preds g a b).2 k1, rfl⟩
        · exact k3 k4
      · rintro ⟨h1, h2⟩
        refine ⟨⟨h1, ?_⟩, fun h => h2 (Or.inr h)⟩
        rintro ⟨p, hp, he⟩
        simp only [Prod.mk.injEq] at he
        exact h2 (Or.inl he.2.symm)

theorem cutGiven_error {g : Digraph α} (hg : g.WF) : ∀ {given : List α},
    (∃ x ∈ given, x ∉ g.nodes) → cutGiven given g = .error .NetworkXError := by
  intro given
  induction given generalizing g with
  | nil => intro h; simp at h
  | cons x given ih =>
    intro h
    by_cases hx : x ∈ g.nodes
    · obtain ⟨g1, h1, hwf1, hn1, hE1⟩ := removeEdges_spec hg ((g.preds x).map (fun p => (p, x)))
        ((nodup_preds hg x).map (fun a b hab => by simpa using hab))
        (by
          intro e he
          rw [List.mem_map] at he
          obtain ⟨p, hp, rfl⟩ := he
          exact (mem_preds g p x).1 hp)
      simp only [cutGiven, hx, if_true, h1]
      apply ih hwf1
      obtain ⟨y, hy, hyn⟩ := h
      rcases List.mem_cons.1 hy with rfl | hy
      · exact absurd hx hyn
      · exact ⟨y, hy, by rw [hn1]; exact hyn⟩
    · simp [cutGiven, hx]

theorem transGen_cut_iff {E E' : α → α → Prop} {A : α → Prop} (h : ∀ a b, E' a b ↔ E a b ∧ ¬ A b)
    {x t : α} : TransGen E' x t ↔ AvoidPath E A x t := by
  constructor
  · intro hp
    induction hp using TransGen.head_induction_on with
    | single hab => exact .single ((h _ _).1 hab).1 ((h _ _).1 hab).2
    | head hab _ ih => exact .cons ((h _ _).1 hab).1 ((h _ _).1 hab).2 ih
  · intro hp
    induction hp with
    | single h1 h2 => exact .single ((h _ _).2 ⟨h1, h2⟩)
    | cons h1 h2 _ ih => exact TransGen.head ((h _ _).2 ⟨h1, h2⟩) ih

/-! ## minimal_requirements -/

theorem requirementsLoop_ok {g : Digraph α} (hg : g.WF) (ha : Acyclic g.E) :
    ∀ (cond : List α) (anc : List α), (∀ x ∈ anc, x ∈ g.nodes) →
    ∃ l, g.requirementsLoop anc cond = .ok l ∧
      -- what is removed is an ancestor of a conditioning node of the input
      (∀ x, x ∈ l → x ∈ anc) ∧
      (∀ x, x ∈ anc → x ∉ l → ∃ s ∈ cond, s ∈ anc ∧ TransGen g.E x s) ∧
      (∀ x s, x ∈ l → s ∈ cond → s ∈ anc → ¬ TransGen g.E x s) := by
  intro cond
  induction cond with
  | nil =>
    intro anc _
    exact ⟨anc, rfl, fun x h => h, fun x h1 h2 => absurd h1 h2, by simp⟩
  | cons s cond ih =>
    intro anc hsub
    by_cases hs : s ∈ anc
    · have hsn := hsub s hs
      obtain ⟨l, hl, h1, h2, h3⟩ := ih (anc.filter (· ∉ g.ancL s))
        (fun x hx => hsub x (List.mem_of_mem_filter hx))
      have hmem : ∀ x, x ∈ anc.filter (· ∉ g.ancL s) ↔ x ∈ anc ∧ ¬ TransGen g.E x s := by
        intro x
        simp only [List.mem_filter, decide_eq_true_eq, mem_ancL_acyclic hg ha hsn]
      refine ⟨l, ?_, ?_, ?_, ?_⟩
      · simp only [requirementsLoop, hs, if_true, ancestors_ok hsn]
        exact hl
      · intro x hx; exact ((hmem x).1 (h1 x hx)).1
      · intro x hx hxl
        by_cases hxs : TransGen g.E x s
        · exact ⟨s, by simp, hs, hxs⟩
        · obtain ⟨s', hs', hs'a, hp⟩ := h2 x ((hmem x).2 ⟨hx, hxs⟩) hxl
          exact ⟨s', by simp [hs'], ((hmem s').1 hs'a).1, hp⟩
      · intro x s' hx hs' hs'a hp
        have hx' := (hmem x).1 (h1 x hx)
        rcases List.mem_cons.1 hs' with rfl | hs'
        · exact hx'.2 hp
        · by_cases hk : TransGen g.E s' s
          · exact hx'.2 (hp.trans hk)
          · exact h3 x s' hx hs' ((hmem s').2 ⟨hs'a, hk⟩) hp
    · obtain ⟨l, hl, h1, h2, h3⟩ := ih anc hsub
      refine ⟨l, ?_, h1, ?_, ?_⟩
      · simp only [requirementsLoop, hs, if_false]; exact hl
      · intro x hx hxl
        obtain ⟨s', hs', h⟩ := h2 x hx hxl
        exact ⟨s', by simp [hs'], h⟩
      · intro x s' hx hs' hs'a
        rcases List.mem_cons.1 hs' with rfl | hs'
        · exact absurd hs'a hs
        · exact h3 x s' hx hs' hs'a

theorem minimalRequirements_ok {g : Digraph α} (hg : g.WF) (ha : Acyclic g.E) {t : α}
    (ht : t ∈ g.nodes) (cond : List α) :
    ∃ l, g.minimalRequirements t cond = .ok l ∧ l.Nodup ∧ RespectsPaths g.E l ∧
      ∀ x, x ∈ l ↔ TransGen g.E x t ∧ ∀ s ∈ cond, TransGen g.E s t → ¬ TransGen g.E x s := by
  have hsub : ∀ x ∈ g.ancL t, x ∈ g.nodes := fun x hx =>
    mem_nodes_of_trans_left hg ((mem_ancL_acyclic hg ha ht x).1 hx)
  obtain ⟨r, hr, h1, h2, h3⟩ := requirementsLoop_ok hg ha cond (g.ancL t) hsub
  obtain ⟨l, hl, hnd, hmem, hresp⟩ := sort_ok hg ha r
  refine ⟨l, ?_, hnd, hresp, ?_⟩
  · unfold minimalRequirements
    rw [ancestors_ok ht]
    simp only [bind, Except.bind, hr]
    exact hl
  · intro x
    rw [hmem]
    constructor
    · rintro ⟨hxn, hx⟩
      refine ⟨(mem_ancL_acyclic hg ha ht x).1 (h1 x hx), ?_⟩
      intro s hs hst
      exact h3 x s hx hs ((mem_ancL_acyclic hg ha ht s).2 hst)
    · rintro ⟨hxt, hall⟩
      have hxa := (mem_ancL_acyclic hg ha ht x).2 hxt
      refine ⟨hsub x hxa, ?_⟩
      by_contra hn
      obtain ⟨s, hs, hsa, hp⟩ := h2 x hxa hn
      exact hall s hs ((mem_ancL_acyclic hg ha ht s).1 hsa) hp

/-! ## minimal_dag -/

theorem simplePaths_sound {g : Digraph α} {t : α} : ∀ n visited s p, p ∈ g.simplePaths t n visited s →
    ∀ x ∈ p, ReflTransGen g.E s x ∧ ReflTransGen g.E x t := by
  intro n
  induction n with
  | zero => intro visited s p hp; simp [simplePaths] at hp
  | succ n ih =>
    intro visited s p hp x hx
    unfold simplePaths at hp
    split at hp
    · rename_i hst
      simp only [List.mem_singleton] at hp
      subst hp; subst hst
      simp only [List.mem_singleton] at hx
      subst hx
      exact ⟨.refl, .refl⟩
    · simp only [List.mem_flatMap, List.mem_filter, mem_succs, List.mem_map] at hp
      obtain ⟨c, ⟨hc, -⟩, q, hq, rfl⟩ := hp
      have hq' := ih _ _ _ hq
      rcases List.mem_cons.1 hx with rfl | hx
      · refine ⟨.refl, ?_⟩
        -- q is non-empty and starts at c
        have hct : ReflTransGen g.E c t := by
          cases n with
          | zero => simp [simplePaths] at hq
          | succ n =>
            have hcq : c ∈ q := by
              unfold simplePaths at hq
              split at hq
              · rename_i h; simp at hq; subst hq; subst h; simp
              · simp only [List.mem_flatMap, List.mem_map] at hq
                obtain ⟨d, -, q', -, rfl⟩ := hq
                simp
            exact (hq' c hcq).2
        exact ReflTransGen.head hc hct
      · exact ⟨ReflTransGen.head hc (hq' x hx).1, (hq' x hx).2⟩

theorem simplePaths_complete {g : Digraph α} (hg : g.WF) (ha : Acyclic g.E) {t : α} :
    ∀ n visited s x, s ∈ visited → visited.Nodup → (∀ v ∈ visited, v ∈ g.nodes) →
      (∀ v ∈ visited, ReflTransGen g.E v s) → g.nodes.length + 1 ≤ n + visited.length →
      ReflTransGen g.E s x → ReflTransGen g.E x t →
      ∃ p ∈ g.simplePaths t n visited s, x ∈ p := by
  intro n
  induction n with
  | zero =>
    intro visited s x _ hnd hsub _ hf
    exfalso
    have := (List.subperm_of_subset (l₂ := g.nodes) hnd (fun v hv => hsub v hv)).length_le
    omega
  | succ n ih =>
    intro visited s x hs hnd hsub hreach hf hsx hxt
    by_cases hst : s = t
    · subst hst
      -- x lies between s and s, so x = s
      have hx : x = s := by
        by_contra hne
        have h1 := (reach_ne_iff hne).1 hsx
        exact ha s (h1.trans_left hxt)
      subst hx
      exact ⟨[x], by simp [simplePaths], by simp⟩
    · have next : ∀ c, g.E s c → ∀ y, ReflTransGen g.E c y → ReflTransGen g.E y t →
          ∃ p ∈ g.simplePaths t (n + 1) visited s, y ∈ p ∧ s ∈ p := by
        intro c hc y hcy hyt
        have hcv : c ∉ visited := by
          intro hcv
          exact ha c (TransGen.tail' (hreach c hcv) hc)
        obtain ⟨p, hp, hyp⟩ := ih (c :: visited) c y (by simp)
          (by rw [List.nodup_cons]; exact ⟨hcv, hnd⟩)
          (by
            intro v hv
            rcases List.mem_cons.1 hv with rfl | hv
            · exact hg.right_mem hc
            · exact hsub v hv)
          (by
            intro v hv
            rcases List.mem_cons.1 hv with rfl | hv
            · exact .refl
            · exact (hreach v hv).tail hc)
          (by simp; omega) hcy hyt
        refine ⟨s :: p, ?_, by simp [hyp], by simp⟩
        unfold simplePaths
        simp only [hst, if_false, List.mem_flatMap, List.mem_filter, mem_succs, List.mem_map]
        exact ⟨c, ⟨hc, by simpa using hcv⟩, p, hp, rfl⟩
      rcases ReflTransGen.cases_head hsx with rfl | ⟨c, hc, hcx⟩
      · rcases ReflTransGen.cases_head hxt with h | ⟨c, hc, hct⟩
        · exact absurd h hst
        · obtain ⟨p, hp, -, h⟩ := next c hc c .refl hct
          exact ⟨p, hp, h⟩
      · obtain ⟨p, hp, h, -⟩ := next c hc x hcx hxt
        exact ⟨p, hp, h⟩

theorem mem_simplePaths {g : Digraph α} (hg : g.WF) (ha : Acyclic g.E) {s t x : α}
    (hs : s ∈ g.nodes) :
    x ∈ (g.simplePaths t g.nodes.length [s] s).flatten ↔
      ReflTransGen g.E s x ∧ ReflTransGen g.E x t := by
  rw [List.mem_flatten]
  constructor
  · rintro ⟨p, hp, hx⟩
    exact simplePaths_sound _ _ _ _ hp x hx
  · rintro ⟨h1, h2⟩
    exact simplePaths_complete hg ha _ [s] s x (by simp) (by simp) (by simpa using hs)
      (by intro v hv; simp at hv; subst hv; exact .refl) (by simp) h1 h2

theorem mem_pathNodes {g : Digraph α} (hg : g.WF) (ha : Acyclic g.E) (x : α) :
    ∀ l : List α, (∀ s ∈ l, s ∈ g.nodes) → (x ∈ g.pathNodes l ↔
      ∃ pre s suf, l = pre ++ s :: suf ∧ ∃ t ∈ s :: suf,
        ReflTransGen g.E s x ∧ ReflTransGen g.E x t) := by
  intro l
  induction l with
  | nil => intro _; simp [pathNodes]
  | cons a l ih =>
    intro hl
    unfold pathNodes
    rw [List.mem_append, ih (fun s hs => hl s (by simp [hs]))]
    simp only [List.mem_flatMap, mem_simplePaths hg ha (hl a (by simp))]
    constructor
    · rintro (⟨t, ht, h⟩ | ⟨pre, s, suf, rfl, h⟩)
      · exact ⟨[], a, l, rfl, t, ht, h⟩
      · exact ⟨a :: pre, s, suf, rfl, h⟩
    · rintro ⟨pre, s, suf, e, t, ht, h⟩
      cases pre with
      | nil =>
        simp only [List.nil_append, List.cons.injEq] at e
        obtain ⟨rfl, rfl⟩ := e
        exact Or.inl ⟨t, ht, h⟩
      | cons b pre =>
        simp only [List.cons_append, List.cons.injEq] at e
        exact Or.inr ⟨pre, s, suf, e.2, t, ht, h⟩

theorem minimalDag_ok {g : Digraph α} (hg : g.WF) (ha : Acyclic g.E) (xs : List α) :
    ∃ m, g.minimalDag xs = .ok m ∧ m.WF ∧
      (∀ x, x ∈ m.nodes ↔ ∃ s ∈ xs, ∃ t ∈ xs, s ∈ g.nodes ∧ t ∈ g.nodes ∧
        ReflTransGen g.E s x ∧ ReflTransGen g.E x t) ∧
      (∀ u v, m.E u v ↔ g.E u v ∧ u ∈ m.nodes ∧ v ∈ m.nodes) ∧
      (∃ ks, m = g.subgraph ks) := by
  obtain ⟨l, hl, hnd, hmem, hresp⟩ := sort_ok hg ha xs
  have hln : ∀ s ∈ l, s ∈ g.nodes := fun s hs => ((hmem s).1 hs).1
  have hnodes : ∀ x, x ∈ (g.subgraph (l ++ g.pathNodes l)).nodes ↔
      ∃ s ∈ xs, ∃ t ∈ xs, s ∈ g.nodes ∧ t ∈ g.nodes ∧
        ReflTransGen g.E s x ∧ ReflTransGen g.E x t := by
    intro x
    simp only [subgraph, List.mem_filter, decide_eq_true_eq, List.mem_append,
      mem_pathNodes hg ha x l hln]
    constructor
    · rintro ⟨hx, hx' | ⟨pre, s, suf, rfl, t, ht, h1, h2⟩⟩
      · exact ⟨x, ((hmem x).1 hx').2, x, ((hmem x).1 hx').2, hx, hx, .refl, .refl⟩
      · have hs : s ∈ pre ++ s :: suf := by simp
        have ht' : t ∈ pre ++ s :: suf := List.mem_append_right _ ht
        exact ⟨s, ((hmem s).1 hs).2, t, ((hmem t).1 ht').2, ((hmem s).1 hs).1,
          ((hmem t).1 ht').1, h1, h2⟩
    · rintro ⟨s, hs, t, ht, hsn, htn, h1, h2⟩
      have hxn : x ∈ g.nodes := by
        rcases (reflTransGen_iff_eq_or_transGen).1 h1 with rfl | h
        · exact hsn
        · exact mem_nodes_of_trans_right hg h
      refine ⟨hxn, Or.inr ?_⟩
      have hsl := (hmem s).2 ⟨hsn, hs⟩
      have htl := (hmem t).2 ⟨htn, ht⟩
      obtain ⟨pre, suf, e⟩ := List.append_of_mem hsl
      refine ⟨pre, s, suf, e, t, ?_, h1, h2⟩
      by_contra hnt
      have htpre : t ∈ pre := by
        rw [e] at htl
        rcases List.mem_append.1 htl with h | h
        · exact h
        · exact absurd h hnt
      have hst : s ≠ t := by rintro rfl; exact hnt (by simp)
      have hstp : TransGen g.E s t :=
        (reach_ne_iff (Ne.symm hst)).1 (h1.trans h2)
      obtain ⟨p1, p2, rfl⟩ := List.append_of_mem htpre
      exact hresp p1 t (p2 ++ s :: suf) (by rw [e]; simp) s (by simp) hstp
  refine ⟨g.subgraph (l ++ g.pathNodes l), ?_, ?_, hnodes, ?_, ⟨_, rfl⟩⟩
  · unfold minimalDag; rw [hl]; rfl
  · refine ⟨hg.nodup_nodes.filter _, hg.nodup_edges.filter _, ?_, ?_⟩
    · intro u v h
      simp only [subgraph, List.mem_filter, decide_eq_true_eq] at h ⊢
      exact ⟨hg.left_mem h.1, h.2.1⟩
    · intro u v h
      simp only [subgraph, List.mem_filter, decide_eq_true_eq] at h ⊢
      exact ⟨hg.right_mem h.1, h.2.2⟩
  · intro u v
    simp only [subgraph, E, List.mem_filter, decide_eq_true_eq]
    constructor
    · rintro ⟨h1, h2, h3⟩; exact ⟨h1, ⟨hg.left_mem h1, h2⟩, ⟨hg.right_mem h1, h3⟩⟩
    · rintro ⟨h1, ⟨-, h2⟩, ⟨-, h3⟩⟩; exact ⟨h1, h2, h3⟩

/-! ## remove_upstream / remove_downstream -/

theorem removeUpstreamLoop_ok {g0 : Digraph α} (xs : List α) {full : List α}
    (hfull : TopologicalOrder (· ∈ g0.nodes) g0.E full) :
    ∀ (od pre : List α) (h : Digraph α), full = pre ++ od → h.WF →
    (∀ y, y ∈ h.nodes ↔ y ∈ g0.nodes ∧ ¬ (y ∈ pre ∧ y ∉ xs ∧ ∃ p ∈ xs, g0.E p y)) →
    (∀ a b, h.E a b ↔ g0.E a b ∧ a ∈ h.nodes ∧ b ∈ h.nodes) →
    ∃ g', removeUpstreamLoop xs od h = .ok g' ∧ g'.WF ∧
      (∀ y, y ∈ g'.nodes ↔ y ∈ g0.nodes ∧ ¬ (y ∉ xs ∧ ∃ p ∈ xs, g0.E p y)) ∧
      (∀ a b, g'.E a b ↔ g0.E a b ∧ a ∈ g'.nodes ∧ b ∈ g'.nodes) := by
  intro od
  induction od with
  | nil =>
    intro pre h e hwf hn hE
    refine ⟨h, rfl, hwf, ?_, hE⟩
    intro y
    rw [hn]
    constructor
    · rintro ⟨h1, h2⟩
      refine ⟨h1, fun h3 => h2 ⟨?_, h3⟩⟩
      have := (hfull.complete y).2 h1
      rw [e] at this
      simpa using this
    · rintro ⟨h1, h2⟩; exact ⟨h1, fun h3 => h2 h3.2⟩
  | cons s od ih =>
    intro pre h e hwf hn hE
    have hsn0 : s ∈ g0.nodes := (hfull.complete s).1 (by rw [e]; simp)
    have hspre : s ∉ pre := by
      have := hfull.nodup
      rw [e, List.nodup_append] at this
      intro hs
      exact this.2.2 s hs s (by simp) rfl
    have hsn : s ∈ h.nodes := (hn s).2 ⟨hsn0, fun h => hspre h.1⟩
    by_cases hs : s ∈ xs
    · simp only [removeUpstreamLoop, hs, if_true]
      refine ih (pre ++ [s]) h (by rw [e]; simp) hwf ?_ hE
      intro y
      rw [hn]
      constructor
      · rintro ⟨h1, h2⟩
        refine ⟨h1, ?_⟩
        rintro ⟨h3, h4, h5⟩
        rcases List.mem_append.1 h3 with h3 | h3
        · exact h2 ⟨h3, h4, h5⟩
        · simp at h3; subst h3; exact h4 hs
      · rintro ⟨h1, h2⟩
        exact ⟨h1, fun h3 => h2 ⟨by simp [h3.1], h3.2⟩⟩
    · have hiff : (h.ancL s).any (· ∈ xs) = true ↔ ∃ p ∈ xs, g0.E p s := by
        rw [List.any_eq_true]
        constructor
        · rintro ⟨a, haa, hax⟩
          rw [decide_eq_true_eq] at hax
          have htr := ((mem_ancL hwf hsn a).1 haa).2
          clear haa
          induction htr using TransGen.head_induction_on with
          | single hab => exact ⟨_, hax, ((hE _ _).1 hab).1⟩
          | @head a c hac hcs ih2 =>
            by_cases hc : c ∈ xs
            · exact ih2 hc
            · exfalso
              have hcn := ((hE _ _).1 hac).2.2
              have hcs0 : TransGen g0.E c s := TransGen.mono (fun a b hab => ((hE a b).1 hab).1) _ _ hcs
              have hcpre : c ∈ pre :=
                parentsFirst_trans hfull.parentsFirst hcs0 pre od e
              exact ((hn c).1 hcn).2 ⟨hcpre, hc, a, hax, ((hE _ _).1 hac).1⟩
        · rintro ⟨p, hp, hps⟩
          have hpn : p ∈ h.nodes := (hn p).2 ⟨(hfull.complete p).1 (by
            have := hfull.parentsFirst pre s od e p hps
            rw [e]; simp [this]), fun h => h.2.1 hp⟩
          have hedge : h.E p s := (hE p s).2 ⟨hps, hpn, hsn⟩
          refine ⟨p, (mem_ancL hwf hsn p).2 ⟨?_, .single hedge⟩, by simpa using hp⟩
          rintro rfl
          exact hs hp
      by_cases hany : (h.ancL s).any (· ∈ xs) = true
      · obtain ⟨h1, hr, hn1, hE1⟩ := removeNode_ok (g := h) hsn
        have hstep : removeUpstreamLoop xs (s :: od) h = removeUpstreamLoop xs od h1 := by
          rw [removeUpstreamLoop, if_neg hs, ancestors_ok hsn]
          simp only [bind, Except.bind]
          rw [if_pos hany, hr]
        rw [hstep]
        refine ih (pre ++ [s]) h1 (by rw [e]; simp) (hwf.removeNode hr) ?_ ?_
        · intro y
          rw [hn1, hn]
          constructor
          · rintro ⟨⟨h1, h2⟩, h3⟩
            refine ⟨h1, ?_⟩
            rintro ⟨h4, h5, h6⟩
            rcases List.mem_append.1 h4 with h4 | h4
            · exact h2 ⟨h4, h5, h6⟩
            · simp at h4; exact h3 h4
          · rintro ⟨h1, h2⟩
            refine ⟨⟨h1, fun h3 => h2 ⟨by simp [h3.1], h3.2⟩⟩, ?_⟩
            rintro rfl
            exact h2 ⟨by simp, hs, hiff.1 hany⟩
        · intro a b
          rw [hE1, hE, hn1, hn1]; tauto
      · have hstep : removeUpstreamLoop xs (s :: od) h = removeUpstreamLoop xs od h := by
          rw [removeUpstreamLoop, if_neg hs, ancestors_ok hsn]
          simp only [bind, Except.bind]
          rw [if_neg hany]
        rw [hstep]
        refine ih (pre ++ [s]) h (by rw [e]; simp) hwf ?_ hE
        intro y
        rw [hn]
        constructor
        · rintro ⟨h1, h2⟩
          refine ⟨h1, ?_⟩
          rintro ⟨h4, h5, h6⟩
          rcases List.mem_append.1 h4 with h4 | h4
          · exact h2 ⟨h4, h5, h6⟩
          · simp at h4; subst h4; exact hany (hiff.2 h6)
        · rintro ⟨h1, h2⟩
          exact ⟨h1, fun h3 => h2 ⟨by simp [h3.1], h3.2⟩⟩

theorem removeDownstreamLoop_ok {g0 : Digraph α} (hg0 : g0.WF) (xs : List α) {full : List α}
    (hfull : TopologicalOrder (· ∈ g0.nodes) g0.E full) :
    ∀ (od pre : List α) (h : Digraph α), full.reverse = pre ++ od → h.WF →
    (∀ y, y ∈ h.nodes ↔ y ∈ g0.nodes ∧ ¬ (y ∈ pre ∧ y ∉ xs ∧ ∃ p ∈ xs, g0.E y p)) →
    (∀ a b, h.E a b ↔ g0.E a b ∧ a ∈ h.nodes ∧ b ∈ h.nodes) →
    ∃ g', removeDownstreamLoop xs od h = .ok g' ∧ g'.WF ∧
      (∀ y, y ∈ g'.nodes ↔ y ∈ g0.nodes ∧ ¬ (y ∉ xs ∧ ∃ p ∈ xs, g0.E y p)) ∧
      (∀ a b, g'.E a b ↔ g0.E a b ∧ a ∈ g'.nodes ∧ b ∈ g'.nodes) := by
  have hmemfull : ∀ y, y ∈ full.reverse ↔ y ∈ g0.nodes := by
    intro y; rw [List.mem_reverse]; exact hfull.complete y
  have hndr : full.reverse.Nodup := List.nodup_reverse.2 hfull.nodup
  -- in the reversed order, whatever s can reach comes before s
  have hlater : ∀ pre s od c, full.reverse = pre ++ s :: od → TransGen g0.E s c → c ∈ g0.nodes →
      c ∈ pre := by
    intro pre s od c e hsc hc
    have hc' := (hmemfull c).2 hc
    rw [e] at hc'
    rcases List.mem_append.1 hc' with h | h
    · exact h
    · exfalso
      have e2 : full = od.reverse ++ s :: pre.reverse := by
        have := congrArg List.reverse e
        simpa using this
      rcases List.mem_cons.1 h with rfl | h
      · exact acyclic_of_parentsFirst hfull.nodup hfull.parentsFirst
          ((hfull.complete c).2 hc) hsc
      · have hcod : c ∈ od.reverse := by simpa using h
        obtain ⟨p1, p2, hp⟩ := List.append_of_mem hcod
        have hs := parentsFirst_trans hfull.parentsFirst hsc p1 (p2 ++ s :: pre.reverse)
          (by rw [e2, hp]; simp)
        have hnd := hfull.nodup
        rw [e2, List.nodup_append] at hnd
        exact hnd.2.2 s (by rw [hp]; simp [hs]) s (by simp) rfl
  intro od
  induction od with
  | nil =>
    intro pre h e hwf hn hE
    refine ⟨h, rfl, hwf, ?_, hE⟩
    intro y
    rw [hn]
    constructor
    · rintro ⟨h1, h2⟩
      refine ⟨h1, fun h3 => h2 ⟨?_, h3⟩⟩
      have := (hmemfull y).2 h1
      rw [e] at this
      simpa using this
    · rintro ⟨h1, h2⟩; exact ⟨h1, fun h3 => h2 h3.2⟩
  | cons s od ih =>
    intro pre h e hwf hn hE
    have hsn0 : s ∈ g0.nodes := (hmemfull s).1 (by rw [e]; simp)
    have hspre : s ∉ pre := by
      have := hndr
      rw [e, List.nodup_append] at this
      intro hs
      exact this.2.2 s hs s (by simp) rfl
    have hsn : s ∈ h.nodes := (hn s).2 ⟨hsn0, fun h => hspre h.1⟩
    by_cases hs : s ∈ xs
    · simp only [removeDownstreamLoop, hs, if_true]
      refine ih (pre ++ [s]) h (by rw [e]; simp) hwf ?_ hE
      intro y
      rw [hn]
      constructor
      · rintro ⟨h1, h2⟩
        refine ⟨h1, ?_⟩
        rintro ⟨h3, h4, h5⟩
        rcases List.mem_append.1 h3 with h3 | h3
        · exact h2 ⟨h3, h4, h5⟩
        · simp at h3; subst h3; exact h4 hs
      · rintro ⟨h1, h2⟩
        exact ⟨h1, fun h3 => h2 ⟨by simp [h3.1], h3.2⟩⟩
    · have hiff : (h.desL s).any (· ∈ xs) = true ↔ ∃ p ∈ xs, g0.E s p := by
        rw [List.any_eq_true]
        constructor
        · rintro ⟨a, haa, hax⟩
          rw [decide_eq_true_eq] at hax
          have htr := ((mem_desL hwf hsn a).1 haa).2
          clear haa
          induction htr with
          | single hab => exact ⟨_, hax, ((hE _ _).1 hab).1⟩
          | @tail c a hsc hca ih2 =>
            by_cases hc : c ∈ xs
            · exact ih2 hc
            · exfalso
              have hcn := ((hE _ _).1 hca).2.1
              have hsc0 : TransGen g0.E s c := TransGen.mono (fun a b hab => ((hE a b).1 hab).1) _ _ hsc
              have hcpre : c ∈ pre := hlater pre s od c e hsc0 ((hn c).1 hcn).1
              exact ((hn c).1 hcn).2 ⟨hcpre, hc, a, hax, ((hE _ _).1 hca).1⟩
        · rintro ⟨p, hp, hps⟩
          have hpn0 : p ∈ g0.nodes := hg0.right_mem hps
          have hpn : p ∈ h.nodes := (hn p).2 ⟨hpn0, fun h => h.2.1 hp⟩
          have hedge : h.E s p := (hE s p).2 ⟨hps, hsn, hpn⟩
          refine ⟨p, (mem_desL hwf hsn p).2 ⟨?_, .single hedge⟩, by simpa using hp⟩
          rintro rfl
          exact hs hp
      by_cases hany : (h.desL s).any (· ∈ xs) = true
      · obtain ⟨h1, hr, hn1, hE1⟩ := removeNode_ok (g := h) hsn
        have hstep : removeDownstreamLoop xs (s :: od) h = removeDownstreamLoop xs od h1 := by
          rw [removeDownstreamLoop, if_neg hs, descendants_ok hsn]
          simp only [bind, Except.bind]
          rw [if_pos hany, hr]
        rw [hstep]
        refine ih (pre ++ [s]) h1 (by rw [e]; simp) (hwf.removeNode hr) ?_ ?_
        · intro y
          rw [hn1, hn]
          constructor
          · rintro ⟨⟨h1, h2⟩, h3⟩
            refine ⟨h1, ?_⟩
            rintro ⟨h4, h5, h6⟩
            rcases List.mem_append.1 h4 with h4 | h4
            · exact h2 ⟨h4, h5, h6⟩
            · simp at h4; exact h3 h4
          · rintro ⟨h1, h2⟩
            refine ⟨⟨h1, fun h3 => h2 ⟨by simp [h3.1], h3.2⟩⟩, ?_⟩
            rintro rfl
            exact h2 ⟨by simp, hs, hiff.1 hany⟩
        · intro a b
          rw [hE1, hE, hn1, hn1]; tauto
      · have hstep : removeDownstreamLoop xs (s :: od) h = removeDownstreamLoop xs od h := by
          rw [removeDownstreamLoop, if_neg hs, descendants_ok hsn]
          simp only [bind, Except.bind]
          rw [if_neg hany]
        rw [hstep]
        refine ih (pre ++ [s]) h (by rw [e]; simp) hwf ?_ hE
        intro y
        rw [hn]
        constructor
        · rintro ⟨h1, h2⟩
          refine ⟨h1, ?_⟩
          rintro ⟨h4, h5, h6⟩
          rcases List.mem_append.1 h4 with h4 | h4
          · exact h2 ⟨h4, h5, h6⟩
          · simp at h4; subst h4; exact hany (hiff.2 h6)
        · rintro ⟨h1, h2⟩
          exact ⟨h1, fun h3 => h2 ⟨by simp [h3.1], h3.2⟩⟩

end Model.Digraph
