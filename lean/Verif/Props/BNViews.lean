import Verif.Props.BN

/-!
# Properties of networks: completion and cached views (C15), RVRoots and Exo (C16), randomness (C21)
-/

namespace Props.BN

set_option linter.unusedSectionVars false

open Py Spec Relation Model Model.Digraph Model.BN

variable {N V C O S L : Type} [DecidableEq N]

/-! ## C15 -/

/-- The operations of a history. -/
inductive Op (N V C O : Type)
  | define (l : Loci N V C O) (des : Option N)
  | complete
  | defrost

/-- One operation: the network afterwards and the outcome. -/
def Op.run (f : N) : Op N V C O → BN N V C O → BN N V C O × Result Unit
  | .define l des, bn => bn.appendLoci l des
  | .complete, bn => bn.complete f
  | .defrost, bn => (bn.defrost, .ok ())

/-- The network after a list of operations, whatever their outcomes. -/
def runOps (f : N) (ops : List (Op N V C O)) (bn : BN N V C O) : BN N V C O :=
  ops.foldl (fun b o => (o.run f b).1) bn

/-- What holds along every history: the invariant of the representation, correct caches when frozen and acyclic,
empty caches when not frozen. -/
def CacheInv (f : N) (bn : BN N V C O) : Prop :=
  bn.Rep ∧ (bn.frozen = true → Acyclic bn.dag.E →
    ∃ od, bn.dag.order = .ok od ∧ bn = bn.completed f od) ∧ (bn.frozen = false → bn.defrost = bn)

theorem rep_congr {a b : BN N V C O} (h : a.Rep) (h1 : b.dag = a.dag) (h2 : b.loci = a.loci) : b.Rep :=
  ⟨by rw [h1]; exact h.wf, by rw [h1, h2]; exact h.defined, by rw [h2]; exact h.named⟩

theorem defrost_of_other {a b : BN N V C O} (h : a.other = b.other) (hb : b.defrost = b) :
    a.defrost = a := by
  obtain ⟨a1, a2, a3, a4, a5, a6, a7, a8, a9, a10, a11, a12⟩ := a
  obtain ⟨b1, b2, b3, b4, b5, b6, b7, b8, b9, b10, b11, b12⟩ := b
  simp only [other, Prod.mk.injEq] at h
  obtain ⟨rfl, rfl, rfl, rfl, rfl, rfl, rfl, rfl, rfl⟩ := h
  simp only [BN.defrost, BN.mk.injEq] at hb ⊢
  tauto

theorem cacheInv_run (f : N) (o : Op N V C O) {bn : BN N V C O} (h : CacheInv f bn) :
    CacheInv f (o.run f bn).1 := by
  obtain ⟨hr, hc, hd⟩ := h
  cases o with
  | define l des =>
    by_cases hf : bn.frozen = true
    · show CacheInv f (bn.appendLoci l des).1
      rw [appendLoci_frozen hf]; exact ⟨hr, hc, hd⟩
    · obtain ⟨h1, h2⟩ := appendLoci_rep_other hr l des
      refine ⟨h1, fun h => ?_, fun _ => ?_⟩
      · exact absurd ((frozen_of_other h2).symm.trans h) hf
      · exact defrost_of_other h2 (hd (by simpa using hf))
  | complete =>
    show CacheInv f (bn.complete f).1
    by_cases ha : Acyclic bn.dag.E
    · obtain ⟨od, ho, -⟩ := order_ok_of_acyclic hr.wf ha
      rw [complete_ok hr ho]
      exact ⟨rep_congr hr rfl rfl, fun _ _ => ⟨od, ho, rfl⟩, fun h => by cases h⟩
    · have ho := order_error_of_cyclic hr.wf ha
      have : bn.complete f = ({ bn with frozen := true }, .error .NetworkXUnfeasible) := by
        simp only [BN.complete, ho]
      rw [this]
      exact ⟨rep_congr hr rfl rfl, fun _ h => absurd h ha, fun h => by cases h⟩
  | defrost => exact ⟨rep_congr hr rfl rfl, (fun h => by cases h), fun _ => rfl⟩

theorem cacheInv_runOps (f : N) : ∀ (ops : List (Op N V C O)) {bn : BN N V C O}, CacheInv f bn →
    CacheInv f (runOps f ops bn)
  | [], _, h => h
  | o :: ops, _, h => cacheInv_runOps f ops (cacheInv_run f o h)

theorem cacheInv_empty (f n : N) : CacheInv f (BN.empty n : BN N V C O) :=
  ⟨(well_empty n).toRep, (fun h => by cases h), fun _ => rfl⟩

/-- **C15**, read-only: on a completed network a definition raises AttributeError and changes nothing. -/
theorem C15_read_only (f : N) (bn : BN N V C O) (l : Loci N V C O) (des : Option N) :
    (bn.complete f).1.appendLoci l des = ((bn.complete f).1, .error .AttributeError) := by
  refine appendLoci_frozen ?_ l des
  simp only [BN.complete]
  repeat' split
  all_goals rfl

/-- Every view of the network is what would be recomputed from the graph. -/
def Faithful (f : N) (bn : BN N V C O) : Prop :=
  bn.order = bn.defrost.order ∧ bn.roots = bn.defrost.roots ∧ bn.rvRoots = bn.defrost.rvRoots ∧
  bn.leaves = bn.defrost.leaves ∧ bn.exo = bn.defrost.exo ∧ bn.toJson f = bn.defrost.toJson f

theorem faithful_completed {f : N} {bn : BN N V C O} (hr : bn.Rep) {od : List N}
    (ho : bn.dag.order = .ok od) : Faithful f (bn.completed f od) := by
  have hrd : (bn.completed f od).defrost.Rep := rep_congr hr rfl rfl
  have hdo : (bn.completed f od).defrost.dag.order = .ok od := ho
  refine ⟨?_, rfl, ?_, rfl, ?_, ?_⟩
  · exact hdo.symm
  · have h2 := findRvRoots_unfrozen hrd rfl hdo
    have h1 : (bn.completed f od).rvRoots = .ok (some (od.filter bn.rootRvB)) := rfl
    rw [h1]
    unfold BN.rvRoots served
    rw [h2]
    rfl
  · have h1 : (bn.completed f od).exo = .ok (some (bn.dag.nodes.filter bn.exoB)) := rfl
    rw [h1]
    unfold BN.exo served
    rw [findExo_ok hrd]
    rfl
  · have h1 : (bn.completed f od).toJson f = .ok (bn.jsonOf f od) := rfl
    rw [h1]
    show _ = (bn.completed f od).defrost.formJs f
    rw [formJs_unfrozen hrd rfl hdo f]
    rfl

theorem faithful_of_cacheInv {f : N} {bn : BN N V C O} (h : CacheInv f bn) (ha : Acyclic bn.dag.E) :
    Faithful f bn := by
  obtain ⟨hr, hc, hd⟩ := h
  by_cases hf : bn.frozen = true
  · obtain ⟨od, ho, he⟩ := hc hf ha
    rw [he]
    exact faithful_completed hr ho
  · have := hd (by simpa using hf)
    unfold Faithful
    rw [this]
    simp

/-- **C15**, views: after any history of definitions (accepted or not), `complete` and `defrost`, as long as the
graph is acyclic, every view, cached or not, is what would be recomputed from the graph, and `complete`
succeeds. -/
theorem C15_views (f n : N) (ops : List (Op N V C O))
    (ha : Acyclic (runOps f ops (BN.empty n)).dag.E) :
    Faithful f (runOps f ops (BN.empty n)) ∧ ((runOps f ops (BN.empty n)).complete f).2 = .ok () := by
  have h := cacheInv_runOps f ops (cacheInv_empty f n : CacheInv f (BN.empty n : BN N V C O))
  refine ⟨faithful_of_cacheInv h ha, ?_⟩
  obtain ⟨od, ho, -⟩ := order_ok_of_acyclic h.1.wf ha
  rw [complete_ok h.1 ho]

/-- **C15**, `defrost` undoes `complete` exactly, so the network is editable again. -/
theorem C15_defrost (f n : N) (ops : List (Op N V C O))
    (hf : (runOps f ops (BN.empty n)).frozen = false) :
    ((runOps f ops (BN.empty n)).complete f).1.defrost = runOps f ops (BN.empty n) := by
  obtain ⟨-, -, hd⟩ :=
    cacheInv_runOps f ops (cacheInv_empty f n : CacheInv f (BN.empty n : BN N V C O))
  have hd := hd hf
  generalize runOps f ops (BN.empty n) = bn at hd
  have hc : (bn.complete f).1.dag = bn.dag ∧ (bn.complete f).1.loci = bn.loci ∧
      (bn.complete f).1.des = bn.des ∧ (bn.complete f).1.name = bn.name ∧
      (bn.complete f).1.udf = bn.udf := by
    simp only [BN.complete]
    repeat' split
    all_goals exact ⟨rfl, rfl, rfl, rfl, rfl⟩
  obtain ⟨h1, h2, h3, h4, h5⟩ := hc
  rw [← hd]
  rw [hd]
  have h6 : (bn.complete f).1.defrost = bn.defrost := by
    unfold BN.defrost
    rw [h1, h2, h3, h4, h5]
  rw [h6, hd]

/-- A history with a completed, rejected, defrosted and re-completed network; its graph is acyclic. -/
def exOps : List (Op String Int Int Unit) :=
  [.define (.dist "x" xe ["u"]) none, .define (.func "y" xe ["x"]) (some "note"), .complete,
   .define (.value "z" 1) none, .defrost, .define (.value "u" 1) none, .complete]

example : (runOps "f" exOps (BN.empty "m")).order = .ok ["u", "x", "y"] ∧
    (runOps "f" exOps (BN.empty "m")).rvRoots = .ok (some ["x"]) ∧
    (runOps "f" exOps (BN.empty "m")).frozen = true ∧
    Acyclic (runOps "f" exOps (BN.empty "m")).dag.E := by
  refine ⟨by decide, by decide, by decide, ?_⟩
  have h := (cacheInv_runOps "f" exOps (cacheInv_empty "f" "m")).1
  exact (checkAcyclic_iff h.wf).1 (by decide)

/-! ## C16 -/

/-- **C16**, random roots: on every network with an acyclic graph and faithful views, `RVRoots` lists, in
topological order and without repetition, exactly the random variables that no random variable reaches; and every
random variable is listed or reached by a listed one. -/
theorem C16_rv_roots {f : N} {bn : BN N V C O} (hr : bn.Rep) (ha : Acyclic bn.dag.E)
    (hfa : Faithful f bn) :
    ∃ rr, bn.rvRoots = .ok (some rr) ∧ rr.Nodup ∧ RespectsPaths bn.dag.E rr ∧
      (∀ x, x ∈ rr ↔ bn.Rv x ∧ ∀ a, TransGen bn.dag.E a x → ¬ bn.Rv a) ∧
      (∀ x, bn.Rv x → x ∈ rr ∨ ∃ r ∈ rr, TransGen bn.dag.E r x) := by
  obtain ⟨od, ho, ht⟩ := order_ok_of_acyclic hr.wf ha
  have hrd : bn.defrost.Rep := rep_congr hr rfl rfl
  have h1 : bn.rvRoots = .ok (some (od.filter bn.rootRvB)) := by
    rw [hfa.2.2.1]
    unfold BN.rvRoots served
    rw [findRvRoots_unfrozen hrd rfl (show bn.defrost.dag.order = .ok od from ho)]
    rfl
  have hmemnode : ∀ x, bn.Rv x → x ∈ bn.dag.nodes := by
    rintro x ⟨l, hl, -⟩; exact (hr.defined x).1 ⟨l, hl⟩
  have hmem : ∀ x, x ∈ od.filter bn.rootRvB ↔ bn.Rv x ∧ ∀ a, TransGen bn.dag.E a x → ¬ bn.Rv a := by
    intro x
    rw [List.mem_filter, ht.complete]
    constructor
    · rintro ⟨hx, hb⟩
      simp only [rootRvB, Bool.and_eq_true, Bool.not_eq_true', List.any_eq_false] at hb
      refine ⟨(rvB_iff _ _).1 hb.1, fun a hax hrv => ?_⟩
      exact hb.2 a ((mem_ancL_acyclic hr.wf ha hx a).2 hax) ((rvB_iff _ _).2 hrv)
    · rintro ⟨hrv, hno⟩
      have hx := hmemnode x hrv
      refine ⟨hx, ?_⟩
      simp only [rootRvB, Bool.and_eq_true, Bool.not_eq_true', List.any_eq_false]
      refine ⟨(rvB_iff _ _).2 hrv, fun a ha' hb => ?_⟩
      exact hno a ((mem_ancL_acyclic hr.wf ha hx a).1 ha') ((rvB_iff _ _).1 hb)
  refine ⟨_, h1, ht.nodup.filter _, respectsPaths_filter (respectsPaths_of_order ht) _, hmem, ?_⟩
  -- strong induction along the order
  have key : ∀ (n : Nat) (pre suf : List N) (x : N), pre.length = n → od = pre ++ x :: suf → bn.Rv x →
      x ∈ od.filter bn.rootRvB ∨ ∃ r ∈ od.filter bn.rootRvB, TransGen bn.dag.E r x := by
    intro n
    induction n using Nat.strongRecOn with
    | ind n ih =>
      intro pre suf x hn hod hrv
      by_cases hall : ∀ a, TransGen bn.dag.E a x → ¬ bn.Rv a
      · exact Or.inl ((hmem x).2 ⟨hrv, hall⟩)
      · right
        push Not at hall
        obtain ⟨a, hax, hra⟩ := hall
        have hapre : a ∈ pre := parentsFirst_trans ht.parentsFirst hax _ _ hod
        obtain ⟨p1, p2, hp⟩ := List.append_of_mem hapre
        have hlen : p1.length < n := by rw [← hn, hp]; simp
        rcases ih p1.length hlen p1 (p2 ++ x :: suf) a rfl (by rw [hod, hp]; simp) hra with h | ⟨r, h, h'⟩
        · exact ⟨a, h, hax⟩
        · exact ⟨r, h, h'.trans hax⟩
  intro x hrv
  obtain ⟨p1, p2, hp⟩ := List.append_of_mem ((ht.complete x).2 (hmemnode x hrv))
  exact key p1.length p1 p2 x rfl hp hrv

/-- **C16**, exogenous nodes: `Exo` lists exactly the nodes with an exogenous definition, once each. -/
theorem C16_exo {f : N} {bn : BN N V C O} (hr : bn.Rep) (hfa : Faithful f bn) :
    ∃ ex, bn.exo = .ok (some ex) ∧ ex.Nodup ∧ ∀ x, x ∈ ex ↔ bn.loci.get? x = some (.exo x) := by
  have hrd : bn.defrost.Rep := rep_congr hr rfl rfl
  refine ⟨bn.dag.nodes.filter bn.exoB, ?_, hr.wf.nodup_nodes.filter _, ?_⟩
  · rw [hfa.2.2.2.2.1]
    unfold BN.exo served
    rw [findExo_ok hrd]
    rfl
  · intro x
    rw [List.mem_filter]
    constructor
    · rintro ⟨hx, hb⟩
      obtain ⟨l, hl⟩ := hr.exists_loci hx
      simp only [exoB, hl] at hb
      have hn := hr.named x l hl
      cases l <;> simp [Loci.isExo] at hb
      simp [Loci.name] at hn
      subst hn
      exact hl
    · intro h
      exact ⟨(hr.defined x).1 ⟨_, h⟩, by simp [exoB, h, Loci.isExo]⟩

/-- The hypotheses of C16 hold after every history with an acyclic graph. -/
theorem C16_hypotheses (f n : N) (ops : List (Op N V C O))
    (ha : Acyclic (runOps f ops (BN.empty n)).dag.E) :
    (runOps f ops (BN.empty n)).Rep ∧ Faithful f (runOps f ops (BN.empty n)) :=
  ⟨(cacheInv_runOps f ops (cacheInv_empty f n)).1, (C15_views f n ops ha).1⟩

/-! ## C21 -/

/-- **C21**, without `given`: `has_randomness(n)` is True exactly when `n` or an ancestor is a random variable. -/
theorem C21_no_given {bn : BN N V C O} (hr : bn.Rep) (ha : Acyclic bn.dag.E) {x : N}
    (hx : x ∈ bn.dag.nodes) :
    ∃ b, bn.hasRandomness x [] = .ok b ∧
      (b = true ↔ bn.Rv x ∨ ∃ a, TransGen bn.dag.E a x ∧ bn.Rv a) := by
  unfold hasRandomness
  rw [isRv_ok hr hx]
  cases hb : bn.rvB x with
  | true => exact ⟨true, rfl, by simp [(rvB_iff _ _).1 hb]⟩
  | false =>
    refine ⟨(bn.dag.ancL x).any bn.rvB, ?_, ?_⟩
    · show (do bn.anyRv (← bn.dag.ancestors x)) = _
      rw [ancestors_ok hx]
      exact anyRv_ok hr (fun a ha => ancL_sub hr.wf hx ha)
    · have hnx : ¬ bn.Rv x := fun h => by rw [(rvB_iff _ _).2 h] at hb; cases hb
      rw [List.any_eq_true]
      constructor
      · rintro ⟨a, h1, h2⟩
        exact Or.inr ⟨a, (mem_ancL_acyclic hr.wf ha hx a).1 h1, (rvB_iff _ _).1 h2⟩
      · rintro (h | ⟨a, h1, h2⟩)
        · exact absurd h hnx
        · exact ⟨a, (mem_ancL_acyclic hr.wf ha hx a).2 h1, (rvB_iff _ _).2 h2⟩

/-- What `has_randomness(n, given)` computes for a non-empty `given`. -/
theorem hasRandomness_given {bn : BN N V C O} (hr : bn.Rep) (ha : Acyclic bn.dag.E) {x : N}
    (hx : x ∈ bn.dag.nodes) {given : List N} (hg : given ≠ []) :
    ∃ b, bn.hasRandomness x given = .ok b ∧
      (b = true ↔ bn.Rv x ∨ ∃ a, TransGen bn.dag.E a x ∧ a ∉ given ∧ bn.Rv a ∧
        ∀ s ∈ given, TransGen bn.dag.E s x → ¬ TransGen bn.dag.E a s) := by
  unfold hasRandomness
  rw [isRv_ok hr hx]
  cases hb : bn.rvB x with
  | true => exact ⟨true, rfl, by simp [(rvB_iff _ _).1 hb]⟩
  | false =>
    obtain ⟨l, hl, -, -, hm⟩ := minimalRequirements_ok hr.wf ha hx given
    have hgi : given.isEmpty = false := by cases given <;> simp_all
    refine ⟨(l.filter (· ∉ given)).any bn.rvB, ?_, ?_⟩
    · show (if given.isEmpty = true then _ else (do bn.anyRv (← bn.requirementsGiven x given))) = _
      rw [hgi]
      simp only [requirementsGiven, hl, Bool.false_eq_true, if_false]
      refine anyRv_ok hr (fun a ha => ?_)
      exact mem_nodes_of_trans_left hr.wf ((hm a).1 (List.mem_filter.1 ha).1).1
    · have hnx : ¬ bn.Rv x := fun h => by rw [(rvB_iff _ _).2 h] at hb; cases hb
      rw [List.any_eq_true]
      constructor
      · rintro ⟨a, h1, h2⟩
        obtain ⟨h3, h4⟩ := List.mem_filter.1 h1
        obtain ⟨h5, h6⟩ := (hm a).1 h3
        exact Or.inr ⟨a, h5, by simpa using h4, (rvB_iff _ _).1 h2, h6⟩
      · rintro (h | ⟨a, h1, h2, h3, h4⟩)
        · exact absurd h hnx
        · exact ⟨a, List.mem_filter.2 ⟨(hm a).2 ⟨h1, h4⟩, by simpa using h2⟩, (rvB_iff _ _).2 h3⟩

/-- **C21**, with `given`, the part that holds: True is always justified by a random variable outside `given` that
reaches the node along a path avoiding `given`.
Missing: the converse (`C21_refuted_given`). -/
theorem C21_given_partial {bn : BN N V C O} (hr : bn.Rep) (ha : Acyclic bn.dag.E) {x : N}
    (hx : x ∈ bn.dag.nodes) {given : List N} (h : bn.hasRandomness x given = .ok true) :
    bn.Rv x ∨ ∃ a, a ∉ given ∧ bn.Rv a ∧ AvoidPath bn.dag.E (fun y => y ∈ given ∧ y ≠ x) a x := by
  by_cases hg : given = []
  · subst hg
    obtain ⟨b, h1, h2⟩ := C21_no_given hr ha hx
    rw [h] at h1
    cases h1
    rcases h2.1 rfl with h3 | ⟨a, h3, h4⟩
    · exact Or.inl h3
    · refine Or.inr ⟨a, by simp, h4, ?_⟩
      exact (transGen_cut_iff (E := bn.dag.E) (E' := bn.dag.E) (by simp)).1 h3
  · obtain ⟨b, h1, h2⟩ := hasRandomness_given hr ha hx hg
    rw [h] at h1
    cases h1
    rcases h2.1 rfl with h3 | ⟨a, h3, h4, h5, h6⟩
    · exact Or.inl h3
    · refine Or.inr ⟨a, h4, h5, ?_⟩
      have : ∀ c, TransGen bn.dag.E c x → (c = a ∨ TransGen bn.dag.E a c) →
          AvoidPath bn.dag.E (fun y => y ∈ given ∧ y ≠ x) c x := by
        intro c hc
        induction hc using TransGen.head_induction_on with
        | single hcx =>
          intro _
          exact .single hcx (by simp)
        | @head c d hcd hdx ih =>
          intro hac
          have had : TransGen bn.dag.E a d := by
            rcases hac with rfl | hac
            · exact .single hcd
            · exact hac.tail hcd
          exact .cons hcd (fun hh => h6 d hh.1 hdx had) (ih (Or.inr had))
      exact this a h3 (Or.inl rfl)

/-- `u ~ norm(0, 1)`, `s = u`, `n = s + u`. -/
def diamond : XBN := defineAll (.empty "m") [.dist "u" xe [], .func "s" xe ["u"], .func "n" xe ["s", "u"]]

example : diamond.Well ∧ diamond.hasRandomness "n" ["z"] = .ok true := by
  refine ⟨(built_inv ((((Built.empty "m").step (.dist "u" xe []) (by decide)).step
    (.func "s" xe ["u"]) (by decide)).step (.func "n" xe ["s", "u"]) (by decide))).1, by decide⟩

/-- **C21 is false** with `given`: in `diamond`, `u` reaches `n` directly, yet `has_randomness(n, [s])` is
False. -/
theorem C21_refuted_given : diamond.hasRandomness "n" ["s"] = .ok false ∧ diamond.Rv "u" ∧
    diamond.dag.E "u" "n" := by
  refine ⟨by decide, ⟨.dist "u" xe [], by decide, rfl⟩, ?_⟩
  show ("u", "n") ∈ _
  decide

/-- `r ~ norm(m, 1)` with `m` given. -/
def rvGiven : XBN := defineAll (.empty "m") [.value "m" 0, .dist "r" xe ["m"]]

/-- **C21 is false** for `is_deterministic`: a random variable whose parents are given counts as deterministic. -/
theorem C21_refuted_deterministic : rvGiven.isDeterministic "r" ["m"] = .ok true ∧
    rvGiven.hasRandomness "r" ["m"] = .ok true := by decide

/-- **C21** for `is_deterministic`, the part that holds: for nodes that are not random variables themselves.
Missing: random variables (`C21_refuted_deterministic`). -/
theorem C21_deterministic_partial {bn : BN N V C O} (hw : bn.Well) {x : N} (hx : x ∈ bn.dag.nodes)
    (hnr : ¬ bn.Rv x) {given : List N} (h : bn.isDeterministic x given = .ok true) :
    bn.hasRandomness x given = .ok false := by
  have hr := hw.toRep
  have hrv : bn.rvB x = false := by
    cases hb : bn.rvB x with
    | false => rfl
    | true => exact absurd ((rvB_iff _ _).1 hb) hnr
  obtain ⟨l, hl⟩ := hr.exists_loci hx
  obtain ⟨b, h1, h2⟩ : ∃ b, bn.hasRandomness x given = .ok b ∧
      (b = true → bn.Rv x ∨ ∃ a, TransGen bn.dag.E a x) := by
    by_cases hg : given = []
    · subst hg
      obtain ⟨b, h1, h2⟩ := C21_no_given hr hw.acyclic hx
      exact ⟨b, h1, fun h => (h2.1 h).imp id (fun ⟨a, h, _⟩ => ⟨a, h⟩)⟩
    · obtain ⟨b, h1, h2⟩ := hasRandomness_given hr hw.acyclic hx hg
      exact ⟨b, h1, fun h => (h2.1 h).imp id (fun ⟨a, h, _⟩ => ⟨a, h⟩)⟩
  by_cases hv : l.isValue = true
  · -- a constant has no parents
    cases b with
    | false => exact h1
    | true =>
      rcases h2 rfl with h3 | ⟨a, h3⟩
      · exact absurd h3 hnr
      · obtain ⟨c, -, hcx⟩ := TransGen.tail'_iff.1 h3
        obtain ⟨l', hl', hc⟩ := (hw.edges c x).1 hcx
        rw [hl] at hl'
        cases hl'
        cases l <;> simp [Loci.isValue] at hv
        simp [Loci.parents] at hc
  · have hv' : l.isValue = false := by simpa using hv
    unfold isDeterministic at h
    rw [get_ok hl] at h
    by_cases hgi : given.isEmpty = true
    · simp [hv', hgi, bind, Except.bind, pure, Except.pure] at h
    · have hgi' : given.isEmpty = false := by simpa using hgi
      obtain ⟨rq, hrq, -, -, hm⟩ := minimalRequirements_ok hr.wf hw.acyclic hx given
      simp only [hv', hgi', bind, Except.bind, pure, Except.pure, requirementsGiven, hrq,
        Bool.false_eq_true, if_false] at h
      unfold hasRandomness
      rw [isRv_ok hr hx, hrv]
      simp only [hgi', bind, Except.bind, pure, Except.pure, requirementsGiven, hrq,
        Bool.false_eq_true, if_false]
      have hsub : ∀ a ∈ rq.filter (· ∉ given), a ∈ bn.dag.nodes := fun a ha =>
        mem_nodes_of_trans_left hr.wf ((hm a).1 (List.mem_filter.1 ha).1).1
      rw [anyRv_ok hr hsub]
      congr 1
      generalize rq.filter (· ∉ given) = as at h hsub
      induction as with
      | nil => rfl
      | cons a as ih =>
        obtain ⟨la, hla⟩ := hr.exists_loci (hsub a (by simp))
        simp only [allValue, get_ok hla, bind, Except.bind, pure, Except.pure] at h
        by_cases hva : la.isValue = true
        · rw [if_pos hva] at h
          rw [List.any_cons, ih h (fun a ha => hsub a (by simp [ha]))]
          have : bn.rvB a = false := by
            unfold rvB; rw [hla]; cases la <;> simp_all [Loci.isValue, Loci.isDist]
          simp [this]
        · rw [if_neg hva] at h; cases h

example : (diamond.isDeterministic "s" ["u"] = .ok true) ∧ "s" ∈ diamond.dag.nodes ∧
    ¬ diamond.Rv "s" := by
  refine ⟨by decide, by decide, ?_⟩
  rw [← rvB_iff]
  decide

end Props.BN
