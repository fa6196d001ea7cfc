import Verif.Props.SimActor

/-!
# Properties of generating cores and of histories of hierarchies: C44, C48, C52
-/

namespace Props.SimCore

set_option linter.unusedSectionVars false

open Py Spec Relation Model Model.CoreTree Props.Sampling

variable {N V C O S K : Type} [DecidableEq N] [AddCommMonoid K]

/-! ## C44 -/

theorem evaluate_final (sem : Sem N V C O S (XR K)) (hcl : ∀ c, (sem.reparse c).names = []) {bn : BN N V C O} (hw : bn.Well)
    {given : List N} (hns : NoShadow bn given) {x : N} {l : Loci N V C O} (hl : bn.loci.get? x = some l)
    {ρ r : Dict N V} (hle : ∀ y w, ρ.get? y = some w → r.get? y = some w) (hx : x ∈ ρ.keys) (hp : ∀ p ∈ l.parents, p ∈ ρ.keys)
    (hk : ∀ k ∈ r.keys, k ∈ given ∨ k ∈ bn.dag.nodes) : l.evaluate sem ρ.get? = l.evaluate sem r.get? := by
  have hpar : ∀ p ∈ ρ.keys, ρ.get? p = r.get? p := by
    intro p h
    obtain ⟨v, hv⟩ := (Dict.mem_keys_iff_exists _ _).1 h
    rw [hv, hle p v hv]
  refine Loci.evaluate_congr sem hcl l ?_
  rintro n f ps rfl
  have hn : n = x := hw.named x _ hl
  subst hn
  refine ⟨hpar _ hx, fun y hy => ?_⟩
  rcases hns n n f ps hl y ((Expr.mem_names y f).1 hy) with h | ⟨h1, h2⟩
  · exact hpar y (hp y h)
  · have hr : y ∉ r.keys := fun h => (hk y h).elim h2 h1
    have hρ : y ∉ ρ.keys := by
      intro h
      obtain ⟨v, hv⟩ := (Dict.mem_keys_iff_exists _ _).1 h
      exact hr ((Dict.mem_keys_iff_exists _ _).2 ⟨v, hle y v hv⟩)
    rw [(Dict.get?_eq_none_iff _ _).2 hr, (Dict.get?_eq_none_iff _ _).2 hρ]

/-- The loop over `Fixed` only adds values of its nodes. -/
theorem fillFixed_frame (sem : Sem N V C O S (XR K)) (bn : BN N V C O) : ∀ (ds : List N) (vs : Dict N V) (p : XR K) (s : S)
    {r : Dict N V} {q : XR K} {s' : S}, Core.fillFixed sem bn ds vs p s = (.ok (r, q), s') →
    (∀ k v, vs.get? k = some v → r.get? k = some v) ∧ (∀ k ∈ r.keys, k ∈ vs.keys ∨ k ∈ ds) := by
  intro ds
  induction ds with
  | nil =>
    intro vs p s r q s' h
    simp only [Core.fillFixed, Prod.mk.injEq, Except.ok.injEq] at h
    obtain ⟨⟨rfl, -⟩, -⟩ := h
    exact ⟨fun _ _ h => h, fun _ h => .inl h⟩
  | cons d ds ih =>
    intro vs p s r q s' h
    simp only [Core.fillFixed] at h
    cases hg : bn.get d with
    | error e => rw [hg] at h; simp at h
    | ok l =>
      rw [hg] at h
      simp only at h
      by_cases hd : d ∈ vs.keys
      · rw [if_pos hd] at h
        cases ha : Core.addPrior sem l d vs p with
        | error e => rw [ha] at h; simp at h
        | ok p' =>
          rw [ha] at h
          obtain ⟨h1, h2⟩ := ih _ _ _ h
          exact ⟨h1, fun k hk => (h2 k hk).imp id (fun h => .tail _ h)⟩
      · rw [if_neg hd] at h
        rcases hre : l.render sem vs.get? s with ⟨e | v, s1⟩
        · rw [hre] at h
          by_cases hK : e = .KeyError
          · subst hK
            simp only at h
            obtain ⟨h1, h2⟩ := ih _ _ _ h
            exact ⟨h1, fun k hk => (h2 k hk).imp id (fun h => .tail _ h)⟩
          · cases e <;> simp at h hK
        · rw [hre] at h
          simp only at h
          cases ha : Core.addPrior sem l d (vs.set d v) p with
          | error e => rw [ha] at h; simp at h
          | ok p' =>
            rw [ha] at h
            obtain ⟨h1, h2⟩ := ih _ _ _ h
            refine ⟨fun k w hk => h1 k w ?_, fun k hk => ?_⟩
            · rw [Dict.get?_set_ne _ _ (fun hh : d = k => hd ((Dict.mem_keys_iff_exists _ _).2 ⟨w, hh ▸ hk⟩))]
              exact hk
            · rcases h2 k hk with h3 | h3
              · rcases (Dict.mem_keys_set _ _ _ _).1 h3 with h4 | h4
                · exact .inr (by simp [h4])
                · exact .inl h4
              · exact .inr (.tail _ h3)

/-- The sampling loop and the loop over `Fixed` in step. -/
theorem lockstep (sem : Sem N V C O S (XR K)) (hcl : ∀ c, (sem.reparse c).names = []) {bn : BN N V C O} (hw : bn.Well)
    {given : List N} (hns : NoShadow bn given) : ∀ (ds : List N) (vs : Dict N V) (p : XR K) (s : S), ds.Nodup →
    (∀ x ∈ ds, x ∈ bn.dag.nodes) →
    (∀ pre d suf, ds = pre ++ d :: suf → ∀ y, bn.dag.E y d → y ∈ vs.keys ∨ y ∈ pre) →
    (∀ k ∈ vs.keys, k ∈ given ∨ k ∈ bn.dag.nodes) → ∀ (r : Dict N V) (q : XR K) (s' : S),
    (Core.fillFixed sem bn ds vs p s = (.ok (r, q), s') ∧ ∀ x ∈ ds, x ∈ r.keys) ↔
      sampleLoop sem bn (fun _ => true) ds vs s = (.ok r, s') ∧
      (∀ x ∈ ds, (do (← bn.get x).evaluate sem r.get? : Result (XR K)) = .ok (term sem bn r x)) ∧
      q = p + (ds.map (term sem bn r)).sum := by
  intro ds
  induction ds with
  | nil =>
    intro vs p s _ _ _ _ r q s'
    simp [Core.fillFixed, sampleLoop, and_comm, eq_comm]
    tauto
  | cons d ds ih =>
    intro vs p s hnd hin hpar hk r q s'
    obtain ⟨hdds, hnd⟩ := List.nodup_cons.1 hnd
    have hin' : ∀ x ∈ ds, x ∈ bn.dag.nodes := fun x hx => hin x (.tail _ hx)
    obtain ⟨l, hl⟩ := (hw.defined d).2 (hin d (by simp))
    have hg : bn.get d = .ok l := BN.get_ok hl
    -- the rest, from a dictionary `vs'` which has `d`
    have rest : ∀ (vs' : Dict N V) (s1 : S), (∀ k, k ∈ vs'.keys ↔ k = d ∨ k ∈ vs.keys) →
        (((match Core.addPrior sem l d vs' p with | .error e => (.error e, s1) | .ok p' => Core.fillFixed sem bn ds vs' p' s1) = (.ok (r, q), s') ∧
          ∀ x ∈ d :: ds, x ∈ r.keys) ↔
        (sampleLoop sem bn (fun _ => true) ds vs' s1 = (.ok r, s') ∧
        (∀ x ∈ d :: ds, (do (← bn.get x).evaluate sem r.get? : Result (XR K)) = .ok (term sem bn r x)) ∧
        q = p + ((d :: ds).map (term sem bn r)).sum)) := by
      intro vs' s1 hvs
      have hdv : d ∈ vs'.keys := (hvs d).2 (.inl rfl)
      have hpd : ∀ y ∈ l.parents, y ∈ vs'.keys := by
        intro y hy
        rcases hpar [] d ds rfl y ((hw.edges y d).2 ⟨l, hl, hy⟩) with h | h
        · exact (hvs y).2 (.inr h)
        · cases h
      have hpar' : ∀ pre x suf, ds = pre ++ x :: suf → ∀ y, bn.dag.E y x → y ∈ vs'.keys ∨ y ∈ pre := by
        intro pre x suf e y hy
        rcases hpar (d :: pre) x suf (by rw [e]; rfl) y hy with h | h
        · exact .inl ((hvs y).2 (.inr h))
        · rcases List.mem_cons.1 h with rfl | h
          · exact .inl hdv
          · exact .inr h
      have hk' : ∀ k ∈ vs'.keys, k ∈ given ∨ k ∈ bn.dag.nodes := by
        intro k h
        rcases (hvs k).1 h with rfl | h
        · exact .inr (hin k (by simp))
        · exact hk k h
      have hbind : ∀ ρ : N → Option V, (do (← bn.get d).evaluate sem ρ : Result (XR K)) = l.evaluate sem ρ := by
        intro ρ; rw [hg]; rfl
      have fin : ∀ r : Dict N V, (∀ k v, vs'.get? k = some v → r.get? k = some v) → (∀ k ∈ r.keys, k ∈ vs'.keys ∨ k ∈ ds) →
          l.evaluate sem vs'.get? = l.evaluate sem r.get? := by
        intro r h1 h2
        refine evaluate_final sem hcl hw hns hl h1 hdv hpd (fun k h => ?_)
        rcases h2 k h with h | h
        · exact hk' k h
        · exact .inr (hin' k h)
      have hadd : Core.addPrior sem l d vs' p = (l.evaluate sem vs'.get?).map (fun e => p + e) := by
        unfold Core.addPrior
        rw [if_pos hdv]
        cases l.evaluate sem vs'.get? <;> rfl
      rw [hadd]
      constructor
      · rintro ⟨h, hall⟩
        cases he : l.evaluate sem vs'.get? with
        | error e => rw [he] at h; simp [Except.map] at h
        | ok e =>
          rw [he] at h
          simp only [Except.map] at h
          obtain ⟨f1, f2⟩ := fillFixed_frame sem bn ds vs' _ s1 h
          obtain ⟨h1, h2, h3⟩ := (ih vs' (p + e) s1 hnd hin' hpar' hk' r q s').1 ⟨h, fun x hx => hall x (.tail _ hx)⟩
          have hd : (do (← bn.get d).evaluate sem r.get? : Result (XR K)) = .ok e := by
            rw [hbind, ← fin r f1 f2, he]
          have ht : term sem bn r d = e := by unfold term; rw [hd]
          refine ⟨h1, fun x hx => ?_, ?_⟩
          · rcases List.mem_cons.1 hx with rfl | hx
            · rw [hd, ht]
            · exact h2 x hx
          · rw [h3, List.map_cons, List.sum_cons, ht, add_assoc]
      · rintro ⟨h1, h2, h3⟩
        obtain ⟨k1, k2, -, -⟩ := sampleLoop_ok sem bn _ ds h1
        have he : l.evaluate sem vs'.get? = .ok (term sem bn r d) := by
          rw [fin r k2 (fun k h => ((k1 k).1 h).imp id (·.1)), ← hbind]
          exact h2 d (by simp)
        rw [he]
        simp only [Except.map]
        obtain ⟨h4, h5⟩ := (ih vs' (p + term sem bn r d) s1 hnd hin' hpar' hk' r q s').2
          ⟨h1, fun x hx => h2 x (.tail _ hx), by rw [h3, List.map_cons, List.sum_cons, add_assoc]⟩
        refine ⟨h4, fun x hx => ?_⟩
        rcases List.mem_cons.1 hx with rfl | hx
        · exact (k1 x).2 (.inl hdv)
        · exact h5 x hx
    by_cases hd : d ∈ vs.keys
    · have := rest vs s (fun k => ⟨.inr, fun h => h.elim (fun h => h ▸ hd) id⟩)
      simp only [Core.fillFixed, sampleLoop, hg]
      rw [if_pos hd, if_neg (by simpa using hd)]
      exact this
    · simp only [Core.fillFixed, sampleLoop, hg]
      rw [if_neg hd, if_pos (by simpa using hd)]
      rcases hre : l.render sem vs.get? s with ⟨e | v, s1⟩
      · simp only
        constructor
        · rintro ⟨h, hall⟩
          by_cases hK : e = .KeyError
          · subst hK
            simp only at h
            obtain ⟨-, f2⟩ := fillFixed_frame sem bn ds vs _ s1 h
            rcases f2 d (hall d (by simp)) with h | h
            · exact absurd h hd
            · exact absurd h hdds
          · cases e <;> simp at h hK
        · rintro ⟨h, -⟩; cases h
      · simp only
        exact rest (vs.set d v) s1 (fun k => by rw [Dict.mem_keys_set])

/-- Generating from a fully fixed core, in terms of the loop. -/
theorem generate_all (sem : Sem N V C O S (XR K)) (noneV : V) {bn : BN N V C O} (hr : Ready bn) {root : N} {t : Tree (NSet N)}
    (ht : NSet.allFixed root bn = .ok t) (nick : N) (exo : Dict N V) (s : S) : ∃ (g : Model.Group N) (od : List N), bn.order = .ok od ∧
      TopologicalOrder (· ∈ bn.dag.nodes) bn.dag.E od ∧
      Core.generateRoot sem noneV (.new bn t) nick exo s =
        match Core.fillFixed sem bn od exo 0 s with
        | (.error e, s') => (.error e, s')
        | (.ok (vs, p), s') => (.ok { nick := nick, group := g, locus := (vs.filterItems (fun k _ => k ∈ od)).update exo, logProb := p }, s') := by
  obtain ⟨b, hb, hod, -, -, hexo⟩ := Props.NodeSet.C44_fixes hr root
  rw [ht] at hb
  cases hb
  obtain ⟨-, ⟨od, ho, hto⟩, -⟩ := hr.facts
  cases hod.symm.trans ho
  refine ⟨.ofSet b [], b.fixed, hod, hto, ?_⟩
  have hg : (SimCore.new bn (.node b [] : Tree (NSet N))).groups.get? (SimCore.new bn (.node b [] : Tree (NSet N))).root = some (.ofSet b []) := by
    simp [SimCore.new, simGroups, simGroupsL, Tree.label, Dict.set, Dict.get?]
  unfold Core.generateRoot
  rw [hg]
  simp only [Core.generate, Group.ofSet, hexo, Core.readExo, SimCore.new]
  rcases Core.fillFixed sem bn b.fixed exo 0 s with ⟨e | ⟨vs, p⟩, s'⟩ <;> rfl

theorem locus_all {od : List N} {vs exo : Dict N V} (he : exo.WF) (hle : ∀ k v, exo.get? k = some v → vs.get? k = some v)
    (hk : ∀ k ∈ vs.keys, k ∈ exo.keys ∨ k ∈ od) (x : N) :
    ((vs.filterItems (fun k _ => k ∈ od)).update exo).get? x = vs.get? x := by
  rw [Dict.get?_update _ _ he]
  cases hx : exo.get? x with
  | some v => simp [hle x v hx]
  | none =>
    simp only [Option.none_or]
    rw [Dict.get?_filterItems_key]
    by_cases h : x ∈ od
    · simp [h]
    · rw [if_neg (by simpa using h)]
      refine ((Dict.get?_eq_none_iff _ _).2 (fun hh => ?_)).symm
      rcases hk x hh with h1 | h1
      · exact (Dict.get?_eq_none_iff _ _).1 hx h1
      · exact h h1

/-- **C44**: for a fully fixed simulation core, generating succeeds with a value for every node exactly when sampling a
chromosome from the network with the same random stream does; both leave the same random state and have the same values,
and the log probabilities agree (up to the replacement of NaN by `-inf` which chromosomes have). -/
theorem C44 (sem : Sem N V C O S (XR K)) (hcl : ∀ c, (sem.reparse c).names = []) (noneV : V) {bn : BN N V C O} (hr : Ready bn)
    {root : N} {t : Tree (NSet N)} (ht : NSet.allFixed root bn = .ok t) (nick : N) {exo : Dict N V} (he : exo.WF)
    (hsup : ∀ x, Exogenous bn x → x ∈ exo.keys) (hns : NoShadow bn exo.keys) (s : S) :
    (∀ ch s', sampleChromosome sem bn exo s = (.ok ch, s') → ∃ c, Core.generateRoot sem noneV (.new bn t) nick exo s = (.ok c, s') ∧
      (∀ x, c.locus.get? x = ch.locus.get? x) ∧ ch.logProb = if c.logProb.isNan then .ninf else c.logProb) ∧
    (∀ c s', Core.generateRoot sem noneV (.new bn t) nick exo s = (.ok c, s') → (∀ x ∈ bn.dag.nodes, x ∈ c.locus.keys) →
      ∃ ch, sampleChromosome sem bn exo s = (.ok ch, s') ∧
      (∀ x, c.locus.get? x = ch.locus.get? x) ∧ ch.logProb = if c.logProb.isNan then .ninf else c.logProb) := by
  obtain ⟨g, od, hod, hto, hgen⟩ := generate_all sem noneV hr ht nick exo s
  have hw := hr.facts.1
  obtain ⟨od', -, hsam⟩ := sample_supplied sem hr hsup
  have hsam : sample sem bn exo s = sampleLoop sem bn (fun _ => true) od exo s := by
    obtain ⟨-, -, hex⟩ := hr.facts
    unfold sample
    rw [hex, hod]
    simp only
    rw [if_neg]
    rw [List.any_eq_true]
    rintro ⟨x, hx, hn⟩
    exact absurd (hsup x ((exoB_iff bn x).1 (List.mem_filter.1 hx).2)) (by simpa using hn)
  have key := lockstep sem hcl hw hns od exo 0 s hto.nodup (fun x hx => (hto.complete x).1 hx)
    (fun pre d suf e y hy => .inr (hto.parentsFirst pre d suf e y hy)) (fun k hk => .inl hk)
  have hsum : ∀ r : Dict N V, r.WF → (∀ x ∈ od, x ∈ r.keys) →
      ((r.keys.filter (· ∈ bn.dag.nodes)).map (term sem bn r)).sum = 0 + (od.map (term sem bn r)).sum := by
    intro r hrw hall
    rw [zero_add]
    refine (List.Perm.map _ ?_).sum_eq
    rw [List.perm_ext_iff_of_nodup (hrw.filter _) hto.nodup]
    intro x
    rw [List.mem_filter, hto.complete]
    constructor
    · rintro ⟨-, h⟩; simpa using h
    · intro h; exact ⟨hall x ((hto.complete x).2 h), by simpa using h⟩
  constructor
  · intro ch s' h
    obtain ⟨r, h1, h2, h3⟩ := (C27_chromosome sem bn exo s s' ch).1 h
    obtain ⟨k1, k2, k3, -⟩ := C23_keys sem hr h1
    obtain ⟨e1, e2⟩ := (evaluateNodes_iff sem bn r ch.logProb).1 h3
    have hall : ∀ x ∈ od, x ∈ r.keys := fun x hx => (k1 x).2 (.inr ((hto.complete x).1 hx))
    obtain ⟨f1, -⟩ := (key r _ s').2 ⟨hsam ▸ h1, fun x hx => e1 x (hall x hx) ((hto.complete x).1 hx), rfl⟩
    rw [f1] at hgen
    refine ⟨_, hgen, fun x => ?_, ?_⟩
    · rw [h2]
      exact locus_all he k2 (fun k hk => ((k1 k).1 hk).imp id (hto.complete k).2) x
    · rw [e2, hsum r (k3 he) hall]
      rfl
  · intro c s' h hall
    rw [hgen] at h
    rcases hf : Core.fillFixed sem bn od exo 0 s with ⟨e | ⟨r, q⟩, s1⟩
    · rw [hf] at h; simp at h
    · rw [hf] at h
      simp only [Prod.mk.injEq, Except.ok.injEq] at h
      obtain ⟨rfl, rfl⟩ := h
      obtain ⟨f1, f2⟩ := fillFixed_frame sem bn od exo 0 s hf
      have hloc := locus_all he f1 f2
      have hall' : ∀ x ∈ od, x ∈ r.keys := by
        intro x hx
        obtain ⟨v, hv⟩ := (Dict.mem_keys_iff_exists _ _).1 (hall x ((hto.complete x).1 hx))
        simp only at hv
        rw [hloc] at hv
        exact (Dict.mem_keys_iff_exists _ _).2 ⟨v, hv⟩
      obtain ⟨g1, g2, g3⟩ := (key r q s1).1 ⟨hf, hall'⟩
      have hrw := (sampleLoop_ok sem bn _ od g1).2.2.1 he
      refine ⟨⟨r, noNan q⟩, ?_, hloc, rfl⟩
      rw [C27_chromosome]
      refine ⟨r, hsam.trans g1, rfl, ?_⟩
      rw [evaluateNodes_iff]
      refine ⟨fun x _ hn => g2 x ((hto.complete x).2 hn), ?_⟩
      rw [hsum r hrw hall', ← g3]

/-! ## C48 -/

/-- Siblings have different nicknames, and belong to groups known to the simulation core and to their parent. -/
def Tidy (sc : SimCore N V C O) (_ : List (Dict N V)) (c : Core N V C O S K) (ts : List (CoreTree N V C O S K)) : Prop :=
  (ts.map (fun t => t.label.nick)).Nodup ∧
  ∀ u ∈ ts, ∃ g ∈ c.group.children, sc.groups.get? g = some u.label.group

theorem tidy_congr {sc : SimCore N V C O} {up up' : List (Dict N V)} {c c' : Core N V C O S K} {ts ts' : List (CoreTree N V C O S K)}
    (hc : c'.group = c.group)
    (h : ts'.map (fun t => (t.label.nick, t.label.group)) = ts.map (fun t => (t.label.nick, t.label.group)))
    (ht : Tidy sc up c ts) : Tidy sc up' c' ts' := by
  have h1 : ts'.map (fun t => t.label.nick) = ts.map (fun t => t.label.nick) := by
    have := congrArg (List.map Prod.fst) h
    simpa [List.map_map, Function.comp_def] using this
  have h2 : ts'.map (fun t => t.label.group) = ts.map (fun t => t.label.group) := by
    have := congrArg (List.map Prod.snd) h
    simpa [List.map_map, Function.comp_def] using this
  refine ⟨h1 ▸ ht.1, fun u hu => ?_⟩
  have : u.label.group ∈ ts.map (fun t => t.label.group) := h2 ▸ List.mem_map_of_mem hu
  obtain ⟨v, hv, e⟩ := List.mem_map.1 this
  obtain ⟨g, h3, h4⟩ := ht.2 v hv
  exact ⟨g, hc ▸ h3, by rw [h4, e]⟩

theorem tidy_along {sc : SimCore N V C O} {up up' : List (Dict N V)} {t t' : CoreTree N V C O S K} (ht : All (Tidy sc) up t)
    (h : Along sameFrame up up' t t') : All (Tidy sc) up' t' ∧ t'.label.nick = t.label.nick ∧ t'.label.group = t.label.group :=
  Along.all (I := fun _ _ => True) (P := Tidy sc) (P' := Tidy sc)
    (fun _ _ _ _ _ _ _ hp hr hk => ⟨tidy_congr hr.2.1 hk hp, trivial⟩) (fun _ _ _ _ h => ⟨h.1, h.2.1⟩) trivial ht h

/-- Changing only the actors of a core changes neither its place nor its children. -/
theorem along_actors {c c' : Core N V C O S K} {ts : List (CoreTree N V C O S K)} (up : List (Dict N V))
    (h : c'.nick = c.nick ∧ c'.group = c.group ∧ c'.logLike = c.logLike) : Along sameFrame up up (.node c ts) (.node c' ts) :=
  ⟨h, alongL_refl (fun _ _ _ => ⟨rfl, rfl, rfl⟩) ts _ _⟩

theorem along_localActors (sem : Sem N V C O S (XR K)) (bn : BN N V C O) (up : List (Dict N V)) (u : CoreTree N V C O S K) (s : S) :
    ∃ c', (localActors sem bn up u s).1 = .node c' u.kids ∧ c'.nick = u.label.nick ∧ c'.group = u.label.group ∧
      c'.logLike = u.label.logLike := by
  obtain ⟨c, ts⟩ := u
  simp only [localActors]
  split
  · exact ⟨c, rfl, rfl, rfl, rfl⟩
  · refine ⟨(c.putLocal sem bn up s).1, rfl, ?_⟩
    unfold Core.putLocal
    split
    · exact ⟨rfl, rfl, rfl⟩
    · split <;> exact ⟨rfl, rfl, rfl⟩

theorem along_sharedActors (sem : Sem N V C O S (XR K)) (bn : BN N V C O) (k : N) (up : List (Dict N V)) (u : CoreTree N V C O S K) (s : S) :
    ∃ c', (sharedActors sem bn k up u s).1 = .node c' u.kids ∧ c'.nick = u.label.nick ∧ c'.group = u.label.group ∧
      c'.logLike = u.label.logLike := by
  obtain ⟨c, ts⟩ := u
  simp only [sharedActors]
  split
  · exact ⟨c, rfl, rfl, rfl, rfl⟩
  · rename_i v _
    split
    · exact ⟨c, rfl, rfl, rfl, rfl⟩
    · refine ⟨(c.putShared sem bn v.label.group up s).1, rfl, ?_⟩
      unfold Core.putShared
      split
      · exact ⟨rfl, rfl, rfl⟩
      · split <;> exact ⟨rfl, rfl, rfl⟩

theorem generate_frame (sem : Sem N V C O S (XR K)) {noneV : V} {bn : BN N V C O} {g : Model.Group N} {nick : N} {up : List (Dict N V)}
    {exo : Dict N V} {s s' : S} {c : Core N V C O S K} (h : Core.generate sem noneV bn g nick up exo s = (.ok c, s')) :
    c.nick = nick ∧ c.group = g ∧ c.actors = none ∧ c.childActors = none ∧ c.logPrior = none ∧
      ∃ (vs : Dict N V × Dict N V) (p : XR K) (s1 : S), Core.readExo sem noneV bn up g.exogenous exo s = (.ok vs.1, s1) ∧
        Core.fillFixed sem bn g.fixed vs.1 0 s1 = (.ok (vs.2, p), s') ∧
        c.locus = (vs.2.filterItems (fun k _ => k ∈ g.fixed)).update exo ∧ c.logProb = p := by
  unfold Core.generate at h
  rcases h1 : Core.readExo sem noneV bn up g.exogenous exo s with ⟨_ | vs, s1⟩
  · rw [h1] at h; simp at h
  · rw [h1] at h
    simp only at h
    rcases h2 : Core.fillFixed sem bn g.fixed vs 0 s1 with ⟨_ | ⟨vs2, p⟩, s2⟩
    · rw [h2] at h; simp at h
    · rw [h2] at h
      simp only [Prod.mk.injEq, Except.ok.injEq] at h
      obtain ⟨rfl, rfl⟩ := h
      exact ⟨rfl, rfl, rfl, rfl, rfl, (vs, vs2), p, s1, rfl, h2, rfl, rfl⟩

theorem tidy_step (sem : Sem N V C O S (XR K)) (noneV : V) (sc : SimCore N V C O) {t : CoreTree N V C O S K} (s : S) (op : Op N V)
    (ht : All (Tidy sc) [] t) : All (Tidy sc) [] (step sem noneV sc t s op).1 := by
  have hR : ∀ up c ts ts', ts'.map (fun t => (t.label.nick, t.label.group)) = ts.map (fun t => (t.label.nick, t.label.group)) →
      Tidy (S := S) (K := K) sc up c ts → Tidy sc up c ts' := fun _ _ _ _ h ht => tidy_congr rfl h ht
  -- operations on one core that keep names and groups below it
  have frame : ∀ {α : Type} (f : List (Dict N V) → CoreTree N V C O S K → CoreTree N V C O S K × α) (p : List N) {t' : CoreTree N V C O S K} {a : α},
      (∀ up u, Along sameFrame up up u (f up u).1) → onPath f p [] t = some (t', a) → All (Tidy sc) [] t' := by
    intro α f p t' a hf hp
    exact (onPath_all hR (fun _ => True) p [] t (fun up u _ _ hu => tidy_along hu (hf up u)) ht hp trivial).1
  cases op with
  | breed p nick g exo =>
    simp only [step]
    cases hp : onPath (fun up u => breed sem noneV sc up u nick g exo s) p [] t with
    | none => exact ht
    | some r =>
      refine (onPath_all hR (fun _ => True) p [] t (fun up u _ _ hu => ?_) ht hp trivial).1
      obtain ⟨c, ts⟩ := u
      simp only [breed]
      split
      · exact ⟨hu, rfl, rfl⟩
      · rename_i hnick
        split
        · exact ⟨hu, rfl, rfl⟩
        · rename_i hgc
          cases hgr : sc.groups.get? g with
          | none => exact ⟨hu, rfl, rfl⟩
          | some gr =>
            simp only
            rcases hge : Core.generate (K := K) sem noneV sc.bn gr nick (c.locus :: up) exo s with ⟨_ | chd, s2⟩
            · exact ⟨hu, rfl, rfl⟩
            · obtain ⟨e1, e2, -⟩ := generate_frame sem hge
              refine ⟨⟨⟨?_, fun u hu' => ?_⟩, allL_iff.2 fun x hx => ?_⟩, rfl, rfl⟩
              · rw [List.map_append, List.nodup_append]
                refine ⟨hu.1.1, by simp, ?_⟩
                rintro x hx y hy rfl
                simp only [List.map_cons, List.map_nil, List.mem_singleton, Tree.label] at hy
                exact hnick (by rw [← e1, ← hy]; exact hx)
              · rcases List.mem_append.1 hu' with h | h
                · exact hu.1.2 u h
                · rw [List.mem_singleton] at h
                  subst h
                  exact ⟨g, by simpa using hgc, by rw [hgr]; simp [Tree.label, e2]⟩
              · rcases List.mem_append.1 hx with hx | hx
                · exact allL_iff.1 hu.2 x hx
                · rw [List.mem_singleton] at hx
                  subst hx
                  exact ⟨⟨by simp, by simp⟩, trivial⟩
  | remove p nick =>
    simp only [step]
    cases hp : onPath (fun _ u => (removeChild u nick, ())) p [] t with
    | none => exact ht
    | some r =>
      obtain ⟨t1, ⟨⟩⟩ := r
      refine (onPath_all hR (fun _ => True) p [] t (fun up u _ _ hu => ?_) ht hp trivial).1
      obtain ⟨c, ts⟩ := u
      refine ⟨⟨⟨?_, fun u h => hu.1.2 u (List.mem_filter.1 h).1⟩, allL_iff.2 fun x hx => ?_⟩, rfl, rfl⟩
      · exact hu.1.1.sublist (List.filter_sublist.map _)
      · exact allL_iff.1 hu.2 x (List.mem_filter.1 hx).1
  | impulse p i =>
    simp only [step]
    cases hp : onPath (fun up u => impulse sem sc.bn up u i s) p [] t with
    | none => exact ht
    | some r =>
      refine frame _ p (fun up u => ?_) hp
      unfold impulse
      cases shocks sc.bn i with
      | error e => exact along_refl (fun _ _ _ => ⟨rfl, rfl, rfl⟩) _ _ _
      | ok r => exact setResponse_frame sem sc.bn r.1 r.2 u up up up s
  | localActors p =>
    simp only [step]
    cases hp : onPath (fun up u => localActors sem sc.bn up u s) p [] t with
    | none => exact ht
    | some r =>
      refine frame _ p (fun up u => ?_) hp
      obtain ⟨c', e, h⟩ := along_localActors sem sc.bn up u s
      rw [e]
      obtain ⟨c, ts⟩ := u
      exact along_actors up h
  | sharedActors p nick =>
    simp only [step]
    cases hp : onPath (fun up u => sharedActors sem sc.bn nick up u s) p [] t with
    | none => exact ht
    | some r =>
      refine frame _ p (fun up u => ?_) hp
      obtain ⟨c', e, h⟩ := along_sharedActors sem sc.bn nick up u s
      rw [e]
      obtain ⟨c, ts⟩ := u
      exact along_actors up h
  | localSampler p k =>
    simp only [step]
    cases hp : onPath (fun up u => localSampler sem sc.bn k up u s) p [] t with
    | none => exact ht
    | some r =>
      refine frame _ p (fun up u => ?_) hp
      obtain ⟨c', e, h⟩ := along_localActors sem sc.bn up u s
      obtain ⟨c, ts⟩ := u
      unfold localSampler
      rcases hl : localActors sem sc.bn up (.node c ts) s with ⟨⟨c1, ts1⟩, s2, _ | _⟩
      · rw [hl] at e
        cases e
        exact along_actors up h
      · rw [hl] at e
        cases e
        exact along_actors up h
  | sharedSampler p nick k =>
    simp only [step]
    cases hp : onPath (fun up u => sharedSampler sem sc.bn nick k up u s) p [] t with
    | none => exact ht
    | some r =>
      refine frame _ p (fun up u => ?_) hp
      obtain ⟨c', e, h⟩ := along_sharedActors sem sc.bn nick up u s
      obtain ⟨c, ts⟩ := u
      unfold sharedSampler
      rcases hl : sharedActors sem sc.bn nick up (.node c ts) s with ⟨⟨c1, ts1⟩, s2, _ | _⟩
      · rw [hl] at e
        cases e
        exact along_actors up h
      · rw [hl] at e
        cases e
        simp only
        split <;> exact along_actors up h

/-- **C48**, the invariant: along every history of operations on a hierarchy that starts with a single core, siblings have
different nicknames and belong to groups known to the simulation core and listed by the group of their parent. -/
theorem C48_tidy (sem : Sem N V C O S (XR K)) (noneV : V) (sc : SimCore N V C O) (ops : List (Op N V)) (c : Core N V C O S K) (s : S) :
    All (Tidy sc) [] (run sem noneV sc ops (.node c []) s).1 := by
  have : ∀ (ops : List (Op N V)) (t : CoreTree N V C O S K) (s : S), All (Tidy sc) [] t → All (Tidy sc) [] (run sem noneV sc ops t s).1 := by
    intro ops
    induction ops with
    | nil => intro t s h; exact h
    | cons o os ih => intro t s h; exact ih _ _ (tidy_step sem noneV sc s o h)
  exact this ops _ s ⟨⟨by simp, by simp⟩, trivial⟩

theorem onChild_same {α : Type} {k : N} (a : α) : ∀ {ts : List (CoreTree N V C O S K)} {u : CoreTree N V C O S K}, child k ts = some u →
    onChild k (fun _ => (u, a)) ts = some (ts, a)
  | [], _, h => by cases h
  | t :: ts, u, h => by
    unfold child at h
    unfold onChild
    split at h
    · rename_i hk
      cases h
      rw [if_pos hk]
    · rename_i hk
      rw [if_neg hk, onChild_same a h]

theorem onPath_same {α : Type} (f : List (Dict N V) → CoreTree N V C O S K → CoreTree N V C O S K × α) (a : α) :
    ∀ (p : List N) (up : List (Dict N V)) {t u : CoreTree N V C O S K}, walk t p = .ok u → (∀ up, f up u = (u, a)) → onPath f p up t = some (t, a)
  | [], up, t, u, h, hf => by
    cases h
    simp only [onPath, hf]
  | k :: ks, up, .node c ts, u, h, hf => by
    simp only [walk, Tree.kids] at h
    simp only [onPath]
    cases hc : child k ts with
    | none => rw [hc] at h; cases h
    | some v =>
      rw [hc] at h
      simp only
      rw [onPath_same f a ks _ h hf]
      simp only
      rw [onChild_same a hc]

/-- **C48**, refusals: breeding under a nickname that is in use raises ValueError, for a group the parent's group does not
list KeyError; neither changes anything. -/
theorem C48_refused (sem : Sem N V C O S (XR K)) (noneV : V) (sc : SimCore N V C O) {t u : CoreTree N V C O S K} {p : List N}
    (h : walk t p = .ok u) (nick group : N) (exo : Dict N V) (s : S) :
    ((∃ v ∈ u.kids, v.label.nick = nick) → step sem noneV sc t s (.breed p nick group exo) = (t, s, .error .ValueError)) ∧
    ((∀ v ∈ u.kids, v.label.nick ≠ nick) → group ∉ u.label.group.children →
      step sem noneV sc t s (.breed p nick group exo) = (t, s, .error .KeyError)) := by
  obtain ⟨c, ts⟩ := u
  constructor
  · rintro ⟨v, hv, rfl⟩
    have hf : ∀ up, breed sem noneV sc up (.node c ts) v.label.nick group exo s = (.node c ts, s, .error .ValueError) := by
      intro up
      simp only [breed]
      rw [if_pos (List.mem_map.2 ⟨v, show v ∈ ts from hv, rfl⟩)]
    simp only [step]
    rw [onPath_same _ (s, .error .ValueError) p [] h hf]
  · intro hn hg
    have hf : ∀ up, breed sem noneV sc up (.node c ts) nick group exo s = (.node c ts, s, .error .KeyError) := by
      intro up
      simp only [breed]
      rw [if_neg (by rintro hh; obtain ⟨v, hv, e⟩ := List.mem_map.1 hh; exact hn v hv e), if_pos (show group ∉ c.group.children from hg)]
    simp only [step]
    rw [onPath_same _ (s, .error .KeyError) p [] h hf]

/-- `u` is reached from `t` by going down to the children with these nicknames. -/
inductive Reached : CoreTree N V C O S K → List N → CoreTree N V C O S K → Prop
  | here (t) : Reached t [] t
  | down {t u v : CoreTree N V C O S K} {p : List N} : u ∈ t.kids → Reached u p v → Reached t (u.label.nick :: p) v

theorem reached_iff {sc : SimCore N V C O} : ∀ (p : List N) {t u : CoreTree N V C O S K} {up : List (Dict N V)}, All (Tidy sc) up t →
    (walk t p = .ok u ↔ Reached t p u)
  | [], t, u, up, _ => by
    simp only [walk, Except.ok.injEq]
    constructor
    · rintro rfl; exact .here t
    · intro h; cases h; rfl
  | k :: ks, .node c ts, u, up, h => by
    simp only [walk, Tree.kids]
    constructor
    · intro hw
      cases hc : child k ts with
      | none => rw [hc] at hw; cases hw
      | some v =>
        rw [hc] at hw
        obtain ⟨h1, rfl⟩ := child_some hc
        exact .down (t := .node c ts) h1 ((reached_iff ks (allL_iff.1 h.2 v h1)).1 hw)
    · intro hr
      cases hr with
      | @down _ v _ _ hv hr =>
        rw [(child_unique h.1.1).2 ⟨hv, rfl⟩]
        exact (reached_iff ks (allL_iff.1 h.2 v hv)).2 hr

theorem walk_error : ∀ (p : List N) {t : CoreTree N V C O S K} {e : Err}, walk t p = .error e → e = .KeyError
  | [], t, e, h => by cases h
  | k :: ks, t, e, h => by
    simp only [walk] at h
    cases hc : child k t.kids with
    | none => rw [hc] at h; cases h; rfl
    | some v => rw [hc] at h; exact walk_error ks h

theorem splitOn_join {α : Type} [DecidableEq α] (sep : α) : ∀ (w : List α) (acc : List α) (ws : List (List α)), sep ∉ w →
    (∀ v ∈ ws, sep ∉ v) → splitOn sep acc ([sep].intercalate (w :: ws)) = (acc.reverse ++ w) :: ws
  | [], acc, [], _, _ => by simp [splitOn, List.intercalate]
  | [], acc, w' :: ws, _, h2 => by
    have := splitOn_join sep w' [] ws (h2 w' (by simp)) (fun v hv => h2 v (by simp [hv]))
    have e : [sep].intercalate ([] :: w' :: ws) = sep :: [sep].intercalate (w' :: ws) := by
      simp [List.intercalate, List.intersperse_cons_cons]
    rw [e]
    simp only [splitOn, if_true, List.append_nil]
    rw [this]
    simp
  | x :: w, acc, ws, h1, h2 => by
    simp only [List.mem_cons, not_or] at h1
    have e : [sep].intercalate ((x :: w) :: ws) = x :: [sep].intercalate (w :: ws) := by
      cases ws <;> simp [List.intercalate, List.intersperse_cons_cons]
    rw [e]
    simp only [splitOn]
    rw [if_neg (Ne.symm h1.1), splitOn_join sep w (x :: acc) ws h1.2 h2]
    simp

/-- **C48**, addresses: joining the nicknames on the way to a descendant by `@` gives an address at which exactly that
descendant is found; if there is none, KeyError.  The nicknames must not contain `@` (see `C48_at`). -/
theorem C48_find {sc : SimCore N V C O} {up : List (Dict N V)} {t : CoreTree N V C O S K} (ht : All (Tidy sc) up t) (name : List Char → N)
    (w : List Char) (ws : List (List Char)) (hw : ∀ v ∈ w :: ws, '@' ∉ v) :
    (∀ u, findDescendant name t (['@'].intercalate (w :: ws)) = .ok u ↔ Reached t ((w :: ws).map name) u) ∧
    ((¬ ∃ u, Reached t ((w :: ws).map name) u) → findDescendant name t (['@'].intercalate (w :: ws)) = .error .KeyError) := by
  have e : findDescendant name t (['@'].intercalate (w :: ws)) = walk t ((w :: ws).map name) := by
    unfold findDescendant
    rw [splitOn_join '@' w [] ws (hw w (by simp)) (fun v hv => hw v (by simp [hv]))]
    rfl
  rw [e]
  refine ⟨fun u => reached_iff _ ht, fun hn => ?_⟩
  cases hw : walk t ((w :: ws).map name) with
  | ok u => exact absurd ⟨u, (reached_iff _ ht).1 hw⟩ hn
  | error e => rw [walk_error _ hw]

/-- The condition on `@` is needed: a child with nickname `a@b` is not found at the address `a@b`. -/
theorem C48_at : ∃ t : CoreTree (List Char) Toy.TV Toy.TC Unit Int Int, t.kids.map (fun u => u.label.nick) = ["a@b".toList] ∧
    findDescendant id t "a@b".toList = .error .KeyError :=
  let c : List Char → Core (List Char) Toy.TV Toy.TC Unit Int Int := fun n => ⟨n, ⟨[], [], [], [], [], [], [], []⟩, [], .nan, none, none, none, none⟩
  ⟨.node (c []) [.node (c "a@b".toList) []], by decide +kernel, rfl⟩

/-! ## C52 -/

theorem generate_like (sem : Sem N V C O S (XR K)) {noneV : V} {bn : BN N V C O} {g : Model.Group N} {nick : N} {up : List (Dict N V)}
    {exo : Dict N V} {s s' : S} {c : Core N V C O S K} (h : Core.generate sem noneV bn g nick up exo s = (.ok c, s')) : c.logLike = none := by
  unfold Core.generate at h
  rcases h1 : Core.readExo sem noneV bn up g.exogenous exo s with ⟨_ | vs, s1⟩
  · rw [h1] at h; simp at h
  · rw [h1] at h
    simp only at h
    rcases h2 : Core.fillFixed sem bn g.fixed vs 0 s1 with ⟨_ | ⟨vs2, p⟩, s2⟩
    · rw [h2] at h; simp at h
    · rw [h2] at h
      simp only [Prod.mk.injEq, Except.ok.injEq] at h
      obtain ⟨rfl, rfl⟩ := h
      rfl

/-- No `LogLikelihood`. -/
def Unjudged (_ : List (Dict N V)) (c : Core N V C O S K) (_ : List (CoreTree N V C O S K)) : Prop := c.logLike = none

theorem unjudged_along {up up' : List (Dict N V)} {t t' : CoreTree N V C O S K} (ht : All Unjudged up t)
    (h : Along sameFrame up up' t t') : All Unjudged up' t' ∧ t'.label.nick = t.label.nick ∧ t'.label.group = t.label.group :=
  Along.all (I := fun _ _ => True) (P := Unjudged) (P' := Unjudged)
    (fun _ _ _ _ _ _ _ hp hr _ => ⟨hr.2.2.trans hp, trivial⟩) (fun _ _ _ _ h => ⟨h.1, h.2.1⟩) trivial ht h

theorem unjudged_step (sem : Sem N V C O S (XR K)) (noneV : V) (sc : SimCore N V C O) {t : CoreTree N V C O S K} (s : S) (op : Op N V)
    (ht : All Unjudged [] t) : All Unjudged [] (step sem noneV sc t s op).1 := by
  have hR : ∀ up c ts ts', ts'.map (fun t => (t.label.nick, t.label.group)) = ts.map (fun t => (t.label.nick, t.label.group)) →
      Unjudged (S := S) (K := K) (C := C) (O := O) (N := N) (V := V) up c ts → Unjudged up c ts' := fun _ _ _ _ _ ht => ht
  have frame : ∀ {α : Type} (f : List (Dict N V) → CoreTree N V C O S K → CoreTree N V C O S K × α) (p : List N) {t' : CoreTree N V C O S K} {a : α},
      (∀ up u, Along sameFrame up up u (f up u).1) → onPath f p [] t = some (t', a) → All Unjudged [] t' := by
    intro α f p t' a hf hp
    exact (onPath_all hR (fun _ => True) p [] t (fun up u _ _ hu => unjudged_along hu (hf up u)) ht hp trivial).1
  cases op with
  | breed p nick g exo =>
    simp only [step]
    cases hp : onPath (fun up u => breed sem noneV sc up u nick g exo s) p [] t with
    | none => exact ht
    | some r =>
      refine (onPath_all hR (fun _ => True) p [] t (fun up u _ _ hu => ?_) ht hp trivial).1
      obtain ⟨c, ts⟩ := u
      simp only [breed]
      split
      · exact ⟨hu, rfl, rfl⟩
      · split
        · exact ⟨hu, rfl, rfl⟩
        · cases hgr : sc.groups.get? g with
          | none => exact ⟨hu, rfl, rfl⟩
          | some gr =>
            simp only
            rcases hge : Core.generate (K := K) sem noneV sc.bn gr nick (c.locus :: up) exo s with ⟨_ | chd, s2⟩
            · exact ⟨hu, rfl, rfl⟩
            · refine ⟨⟨hu.1, allL_iff.2 fun x hx => ?_⟩, rfl, rfl⟩
              rcases List.mem_append.1 hx with hx | hx
              · exact allL_iff.1 hu.2 x hx
              · rw [List.mem_singleton] at hx
                subst hx
                exact ⟨generate_like sem hge, trivial⟩
  | remove p nick =>
    simp only [step]
    cases hp : onPath (fun _ u => (removeChild u nick, ())) p [] t with
    | none => exact ht
    | some r =>
      obtain ⟨t1, ⟨⟩⟩ := r
      refine (onPath_all hR (fun _ => True) p [] t (fun up u _ _ hu => ?_) ht hp trivial).1
      obtain ⟨c, ts⟩ := u
      exact ⟨⟨hu.1, allL_iff.2 fun x hx => allL_iff.1 hu.2 x (List.mem_filter.1 hx).1⟩, rfl, rfl⟩
  | impulse p i =>
    simp only [step]
    cases hp : onPath (fun up u => impulse sem sc.bn up u i s) p [] t with
    | none => exact ht
    | some r =>
      refine frame _ p (fun up u => ?_) hp
      unfold impulse
      cases shocks sc.bn i with
      | error e => exact along_refl (fun _ _ _ => ⟨rfl, rfl, rfl⟩) _ _ _
      | ok r => exact setResponse_frame sem sc.bn r.1 r.2 u up up up s
  | localActors p =>
    simp only [step]
    cases hp : onPath (fun up u => localActors sem sc.bn up u s) p [] t with
    | none => exact ht
    | some r =>
      refine frame _ p (fun up u => ?_) hp
      obtain ⟨c', e, h⟩ := along_localActors sem sc.bn up u s
      rw [e]
      obtain ⟨c, ts⟩ := u
      exact along_actors up h
  | sharedActors p nick =>
    simp only [step]
    cases hp : onPath (fun up u => sharedActors sem sc.bn nick up u s) p [] t with
    | none => exact ht
    | some r =>
      refine frame _ p (fun up u => ?_) hp
      obtain ⟨c', e, h⟩ := along_sharedActors sem sc.bn nick up u s
      rw [e]
      obtain ⟨c, ts⟩ := u
      exact along_actors up h
  | localSampler p k =>
    simp only [step]
    cases hp : onPath (fun up u => localSampler sem sc.bn k up u s) p [] t with
    | none => exact ht
    | some r =>
      refine frame _ p (fun up u => ?_) hp
      obtain ⟨c', e, h⟩ := along_localActors sem sc.bn up u s
      obtain ⟨c, ts⟩ := u
      unfold localSampler
      rcases hl : localActors sem sc.bn up (.node c ts) s with ⟨⟨c1, ts1⟩, s2, _ | _⟩
      · rw [hl] at e
        cases e
        exact along_actors up h
      · rw [hl] at e
        cases e
        exact along_actors up h
  | sharedSampler p nick k =>
    simp only [step]
    cases hp : onPath (fun up u => sharedSampler sem sc.bn nick k up u s) p [] t with
    | none => exact ht
    | some r =>
      refine frame _ p (fun up u => ?_) hp
      obtain ⟨c', e, h⟩ := along_sharedActors sem sc.bn nick up u s
      obtain ⟨c, ts⟩ := u
      unfold sharedSampler
      rcases hl : sharedActors sem sc.bn nick up (.node c ts) s with ⟨⟨c1, ts1⟩, s2, _ | _⟩
      · rw [hl] at e
        cases e
        exact along_actors up h
      · rw [hl] at e
        cases e
        simp only
        split <;> exact along_actors up h

/-- **C52 is false of the code**: no core that was never given a `LogLikelihood` from outside can be cloned (AttributeError
whenever the copy could be generated), no core can be duplicated, and detaching with collection always raises. -/
theorem C52_refuted (sem : Sem N V C O S (XR K)) (noneV : V) (sc : SimCore N V C O) (t : CoreTree N V C O S K) (s : S) :
    (t.label.logLike = none → ∀ b1 b2 b3, ∃ e, (clone sem noneV sc b1 b2 b3 t s).1 = .error e ∧
      ((∃ g d s', (if b1 then sc.groups.get? t.label.group.name else some t.label.group) = some g ∧
        Core.generate (K := K) sem noneV sc.bn g t.label.nick [] t.label.locus s = (.ok d, s')) → e = .AttributeError)) ∧
    (∀ b nick, duplicate b t nick = .error .AttributeError) ∧
    (∀ up k, ∃ e, (detach up t k true).2.2 = .error e) := by
  refine ⟨fun hl b1 b2 b3 => ?_, fun _ _ => rfl, fun up k => ?_⟩
  · unfold clone
    cases b3 with
    | true => exact ⟨.AttributeError, rfl, fun _ => rfl⟩
    | false =>
      simp only [Bool.false_eq_true, if_false]
      cases hb : (if b1 then sc.groups.get? t.label.group.name else some t.label.group) with
      | none => exact ⟨.KeyError, rfl, by rintro ⟨g, d, s', h, -⟩; cases h⟩
      | some g =>
        rcases hg : Core.generate (K := K) sem noneV sc.bn g t.label.nick [] t.label.locus s with ⟨e | c, s'⟩
        · refine ⟨e, by simp only [hg], ?_⟩
          rintro ⟨g', d, s'', h, h'⟩
          cases h
          rw [hg] at h'
          cases h'
        · exact ⟨.AttributeError, by simp only [hg, hl], fun _ => rfl⟩
  · unfold detach
    cases child k t.kids with
    | none => exact ⟨_, rfl⟩
    | some u => cases u; exact ⟨.AttributeError, rfl⟩

/-- **C52 is false of the code**, along every history: nothing that is done to a generated hierarchy gives a core a
`LogLikelihood`, so `clone` raises for every core of it. -/
theorem C52_refuted_histories (sem : Sem N V C O S (XR K)) (noneV : V) (sc : SimCore N V C O) {nick : N} {exo : Dict N V} {s s1 : S}
    {c : Core N V C O S K} (hc : Core.generateRoot sem noneV sc nick exo s = (.ok c, s1)) (ops : List (Op N V)) :
    All (fun _ c ts => ∀ (b1 b2 b3 : Bool) (s : S), ∃ e, (clone sem noneV sc b1 b2 b3 (.node c ts) s).1 = .error e) []
      (run sem noneV sc ops (.node c []) s1).1 := by
  have key : ∀ (ops : List (Op N V)) (t : CoreTree N V C O S K) (s : S), All Unjudged [] t → All Unjudged [] (run sem noneV sc ops t s).1 := by
    intro ops
    induction ops with
    | nil => intro t s h; exact h
    | cons o os ih => intro t s h; exact ih _ _ (unjudged_step sem noneV sc s o h)
  have h0 : c.logLike = none := by
    unfold Core.generateRoot at hc
    cases hg : sc.groups.get? sc.root with
    | none => rw [hg] at hc; simp at hc
    | some g => rw [hg] at hc; exact generate_like sem hc
  have h1 : All Unjudged [] (Tree.node c []) := ⟨h0, trivial⟩
  refine (key ops _ s1 h1).imp (fun up d ts h b1 b2 b3 s => ?_)
  obtain ⟨e, he, -⟩ := (C52_refuted sem noneV sc (.node d ts) s).1 h b1 b2 b3
  exact ⟨e, he⟩

theorem foldl_set_locus (l : List (N × V)) (c : Core N V C O S K) :
    (l.foldl (fun c p => c.set p.1 p.2) c).locus = Dict.update c.locus l := by
  induction l generalizing c with
  | nil => rfl
  | cons p l ih => rw [List.foldl_cons, ih]; rfl

theorem update_or (base : Dict N V) (l : List (N × V)) (x : N) :
    (Dict.update base l).get? x = ((Dict.update [] l).get? x).or (base.get? x) := by
  have key : ∀ l : List (N × V), (l.foldr (fun p acc => Dict.set acc p.1 p.2) base).get? x =
      ((l.foldr (fun p acc => Dict.set acc p.1 p.2) []).get? x).or (base.get? x) := by
    intro l
    induction l with
    | nil => rfl
    | cons p l ih =>
      simp only [List.foldr_cons]
      rw [Dict.get?_set, Dict.get?_set]
      split
      · rfl
      · exact ih
  have := key l.reverse
  simp only [List.foldr_reverse] at this
  exact this

/-- **C52, partial**: detaching a child without collection takes exactly that child out and changes no value of it; with
collection (which then raises) every inherited value has been collected - but own values that the ancestors also have
were replaced (`C52_overwrites`).  (Missing: cloning and duplicating, which always raise, see `C52_refuted`.) -/
theorem C52_partial {sc : SimCore N V C O} {up : List (Dict N V)} {c : Core N V C O S K} {ts : List (CoreTree N V C O S K)}
    (ht : All (Tidy sc) up (.node c ts)) (hw : ∀ d ∈ c.locus :: up, d.WF) {u : CoreTree N V C O S K} (hu : u ∈ ts) (collect : Bool) :
    ∃ u', (detach up (.node c ts) u.label.nick collect).1 = .node c (ts.filter (fun v => v.label.nick ≠ u.label.nick)) ∧
      (detach up (.node c ts) u.label.nick collect).2.1 = some u' ∧ u'.kids = u.kids ∧
      (collect = false → u' = u ∧ (detach up (.node c ts) u.label.nick collect).2.2 = .ok ()) ∧
      (collect = true → ∀ x, u'.label.locus.get? x = (chainMap (c.locus :: up) x).or (u.label.locus.get? x)) := by
  have hc : child u.label.nick ts = some u := (child_unique ht.1.1).2 ⟨hu, rfl⟩
  obtain ⟨d, us⟩ := u
  unfold detach
  simp only [Tree.kids, Tree.label] at hc ⊢
  rw [hc]
  cases collect with
  | false => exact ⟨_, rfl, rfl, rfl, fun _ => ⟨rfl, rfl⟩, by simp⟩
  | true =>
    refine ⟨_, rfl, rfl, rfl, by simp, fun _ x => ?_⟩
    simp only
    rw [foldl_set_locus, update_or]
    congr 1
    have := (C47_iteration (c.locus :: up) hw).2 x
    unfold chainMap
    rw [← this]
    cases (Dict.update [] (chainIter (c.locus :: up))).get? x <;> rfl

/-- Collecting replaces values: agent `B` had its own `k`, and has the one of the root after the (failing) detachment. -/
theorem C52_overwrites : ∃ (t u u' : CoreTree String Toy.TV Toy.TC Unit Int Int), child "B" t.kids = some u ∧
    (detach [] t "B" true).2 = (some u', .error .AttributeError) ∧
    u.label.locus.get? "k" = some (.num 7) ∧ u'.label.locus.get? "k" = some (.num 1) := by
  obtain ⟨u, hu, h1⟩ := of_some (o := child "B" pc49.kids) (P := fun u => u.label.locus.get? "k" = some (.num 7))
    (fun _ => inferInstance) (by decide +kernel)
  obtain ⟨u', hu', h2⟩ := of_some (o := (detach [] pc49 "B" true).2.1) (P := fun u => u.label.locus.get? "k" = some (.num 1))
    (fun _ => inferInstance) (by decide +kernel)
  refine ⟨pc49, u, u', hu, ?_, h1, h2⟩
  have h3 : (detach [] pc49 "B" true).2.2 = .error .AttributeError := by decide +kernel
  rw [← hu', ← h3]

/-- The hypotheses of C48 and C52 are met by the concrete hierarchy. -/
theorem pc49_tidy : All (Tidy sc49) [] pc49 := by
  unfold pc49
  exact C48_tidy Toy.lit (.str "None") sc49 _ _ _

example : pc49.kids.map (fun u => u.label.nick) = ["A", "B"] ∧
    (step Toy.lit (.str "None") sc49 pc49 20 (.breed [] "A" "agent" [])).2.2 = .error .ValueError ∧
    (step Toy.lit (.str "None") sc49 pc49 20 (.breed [] "D" "nobody" [])).2.2 = .error .KeyError ∧
    (step Toy.lit (.str "None") sc49 pc49 20 (.breed [] "D" "agent" [])).1.kids.map (fun u => u.label.nick) = ["A", "B", "D"] ∧
    (match findDescendant String.ofList pc49 "B".toList with | .ok u => u.label.locus | .error _ => []) = [("x", .num 24), ("k", .num 7)] ∧
    (match findDescendant String.ofList pc49 "A@B".toList with | .ok _ => none | .error e => some e) = some .KeyError := by
  decide +kernel

example : ((detach [] pc49 "B" false).1.kids.map (fun u => u.label.nick), (detach [] pc49 "B" false).2.2) = (["A"], .ok ()) := by
  decide +kernel

/-- The hypotheses of C44 are met, and both sides are as described. -/
example : Ready exBN ∧ NoShadow exBN ["u"] ∧
    (match NSet.allFixed "root" exBN with
      | .ok t => (match Core.generateRoot (K := Int) Toy.lit (.str "None") (.new exBN t) "R" [("u", .num 10)] 5 with
        | (.ok c, s) => some (c.locus, c.logProb, s) | (.error _, _) => none)
      | .error _ => none) =
    (match sampleChromosome (K := Int) Toy.lit exBN [("u", .num 10)] 5 with
      | (.ok ch, s) => some (ch.locus, ch.logProb, s)
      | (.error _, _) => none) :=
  ⟨⟨_, _, exBuilt, .inl rfl⟩, noShadow_of_check (by decide), by decide +kernel⟩

end Props.SimCore
