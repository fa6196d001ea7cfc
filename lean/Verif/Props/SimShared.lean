import Verif.Props.SimGen

/-!
# Properties of shared samplers, generated values and priors: C84, C85, C86, C87
-/

namespace Props.SimCore

set_option linter.unusedSectionVars false

open Py Spec Relation Model Model.CoreTree Props.Sampling

variable {N V C O S K : Type} [DecidableEq N] [AddCommMonoid K]

/-! ## C84 -/

/-- **C84 is false of the code**: agents `A` and `B` (with its own value of `k`) have both asked for the shared sampler of `w`; the
one of `A` draws differently after `B` asked for its own. -/
theorem C84_refuted : ∃ (bn : BN String Toy.TV Toy.TC Unit) (sc : SimCore String Toy.TV Toy.TC Unit) (ns : Tree (NSet String))
    (t t' : CoreTree String Toy.TV Toy.TC Unit Int Int) (s : Int), Ready bn ∧ asSimCore bn ns = .ok sc ∧
    t = (step Toy.lit (.str "None") sc pc49 20 (.sharedSampler [] "A" "w")).1 ∧
    t' = (step Toy.lit (.str "None") sc t s (.sharedSampler [] "B" "w")).1 ∧
    (sharedDraw Toy.lit (.str "None") "A" "w" [] t 100).1 = .ok (.num 101) ∧
    (sharedDraw Toy.lit (.str "None") "A" "w" [] t' 100).1 = .ok (.num 107) :=
  ⟨n49, sc49, ns49, _, _, 20, n49_ready, sc49_ok, rfl, rfl, by decide +kernel, by decide +kernel⟩

/-- **C84, partial**: asking for the sampler of a sibling changes no draw of a shared sampler whose actor is not frozen.
(Missing: frozen actors, where it is false, see `C84_refuted`.) -/
theorem C84_partial (sem : Sem N V C O S (XR K)) (noneV : V) (bn : BN N V C O) (up : List (Dict N V)) {c : Core N V C O S K}
    {ts : List (CoreTree N V C O S K)} {nick nick' k k' : N} {u : CoreTree N V C O S K} (hu : child nick ts = some u)
    {ds : Dict N (Dict N (Actor N V C O S K))} {d : Dict N (Actor N V C O S K)} {a : Actor N V C O S K} (hds : c.childActors = some ds)
    (hd : ds.get? u.label.group.name = some d) (ha : d.get? k = some a) (hf : a.isFrozen = false) (s s' : S) :
    sharedDraw sem noneV nick k up (sharedSampler sem bn nick' k' up (.node c ts) s).1 s' =
      sharedDraw sem noneV nick k up (.node c ts) s' := by
  -- what the children's actors look like does not change for `k`
  have main : ∀ (c' : Core N V C O S K), c'.locus = c.locus →
      ((c'.childActors.getD []).get? u.label.group.name).bind (·.get? k) = some a →
      sharedDraw sem noneV nick k up (.node c' ts) s' = sharedDraw sem noneV nick k up (.node c ts) s' := by
    intro c' hl hc
    simp only [sharedDraw, hu, hds, Option.getD_some, hd, ha, hl]
    cases hg : (c'.childActors.getD []).get? u.label.group.name with
    | none => rw [hg] at hc; cases hc
    | some d' =>
      rw [hg] at hc
      simp only [Option.bind_some] at hc
      simp only [Option.getD_some, hc]
  have hmk : ∀ (chain : List (Dict N V)) (d' : Dict N (Actor N V C O S K)) (s : S), d'.get? k = some a →
      (makeSampler sem chain d' k' s).1.get? k = some a := by
    intro chain d' s h
    unfold makeSampler
    cases hk : d'.get? k' with
    | none => exact h
    | some b =>
      simp only
      split
      · rename_i hb
        rw [Dict.get?_set]
        split
        · rename_i e
          subst e
          rw [h] at hk
          cases hk
          rw [hf] at hb
          cases hb
        · exact h
      · exact h
  -- the core after the actors of the sibling were made
  have hmid : ∀ g : N, (((c.childActors.getD []).get? u.label.group.name).bind (·.get? k) = some a) := by
    intro g; simp [hds, hd, ha]
  have hput : ∀ (g : Model.Group N) (s : S), (c.childActors.getD []).get? g.name = none →
      ((c.putShared sem bn g up s).1.locus = c.locus) ∧
      ((((c.putShared sem bn g up s).1.childActors.getD []).get? u.label.group.name).bind (·.get? k) = some a) := by
    intro g s hn
    unfold Core.putShared
    split
    · exact ⟨rfl, hmid k⟩
    · split
      · exact ⟨rfl, hmid k⟩
      · refine ⟨rfl, ?_⟩
        simp only [Option.getD_some]
        rw [Dict.get?_set]
        split
        · rename_i e
          rw [e] at hn
          simp [hds, hd] at hn
        · exact hmid k
  have hsh : ∃ c1 s1 o, sharedActors sem bn nick' up (.node c ts) s = (.node c1 ts, s1, o) ∧ c1.locus = c.locus ∧
      (((c1.childActors.getD []).get? u.label.group.name).bind (·.get? k) = some a) := by
    simp only [sharedActors]
    cases hc : child nick' ts with
    | none => exact ⟨c, s, _, rfl, rfl, hmid k⟩
    | some v =>
      simp only
      cases hg : (c.childActors.getD []).get? v.label.group.name with
      | some _ => exact ⟨c, s, _, rfl, rfl, hmid k⟩
      | none => exact ⟨_, _, _, rfl, (hput _ s hg).1, (hput _ s hg).2⟩
  obtain ⟨c1, s1, o, e, hl, hc1⟩ := hsh
  unfold sharedSampler
  rw [e]
  cases o with
  | error e => exact main c1 hl hc1
  | ok _ =>
    simp only
    cases hc : child nick' ts with
    | none => exact main c1 hl hc1
    | some v =>
      simp only
      refine main _ hl ?_
      simp only [Option.getD_some]
      rw [Dict.get?_set]
      split
      · rename_i eg
        simp only [Option.bind_some]
        refine hmk _ _ s1 ?_
        rw [eg]
        cases hgg : (c1.childActors.getD []).get? u.label.group.name with
        | none => rw [hgg] at hc1; cases hc1
        | some d1 => rw [hgg] at hc1; exact hc1
      · exact hc1

/-- The sampler of `z` reads the values of its agent when it draws. -/
example : (((step Toy.lit (.str "None") sc49 pc49 20 (.sharedActors [] "A")).1.label.childActors.getD []).map
      (fun p => (p.1, p.2.map (fun q => (q.1, q.2.isFrozen))))) = [("agent", [("z", false), ("w", true)])] ∧
    (sharedDraw Toy.lit (.str "None") "A" "z" [] (step Toy.lit (.str "None") sc49 pc49 20 (.sharedActors [] "A")).1 100).1 =
    (sharedDraw Toy.lit (.str "None") "A" "z" []
      (step Toy.lit (.str "None") sc49 (step Toy.lit (.str "None") sc49 pc49 20 (.sharedActors [] "A")).1 20 (.sharedSampler [] "B" "w")).1 100).1 := by
  decide +kernel

/-! ## C85 -/

/-- **C85 is false of the code**: generating a fully fixed core without an exogenous value gives a core that lacks it and
everything computed from it, where sampling the network is refused. -/
theorem C85_refuted : ∃ (bn : BN String Toy.TV Toy.TC Unit) (t : Tree (NSet String)) (c : Core String Toy.TV Toy.TC Unit Int Int) (s' : Int), Ready bn ∧
    NSet.allFixed "root" bn = .ok t ∧ Core.generateRoot Toy.lit (.str "None") (.new bn t) "R" [] 5 = (.ok c, s') ∧
    (∃ x ∈ c.group.fixed, x ∉ c.locus.keys) ∧ sample Toy.lit bn [] 5 = (.error .ValueError, 5) := by
  obtain ⟨t, ht, hP⟩ := Props.NodeSet.of_ok (r := NSet.allFixed "root" exBN)
    (P := fun t => ((Core.generateRoot (K := Int) Toy.lit (.str "None") (.new exBN t) "R" [] 5).1.toOption).any
      (fun c => decide ("z" ∈ c.group.fixed ∧ "z" ∉ c.locus.keys)) = true) (fun _ => inferInstance) (by decide +kernel)
  rcases hg : Core.generateRoot (K := Int) Toy.lit (.str "None") (.new exBN t) "R" [] 5 with ⟨e | c, s'⟩
  · rw [hg] at hP; cases hP
  · rw [hg] at hP
    have hP : "z" ∈ c.group.fixed ∧ "z" ∉ c.locus.keys := of_decide_eq_true hP
    exact ⟨exBN, t, c, s', ⟨_, _, exBuilt, .inl rfl⟩, ht, hg, ⟨"z", hP⟩, by decide +kernel⟩

theorem fillFixed_missing (sem : Sem N V C O S (XR K)) (bn : BN N V C O) : ∀ (ds : List N) (vs : Dict N V) (p : XR K) (s : S)
    {r : Dict N V} {q : XR K} {s' : S}, Core.fillFixed sem bn ds vs p s = (.ok (r, q), s') → ∀ x ∈ ds, x ∈ r.keys ∨
      ∃ l s1 s2 ρ, bn.loci.get? x = some l ∧ l.render sem (Dict.get? ρ) s1 = (.error .KeyError, s2) ∧ ∀ k v, ρ.get? k = some v → r.get? k = some v := by
  intro ds
  induction ds with
  | nil => intro vs p s r q s' _ x hx; cases hx
  | cons d ds ih =>
    intro vs p s r q s' h x hx
    have hfr := (fillFixed_frame sem bn _ _ _ _ h).1
    simp only [Core.fillFixed] at h
    cases hg : bn.get d with
    | error e => rw [hg] at h; simp at h
    | ok l =>
      rw [hg] at h
      simp only at h
      by_cases hd : d ∈ vs.keys
      · rw [if_pos hd] at h
        cases ha : Core.addPrior sem l d vs p with
        | error e => rw [ha] at h; simp at h
        | ok p' =>
          rw [ha] at h
          rcases List.mem_cons.1 hx with rfl | hx
          · obtain ⟨v, hv⟩ := (Dict.mem_keys_iff_exists _ _).1 hd
            exact .inl ((Dict.mem_keys_iff_exists _ _).2 ⟨v, hfr _ _ hv⟩)
          · exact ih _ _ _ h x hx
      · rw [if_neg hd] at h
        rcases hre : l.render sem vs.get? s with ⟨e | v, s1⟩
        · rw [hre] at h
          by_cases hK : e = .KeyError
          · subst hK
            simp only at h
            rcases List.mem_cons.1 hx with rfl | hx
            · exact .inr ⟨l, s, s1, vs, get_eq_ok hg, hre, hfr⟩
            · exact ih _ _ _ h x hx
          · cases e <;> simp at h hK
        · rw [hre] at h
          simp only at h
          cases ha : Core.addPrior sem l d (vs.set d v) p with
          | error e => rw [ha] at h; simp at h
          | ok p' =>
            rw [ha] at h
            rcases List.mem_cons.1 hx with rfl | hx
            · have := (fillFixed_frame sem bn _ _ _ _ h).1 x v (Dict.get?_set_self _ _ _)
              exact .inl ((Dict.mem_keys_iff_exists _ _).2 ⟨v, this⟩)
            · exact ih _ _ _ h x hx

/-- **C85, partial**: a fixed node without a value in a generated core is one whose definition raised KeyError on values of
which the fixed ones are kept; a node with a given constant always has its value.  (Missing: that no fixed node is
without value, which is false, see `C85_refuted`.) -/
theorem C85_partial (sem : Sem N V C O S (XR K)) {noneV : V} {bn : BN N V C O} {g : Model.Group N} {nick : N} {up : List (Dict N V)}
    {exo : Dict N V} (he : exo.WF) {s s' : S} {c : Core N V C O S K} (h : Core.generate sem noneV bn g nick up exo s = (.ok c, s')) :
    (∀ x ∈ g.fixed, x ∈ c.locus.keys ∨ ∃ l s1 s2 ρ, bn.loci.get? x = some l ∧ l.render sem (Dict.get? ρ) s1 = (.error .KeyError, s2)) ∧
    (∀ x ∈ g.fixed, ∀ n v, bn.loci.get? x = some (.value n v) → x ∈ c.locus.keys) ∧
    (∀ k v, exo.get? k = some v → c.locus.get? k = some v) ∧ (∀ k ∈ c.locus.keys, k ∈ g.fixed ∨ k ∈ exo.keys) := by
  obtain ⟨-, -, -, -, -, ⟨vs, vs2⟩, p, s1, -, hf, hloc, -⟩ := generate_frame sem h
  have hkey : ∀ x, x ∈ c.locus.keys ↔ (x ∈ vs2.keys ∧ x ∈ g.fixed) ∨ x ∈ exo.keys := by
    intro x
    rw [hloc, ← Dict.get?_isSome_iff, Dict.get?_update _ _ he, ← Dict.get?_isSome_iff, ← Dict.get?_isSome_iff, Dict.get?_filterItems_key]
    by_cases hx : x ∈ g.fixed <;> cases vs2.get? x <;> cases exo.get? x <;> simp [hx]
  have h1 : ∀ x ∈ g.fixed, x ∈ c.locus.keys ∨ ∃ l s1 s2 ρ, bn.loci.get? x = some l ∧ l.render sem (Dict.get? ρ) s1 = (.error .KeyError, s2) := by
    intro x hx
    rcases fillFixed_missing sem bn _ _ _ _ hf x hx with h | ⟨l, s1, s2, ρ, h1, h2, -⟩
    · exact .inl ((hkey x).2 (.inl ⟨h, hx⟩))
    · exact .inr ⟨l, s1, s2, ρ, h1, h2⟩
  refine ⟨h1, fun x hx n v hl => ?_, fun k v hk => ?_, fun k hk => ?_⟩
  · rcases h1 x hx with h | ⟨l, s1, s2, ρ, h1, h2⟩
    · exact h
    · rw [hl] at h1; cases h1; simp [Loci.render] at h2
  · rw [hloc, Dict.get?_update _ _ he, hk]; rfl
  · exact ((hkey k).1 hk).imp (·.2) id

/-! ## C86 -/

/-- **C86 is false of the code**: a generated core has no `DeepLogPrior`; asking for it raises AttributeError. -/
theorem C86_refuted (sem : Sem N V C O S (XR K)) {noneV : V} {sc : SimCore N V C O} {nick : N} {exo : Dict N V} {s s' : S}
    {c : Core N V C O S K} (h : Core.generateRoot sem noneV sc nick exo s = (.ok c, s')) :
    deepLogPrior (.node c []) = .error .AttributeError := by
  unfold Core.generateRoot at h
  split at h
  · simp at h
  · obtain ⟨-, -, -, -, e, -⟩ := generate_frame sem h
    simp only [deepLogPrior, e]

theorem deepLogPrior_all : ∀ (t : CoreTree N V C O S K), (∀ c ∈ t.labels, ∃ p, c.logPrior = some p) →
    deepLogPrior t = .ok ((t.labels.map (fun c => c.logPrior.getD 0)).sum) := by
  intro t
  refine Tree.ind
    (P := fun t => (∀ c ∈ t.labels, ∃ p, c.logPrior = some p) → deepLogPrior t = .ok ((t.labels.map (fun c => c.logPrior.getD 0)).sum))
    (Q := fun ts => (∀ c ∈ Tree.labelsL ts, ∃ p, c.logPrior = some p) → deepLogPriorL ts = .ok (((Tree.labelsL ts).map (fun c => c.logPrior.getD 0)).sum))
    ?_ ?_ ?_ t
  · intro c ts ih h
    simp only [Tree.labels, List.mem_cons, forall_eq_or_imp] at h
    obtain ⟨⟨p, hp⟩, h⟩ := h
    simp only [deepLogPrior, hp, ih h, Tree.labels, List.map_cons, List.sum_cons, Option.getD_some]
    rfl
  · intro _; rfl
  · intro t ts h1 h2 h
    simp only [Tree.labelsL, List.mem_append] at h
    simp only [deepLogPriorL, h1 (fun c hc => h c (.inl hc)), h2 (fun c hc => h c (.inr hc)), Tree.labelsL, List.map_append, List.sum_append]
    rfl

theorem labels_of_along {R : List (Dict N V) → List (Dict N V) → Core N V C O S K → Core N V C O S K → Prop}
    {P : Core N V C O S K → Prop} (h : ∀ up up' c c', R up up' c c' → P c') : ∀ (t t' : CoreTree N V C O S K) (up up' : List (Dict N V)),
    Along R up up' t t' → ∀ c ∈ t'.labels, P c := by
  intro t
  refine Tree.ind
    (P := fun t => ∀ (t' : CoreTree N V C O S K) (up up' : List (Dict N V)), Along R up up' t t' → ∀ c ∈ t'.labels, P c)
    (Q := fun ts => ∀ (ts' : List (CoreTree N V C O S K)) (up up' : List (Dict N V)), AlongL R up up' ts ts' → ∀ c ∈ Tree.labelsL ts', P c)
    ?_ ?_ ?_ t
  · rintro c ts ih ⟨c', ts'⟩ up up' ⟨h1, h2⟩ x hx
    simp only [Tree.labels, List.mem_cons] at hx
    rcases hx with rfl | hx
    · exact h _ _ _ _ h1
    · exact ih _ _ _ h2 x hx
  · rintro (_ | ⟨t', ts'⟩) up up' hh x hx
    · cases hx
    · exact hh.elim
  · rintro t ts ih1 ih2 (_ | ⟨t', ts'⟩) up up' hh x hx
    · exact hh.elim
    · simp only [Tree.labelsL, List.mem_append] at hx
      exact hx.elim (ih1 _ _ _ hh.1 x) (ih2 _ _ _ hh.2 x)

/-- **C86, partial**: after a successful impulse at the root every core has a prior, and `DeepLogPrior` is the sum of all of them.
(Missing: cores that were never reached by an impulse, where it is false, see `C86_refuted`.) -/
theorem C86_partial (sem : Sem N V C O S (XR K)) {bn : BN N V C O} (hr : Ready bn) {ns : Tree (NSet N)} {sc : SimCore N V C O}
    (hsc : asSimCore bn ns = .ok sc) {up : List (Dict N V)} {t t' : CoreTree N V C O S K} (hm : All (Members sc) up t)
    {i : Impulse N V} {s s' : S} (h : impulse sem bn up t i s = (t', s', .ok ())) :
    ∃ ps : List (XR K), t'.labels.map (fun c => c.logPrior) = ps.map some ∧ deepLogPrior t' = .ok ps.sum := by
  obtain ⟨-, hg⟩ := groups_ok hr hsc
  unfold impulse at h
  cases hs : shocks bn i with
  | error e => rw [hs] at h; simp at h
  | ok r =>
    obtain ⟨imp, sh⟩ := r
    rw [hs] at h
    have ha := setResponse_ok sem bn imp sh t up up s (members_nodup hg hm) h
    have hall : ∀ c ∈ t'.labels, ∃ p, c.logPrior = some p := by
      refine labels_of_along ?_ _ _ _ _ ha
      rintro up up' c c' ⟨m, ⟨⟨m0, q, -, -, -, -, -, hq⟩, -, -⟩, rfl⟩
      exact ⟨q, by rw [(finish_frame _ _).2.2.2.2.1, hq]⟩
    refine ⟨_, ?_, deepLogPrior_all _ hall⟩
    rw [List.map_map]
    refine List.map_congr_left (fun c hc => ?_)
    obtain ⟨p, hp⟩ := hall c hc
    simp [hp]

example : All (Members sc49) [] pc49 ∧ deepLogPrior pc49 = .error .AttributeError ∧
    set49.1.labels.map (fun c => c.logPrior) = [some (.fin (-9801)), some (.fin (-400)), some (.fin (-441))] ∧
    deepLogPrior set49.1 = .ok (.fin (-10642)) :=
  ⟨pc49_members _, by decide +kernel, by decide +kernel, by decide +kernel⟩

/-! ## C87 -/

/-- Consecutive draws. -/
inductive Draws (draw : S → Result V × S) : List V → S → S → Prop
  | nil (s : S) : Draws draw [] s s
  | cons {v : V} {vs : List V} {s s1 s2 : S} : draw s = (.ok v, s1) → Draws draw vs s1 s2 → Draws draw (v :: vs) s s2

theorem drawMany_iff (draw : S → Result V × S) : ∀ (n : Nat) (s s' : S) (vs : List V),
    drawMany draw n s = (.ok vs, s') ↔ vs.length = n ∧ Draws draw vs s s' := by
  intro n
  induction n with
  | zero =>
    intro s s' vs
    simp only [drawMany, Prod.mk.injEq, Except.ok.injEq]
    constructor
    · rintro ⟨rfl, rfl⟩; exact ⟨rfl, .nil _⟩
    · rintro ⟨h, d⟩
      have := List.length_eq_zero_iff.1 h
      subst this
      cases d
      exact ⟨rfl, rfl⟩
  | succ n ih =>
    intro s s' vs
    simp only [drawMany]
    constructor
    · intro h
      rcases hd : draw s with ⟨_ | v, s1⟩
      · rw [hd] at h; simp at h
      · rw [hd] at h
        simp only at h
        rcases hm : drawMany draw n s1 with ⟨_ | ws, s2⟩
        · rw [hm] at h; simp at h
        · rw [hm] at h
          simp only [Prod.mk.injEq, Except.ok.injEq] at h
          obtain ⟨rfl, rfl⟩ := h
          obtain ⟨h1, h2⟩ := (ih _ _ _).1 hm
          exact ⟨by simp [h1], .cons hd h2⟩
    · rintro ⟨h, d⟩
      cases d with
      | nil => simp at h
      | cons hd h2 =>
        rw [hd]
        simp only
        rw [(ih _ _ _).2 ⟨by simpa using h, h2⟩]

/-- **C87**: `sample(n)` gives the next `n` draws of the sampler, in order, as a list, and the bare next draw when `n ≤ 1`;
it raises only when one of these draws does. -/
theorem C87 (draw : S → Result V × S) (n : Int) (s : S) :
    (∀ s' r, samplerSample draw n s = (.ok r, s') ↔ ∃ vs, vs.length = (max n 1).toNat ∧ Draws draw vs s s' ∧
      ((n ≤ 1 ∧ ∃ v, vs = [v] ∧ r = .one v) ∨ (1 < n ∧ r = .many vs))) ∧
    (∀ e s', samplerSample draw n s = (.error e, s') → ∃ vs s1, vs.length < (max n 1).toNat ∧ Draws draw vs s s1 ∧ draw s1 = (.error e, s')) := by
  have herr : ∀ (n : Nat) (s s' : S) (e : Err), drawMany draw n s = (.error e, s') →
      ∃ vs s1, vs.length < n ∧ Draws draw vs s s1 ∧ draw s1 = (.error e, s') := by
    intro n
    induction n with
    | zero => intro s s' e h; simp [drawMany] at h
    | succ n ih =>
      intro s s' e h
      simp only [drawMany] at h
      rcases hd : draw s with ⟨e1 | v, s1⟩
      · rw [hd] at h
        simp only [Prod.mk.injEq, Except.error.injEq] at h
        obtain ⟨rfl, rfl⟩ := h
        exact ⟨[], s, by simp, .nil _, hd⟩
      · rw [hd] at h
        simp only at h
        rcases hm : drawMany draw n s1 with ⟨e2 | ws, s2⟩
        · rw [hm] at h
          simp only [Prod.mk.injEq, Except.error.injEq] at h
          obtain ⟨rfl, rfl⟩ := h
          obtain ⟨vs, s3, h1, h2, h3⟩ := ih _ _ _ hm
          exact ⟨v :: vs, s3, by simpa using h1, .cons hd h2, h3⟩
        · rw [hm] at h; simp at h
  unfold samplerSample
  by_cases hn : n ≤ 1
  · have e1 : max n 1 = 1 := max_eq_right hn
    simp only [e1, if_true]
    constructor
    · intro s' r
      constructor
      · intro h
        rcases hd : draw s with ⟨_ | v, s1⟩
        · rw [hd] at h; simp at h
        · rw [hd] at h
          simp only [Prod.mk.injEq, Except.ok.injEq] at h
          obtain ⟨rfl, rfl⟩ := h
          exact ⟨[v], rfl, .cons hd (.nil _), .inl ⟨hn, v, rfl, rfl⟩⟩
      · rintro ⟨vs, -, d, ⟨-, v, rfl, rfl⟩ | ⟨h, -⟩⟩
        · cases d with
          | cons hd h2 =>
            cases h2
            rw [hd]
        · omega
    · intro e s' h
      rcases hd : draw s with ⟨e1 | v, s1⟩
      · rw [hd] at h
        simp only [Prod.mk.injEq, Except.error.injEq] at h
        obtain ⟨rfl, rfl⟩ := h
        exact ⟨[], s, by simp, .nil _, hd⟩
      · rw [hd] at h; simp at h
  · have e1 : max n 1 = n := max_eq_left (by omega)
    simp only [e1, show n ≠ 1 by omega, if_false]
    constructor
    · intro s' r
      constructor
      · intro h
        rcases hm : drawMany draw n.toNat s with ⟨_ | vs, s1⟩
        · rw [hm] at h; simp at h
        · rw [hm] at h
          simp only [Prod.mk.injEq, Except.ok.injEq] at h
          obtain ⟨rfl, rfl⟩ := h
          obtain ⟨h1, h2⟩ := (drawMany_iff _ _ _ _ _).1 hm
          exact ⟨vs, h1, h2, .inr ⟨by omega, rfl⟩⟩
      · rintro ⟨vs, hl, d, ⟨h, -⟩ | ⟨-, rfl⟩⟩
        · omega
        · rw [(drawMany_iff _ _ _ _ _).2 ⟨hl, d⟩]
    · intro e s' h
      rcases hm : drawMany draw n.toNat s with ⟨e2 | vs, s1⟩
      · rw [hm] at h
        simp only [Prod.mk.injEq, Except.error.injEq] at h
        obtain ⟨rfl, rfl⟩ := h
        exact herr _ _ _ _ hm
      · rw [hm] at h; simp at h

example : samplerSample (fun s : Int => (.ok s, s + 1)) 3 5 = (.ok (.many [5, 6, 7]), 8) ∧
    samplerSample (fun s : Int => (.ok s, s + 1)) 0 5 = (.ok (.one 5), 6) ∧
    samplerSample (fun s : Int => (if s = 6 then .error .KeyError else .ok s, s + 1)) 3 5 = (.error .KeyError, 7) := by decide

end Props.SimCore
