import Verif.Model.Regression
import Verif.Props.Hazard
import Verif.Lemmas.Rand

/-!
# Regressions (C113-C120)
-/

namespace Props.Regression
set_option linter.unusedSectionVars false

open Py Lemmas Model

variable {L : Type} [DecidableEq L]

theorem mapM_ok {A B : Type} (f : A → Result B) (l : List A) (l' : List B) :
    l.mapM f = .ok l' ↔ List.Forall₂ (fun a b => f a = .ok b) l l' := by
  induction l generalizing l' with
  | nil =>
    simp only [List.mapM_nil, List.forall₂_nil_left_iff]
    exact ⟨fun h => by cases h; rfl, fun h => by rw [h]; rfl⟩
  | cons a l ih =>
    rw [List.mapM_cons]
    constructor
    · intro h
      cases ha : f a with
      | error e => rw [ha] at h; cases h
      | ok b =>
        rw [ha] at h
        cases hl : l.mapM f with
        | error e => rw [hl] at h; cases h
        | ok bs =>
          rw [hl] at h
          cases h
          exact .cons ha ((ih bs).1 hl)
    · intro h
      cases h with
      | cons ha hl =>
        rw [ha, (ih _).2 hl]
        rfl

theorem mapM_congr {A B : Type} (f g : A → Result B) (l : List A) (h : ∀ a ∈ l, f a = g a) :
    l.mapM f = l.mapM g := by
  induction l with
  | nil => rfl
  | cons a l ih =>
    rw [List.mapM_cons, List.mapM_cons, h a (by simp), ih (fun b hb => h b (by simp [hb]))]

/-! ### C113: the linear predictor -/

/-- The effect of a regressor on a case: its variable is there, and its effect is `e`. -/
def HasEffect (tx : Texts L) (kvs : Dict L (Covariate L)) (r : Regressor L) (e : ℝ) : Prop :=
  ∃ v, kvs.get? r.name = some v ∧ r.effect tx v = .ok e

theorem predict_step (tx : Texts L) (kvs : Dict L (Covariate L)) (r : Regressor L) (e : ℝ) :
    (do r.effect tx (← jsKey (kvs.get? r.name)) : Result ℝ) = .ok e ↔ HasEffect tx kvs r e := by
  unfold HasEffect
  cases h : kvs.get? r.name with
  | none =>
    constructor
    · intro h; cases h
    · rintro ⟨v, hv, -⟩; cases hv
  | some v =>
    constructor
    · intro h'; exact ⟨v, rfl, h'⟩
    · rintro ⟨v', hv, he⟩; cases hv; exact he

/-- **C113**: the linear predictor is the sum of the effects of the regressors, and exists exactly when every regressor
has one; it depends neither on the order of the regressors nor on variables without regressor. -/
theorem C113 (tx : Texts L) (regs : List (Regressor L)) (kvs : Dict L (Covariate L)) :
    (∀ y, linearPredict tx regs kvs = .ok y ↔ ∃ es, List.Forall₂ (HasEffect tx kvs) regs es ∧ y = es.sum) ∧
    (∀ regs' y, regs.Perm regs' → linearPredict tx regs kvs = .ok y → linearPredict tx regs' kvs = .ok y) ∧
    (∀ kvs' : Dict L (Covariate L), (∀ r ∈ regs, kvs'.get? r.name = kvs.get? r.name) →
      linearPredict tx regs kvs' = linearPredict tx regs kvs) := by
  have h1 : ∀ (regs : List (Regressor L)) y, linearPredict tx regs kvs = .ok y ↔
      ∃ es, List.Forall₂ (HasEffect tx kvs) regs es ∧ y = es.sum := by
    intro regs y
    unfold linearPredict
    constructor
    · intro h
      cases hm : regs.mapM (fun v => do v.effect tx (← jsKey (kvs.get? v.name))) with
      | error e => rw [hm] at h; cases h
      | ok es =>
        rw [hm] at h
        cases h
        exact ⟨es, ((mapM_ok _ _ _).1 hm).imp (fun r e h => (predict_step tx kvs r e).1 h), rfl⟩
    · rintro ⟨es, hes, rfl⟩
      rw [(mapM_ok _ _ es).2 (hes.imp (fun r e h => (predict_step tx kvs r e).2 h))]
      rfl
  refine ⟨h1 regs, ?_, ?_⟩
  · intro regs' y hp hy
    obtain ⟨es, hes, rfl⟩ := (h1 regs y).1 hy
    clear hy
    rw [h1]
    induction hp generalizing es with
    | nil => exact ⟨es, hes, rfl⟩
    | cons r _ ih =>
      cases hes with
      | cons hr hes =>
        obtain ⟨es', h', hs⟩ := ih _ hes
        exact ⟨_ :: es', .cons hr h', by simp [hs]⟩
    | swap a b l =>
      cases hes with
      | cons ha hes =>
        cases hes with
        | cons hb hes => exact ⟨_, .cons hb (.cons ha hes), by simp only [List.sum_cons]; ring⟩
    | trans _ _ ih1 ih2 =>
      obtain ⟨es1, h1, hs1⟩ := ih1 _ hes
      obtain ⟨es2, h2, hs2⟩ := ih2 _ h1
      exact ⟨es2, h2, hs1.trans hs2⟩
  · intro kvs' h
    unfold linearPredict
    rw [mapM_congr _ (fun v => do v.effect tx (← jsKey (kvs.get? v.name))) regs
      (fun r hr => by rw [h r hr])]

/-- **C113**, the effects: a boolean regressor adds its coefficient for a true value and nothing for a false one, where
zero and the empty text count as false; a continuous one adds its coefficient times the number, and refuses texts. -/
theorem C113_effects (tx : Texts L) (n : L) (c : ℝ) :
    (∀ b, (Regressor.boolean n c).effect tx (.bool b) = .ok (if b then c else 0)) ∧
    (∀ x : ℝ, x ≠ 0 → (Regressor.boolean n c).effect tx (.num x) = .ok c) ∧
    (Regressor.boolean n c).effect tx (.num 0) = .ok 0 ∧
    (∀ t, t ≠ tx.empty → (Regressor.boolean n c).effect tx (.text t) = .ok c) ∧
    (Regressor.boolean n c).effect tx (.text tx.empty) = .ok 0 ∧
    (∀ x : ℝ, (Regressor.continuous n c).effect tx (.num x) = .ok (c * x)) ∧
    (∀ b, (Regressor.continuous n c).effect tx (.bool b) = .ok (if b then c else 0)) ∧
    (∀ t, (Regressor.continuous n c).effect tx (.text t) = .error .TypeError) := by
  refine ⟨fun b => ?_, fun x hx => ?_, ?_, fun t ht => ?_, ?_, fun x => rfl, fun b => ?_, fun t => rfl⟩
  · cases b <;> simp [Regressor.effect, Covariate.truthy]
  · simp [Regressor.effect, Covariate.truthy, hx]
  · simp [Regressor.effect, Covariate.truthy]
  · simp [Regressor.effect, Covariate.truthy, ht]
  · simp [Regressor.effect, Covariate.truthy]
  · cases b
    · show Except.ok (c * 0) = _
      simp
    · show Except.ok (c * 1) = _
      simp

/-- Texts that are strings of digits or nothing. -/
def plainTexts : Texts String := ⟨fun s => if s = "1" then some 1 else none, ""⟩

/-- The regressors of the example in glm.py and linear.py. -/
noncomputable def exRegs : List (Regressor String) := [.continuous "Age" 5, .boolean "Male" 7]

/-- A case, with one more variable. -/
noncomputable def exCase : Dict String (Covariate String) := [("Age", .num 2), ("Male", .bool true), ("Id", .text "x")]

theorem exRegs_predict : linearPredict plainTexts exRegs exCase = .ok 17 := by
  refine ((C113 plainTexts exRegs exCase).1 17).2 ⟨[10, 7], ?_, by norm_num⟩
  refine .cons ⟨.num 2, rfl, ?_⟩ (.cons ⟨.bool true, rfl, rfl⟩ .nil)
  show Except.ok ((5 : ℝ) * 2) = .ok 10
  norm_num

example : linearPredict plainTexts [.boolean "Male" 7, .continuous "Age" 5] exCase = .ok 17 :=
  (C113 plainTexts exRegs exCase).2.1 _ _ (List.Perm.swap _ _ _) exRegs_predict

/-! ### C114: regressors as JSON -/

theorem references_get (labels : List L) (l : L) (i : Nat) (h : (Regressor.references labels).get? l = some i) :
    labels[i]? = some l := by
  have key : ∀ (ps : List (L × Nat)) (d : Dict L Nat), (∀ p ∈ ps, labels[p.2]? = some p.1) →
      (∀ l i, d.get? l = some i → labels[i]? = some l) →
      ∀ l i, (ps.foldl (fun d p => d.set p.1 p.2) d).get? l = some i → labels[i]? = some l := by
    intro ps
    induction ps with
    | nil => intro d _ hd; exact hd
    | cons p ps ih =>
      intro d hp hd
      refine ih _ (fun q hq => hp q (by simp [hq])) ?_
      intro l i hl
      by_cases hpl : p.1 = l
      · subst hpl
        rw [Dict.get?_set_self] at hl
        cases hl
        exact hp p (by simp)
      · rw [Dict.get?_set_ne _ _ hpl] at hl
        exact hd l i hl
  refine key labels.zipIdx [] ?_ (by intro l i h; cases h) l i h
  intro p hp
  have := List.mem_zipIdx_iff_getElem?.1 (show (p.1, p.2) ∈ labels.zipIdx from hp)
  exact this

/-- **C114**: a regressor read from JSON can be written, and reading what was written gives the same regressor. -/
theorem C114 (js : RegressorJs L) (r : Regressor L) (h : Regressor.ofJson js = .ok r) :
    ∃ js', r.toJson = .ok js' ∧ Regressor.ofJson js' = .ok r := by
  obtain ⟨ty, nm, va, vs, la, re⟩ := js
  cases ty with
  | none => cases h
  | some ty =>
    cases nm with
    | none =>
      rcases ty with _ | (_ | _) <;> cases h
    | some nm =>
      rcases ty with _ | (_ | _)
      · cases va with
        | none => cases h
        | some c => cases h; exact ⟨_, rfl, rfl⟩
      · cases vs with
        | none => cases h
        | some vs =>
          cases la with
          | none => cases h
          | some la =>
            cases re with
            | none => cases h
            | some re =>
              have hcat : ∀ va, Regressor.ofJson (⟨some (some false), some nm, va, some vs, some la, some re⟩ :
                  RegressorJs L) = (jsKey ((Regressor.references la).get? re)).map (.categorical nm vs la) := by
                intro va
                show (jsKey _ >>= fun i => pure _) = _
                cases jsKey ((Regressor.references la).get? re) <;> rfl
              rw [hcat] at h
              cases hr : (Regressor.references la).get? re with
              | none => rw [hr] at h; cases h
              | some i =>
                rw [hr] at h
                cases h
                refine ⟨⟨some (some false), some nm, none, some vs, some la, some re⟩, ?_, ?_⟩
                · simp only [Regressor.toJson, references_get la re i hr]
                · rw [hcat, hr]
                  rfl
      · cases va with
        | none => cases h
        | some c => cases h; exact ⟨_, rfl, rfl⟩

/-- **C114**, the types: `Boolean` and `Categorical` entries give such regressors, any other type a continuous one, with
the name and the coefficients of the entry; the reference is a position of the label `Ref`. -/
theorem C114_types (js : RegressorJs L) (r : Regressor L) (h : Regressor.ofJson js = .ok r) :
    js.name = some r.name ∧
    (js.type = some (some true) → ∃ c, js.value = some c ∧ ∃ n, r = .boolean n c) ∧
    (js.type = some none → ∃ c, js.value = some c ∧ ∃ n, r = .continuous n c) ∧
    (js.type = some (some false) → ∃ cs ls l, js.values = some cs ∧ js.labels = some ls ∧ js.ref = some l ∧
      ∃ n i, r = .categorical n cs ls i ∧ ls[i]? = some l) := by
  obtain ⟨ty, nm, va, vs, la, re⟩ := js
  cases ty with
  | none => cases h
  | some ty =>
    cases nm with
    | none => rcases ty with _ | (_ | _) <;> cases h
    | some nm =>
      rcases ty with _ | (_ | _)
      · cases va with
        | none => cases h
        | some c => cases h; simp [Regressor.name]
      · cases vs with
        | none => cases h
        | some vs =>
          cases la with
          | none => cases h
          | some la =>
            cases re with
            | none => cases h
            | some re =>
              have hcat : Regressor.ofJson (⟨some (some false), some nm, va, some vs, some la, some re⟩ :
                  RegressorJs L) = (jsKey ((Regressor.references la).get? re)).map (.categorical nm vs la) := by
                show (jsKey _ >>= fun i => pure _) = _
                cases jsKey ((Regressor.references la).get? re) <;> rfl
              rw [hcat] at h
              cases hr : (Regressor.references la).get? re with
              | none => rw [hr] at h; cases h
              | some i =>
                rw [hr] at h
                cases h
                simp [Regressor.name, references_get la re i hr]
      · cases va with
        | none => cases h
        | some c => cases h; simp [Regressor.name]

/-- A categorical regressor with a repeated label: the last one is the reference. -/
example : Regressor.ofJson (⟨some (some false), some "Sex", none, some [0, 1, 2], some ["M", "F", "M"], some "M"⟩ :
    RegressorJs String) = .ok (.categorical "Sex" [0, 1, 2] ["M", "F", "M"] 2) := rfl

/-! ### C115: categories -/

/-- **C115** fails for every regressor: a label that is not the text of a number is refused. -/
theorem C115_refuted (tx : Texts L) (n : L) (cs : List ℝ) (labels : List L) (ref : Nat) (l : L)
    (h : tx.intOf l = none) :
    (Regressor.categorical n cs labels ref).effect tx (.text l) = .error .ValueError := by
  simp [Regressor.effect, Covariate.toInt, h]
  rfl

/-- **C115**, what holds: a position gives the coefficient at that position, from the end if it is negative, and a
position outside is an IndexError.  The reference is not used. -/
theorem C115_partial (tx : Texts L) (n : L) (cs : List ℝ) (labels : List L) (ref : Nat) :
    (∀ (i : Nat) c, cs[i]? = some c → (Regressor.categorical n cs labels ref).effect tx (.num i) = .ok c) ∧
    (∀ (i : Nat) c, cs.reverse[i]? = some c →
      (Regressor.categorical n cs labels ref).effect tx (.num (-((i : ℝ) + 1))) = .ok c) ∧
    (∀ i : Nat, cs.length ≤ i → (Regressor.categorical n cs labels ref).effect tx (.num i) = .error .IndexError) ∧
    (∀ ref' v, (Regressor.categorical n cs labels ref').effect tx v =
      (Regressor.categorical n cs labels ref).effect tx v) := by
  have hpos : ∀ i : Nat, (Regressor.categorical n cs labels ref).effect tx (.num i) = pyGet cs (i : Int) := by
    intro i
    have : (Covariate.num (L := L) (i : ℝ)).toInt tx.intOf = .ok (i : Int) := by
      simp [Covariate.toInt]
    simp only [Regressor.effect, this]
    rfl
  refine ⟨?_, ?_, ?_, fun _ _ => rfl⟩
  · intro i c hc
    rw [hpos]
    simp [pyGet, hc]
  · intro i c hc
    have hi : i < cs.length := by
      have := (List.getElem?_eq_some_iff.1 hc).1
      simpa using this
    have : (Covariate.num (L := L) (-((i : ℝ) + 1))).toInt tx.intOf = .ok (-((i : Int) + 1)) := by
      have h0 : ¬ (0 : ℝ) ≤ -((i : ℝ) + 1) := by
        have : (0 : ℝ) ≤ i := Nat.cast_nonneg i
        linarith
      simp only [Covariate.toInt, if_neg h0]
      congr 1
      have : (-((i : ℝ) + 1)) = ((-((i : Int) + 1) : Int) : ℝ) := by push_cast; ring
      rw [this, Int.ceil_intCast]
    simp only [Regressor.effect, this]
    show pyGet cs (-((i : Int) + 1)) = .ok c
    rw [List.getElem?_reverse hi] at hc
    have h1 : ¬ (0 : Int) ≤ -((i : Int) + 1) := by omega
    have h2 : -(-((i : Int) + 1)) ≤ (cs.length : Int) := by omega
    have h3 : ((cs.length : Int) + -((i : Int) + 1)).toNat = cs.length - 1 - i := by omega
    rw [pyGet, if_neg h1, if_pos h2, h3, hc]
  · intro i hi
    rw [hpos]
    simp [pyGet, List.getElem?_eq_none hi]

example : plainTexts.intOf "Male" = none ∧
    (Regressor.categorical "Sex" [0, 7] ["Female", "Male"] 0).effect plainTexts (.text "Male") = .error .ValueError :=
  ⟨by decide, C115_refuted _ _ _ _ _ _ (by decide)⟩

/-! ### C116: expectations are probabilities -/

theorem expit_pos (x : ℝ) : 0 < expit x := by
  unfold expit
  have := Real.exp_pos (-x)
  positivity

theorem expit_lt_one (x : ℝ) : expit x < 1 := by
  unfold expit
  have := Real.exp_pos (-x)
  rw [div_lt_one (by linarith)]
  linarith

theorem expit_strictMono {x y : ℝ} (h : x < y) : expit x < expit y := by
  unfold expit
  have h1 := Real.exp_pos (-y)
  have h2 : Real.exp (-y) < Real.exp (-x) := Real.exp_lt_exp.2 (by linarith)
  exact one_div_lt_one_div_of_lt (by linarith) (by linarith)

/-- **C116**, the predictor: what a linear regression expects, and a logistic or a Poisson regression transforms, is the
sum of the effects plus the intercept. -/
theorem C116_predictor (tx : Texts L) (m : GLM L) (xs : Dict L (Covariate L)) (y : ℝ) :
    m.linear tx xs = .ok y ↔ ∃ es, List.Forall₂ (HasEffect tx xs) m.lc es ∧ y = m.intercept + es.sum := by
  unfold GLM.linear
  constructor
  · intro h
    cases hp : linearPredict tx m.lc xs with
    | error e => rw [hp] at h; cases h
    | ok z =>
      rw [hp] at h
      cases h
      obtain ⟨es, h1, h2⟩ := ((C113 tx m.lc xs).1 z).1 hp
      exact ⟨es, h1, by rw [h2, add_comm]⟩
  · rintro ⟨es, h1, rfl⟩
    rw [((C113 tx m.lc xs).1 es.sum).2 ⟨es, h1, rfl⟩, add_comm]
    rfl

example : (GLM.mk 3 exRegs).linear plainTexts exCase = .ok 20 := by
  rw [GLM.linear, exRegs_predict]
  show Except.ok (17 + 3 : ℝ) = _
  norm_num

/-- The predictors of the classes. -/
def HasPredictors (tx : Texts L) (m : Multinomial L) (xs : Dict L (Covariate L)) (mus : List ℝ) : Prop :=
  List.Forall₂ (fun p mu => ∃ y, linearPredict tx p.1 xs = .ok y ∧ mu = y + p.2) (m.lcs.zip m.intercepts) mus

theorem expectation_ok (tx : Texts L) (m : Multinomial L) (xs : Dict L (Covariate L)) (ps : List ℝ) :
    m.expectation tx xs = .ok ps ↔ ∃ mus, HasPredictors tx m xs mus ∧
      ps = (mus.map expit).map (· / (mus.map expit).sum) := by
  unfold Multinomial.expectation
  constructor
  · intro h
    cases hm : (m.lcs.zip m.intercepts).mapM (fun p => do return (← linearPredict tx p.1 xs) + p.2) with
    | error e => rw [hm] at h; cases h
    | ok mus =>
      rw [hm] at h
      cases h
      refine ⟨mus, ((mapM_ok _ _ _).1 hm).imp ?_, rfl⟩
      intro p mu hp
      cases hy : linearPredict tx p.1 xs with
      | error e => rw [hy] at hp; cases hp
      | ok y => rw [hy] at hp; cases hp; exact ⟨y, rfl, rfl⟩
  · rintro ⟨mus, hm, rfl⟩
    rw [(mapM_ok _ _ mus).2 (hm.imp ?_)]
    · rfl
    · rintro p mu ⟨y, hy, rfl⟩
      rw [hy]
      rfl

theorem sum_pos_of {l : List ℝ} (h : ∀ x ∈ l, 0 < x) (hne : l ≠ []) : 0 < l.sum := by
  induction l with
  | nil => exact absurd rfl hne
  | cons a l ih =>
    rw [List.sum_cons]
    cases l with
    | nil => simpa using h a (by simp)
    | cons b l =>
      have := ih (fun x hx => h x (by simp [hx])) (by simp)
      have := h a (by simp)
      linarith

theorem sum_map_div (l : List ℝ) (c : ℝ) : (l.map (· / c)).sum = l.sum / c := by
  induction l with
  | nil => simp
  | cons a l ih => simp [ih, add_div]

/-- **C116**: the expectation of a logistic regression is a probability strictly between zero and one that increases
with the linear predictor and is one half at zero; that of a multinomial one is a list of positive probabilities that sum
to one. -/
theorem C116 (tx : Texts L) (xs : Dict L (Covariate L)) :
    (∀ (m : GLM L) p, m.logistic tx xs = .ok p → 0 < p ∧ p < 1) ∧
    (∀ (m m' : GLM L) (xs' : Dict L (Covariate L)) y y' p p', m.linear tx xs = .ok y → m'.linear tx xs' = .ok y' →
      m.logistic tx xs = .ok p → m'.logistic tx xs' = .ok p' → ((y < y' ↔ p < p') ∧ (p = 1 / 2 ↔ y = 0))) ∧
    (∀ (m : Multinomial L) ps, m.expectation tx xs = .ok ps →
      ps.length = min m.lcs.length m.intercepts.length ∧ (∀ p ∈ ps, 0 < p) ∧ (ps ≠ [] → ps.sum = 1)) := by
  have hlog : ∀ (m : GLM L) (xs : Dict L (Covariate L)) p, m.logistic tx xs = .ok p →
      ∃ y, m.linear tx xs = .ok y ∧ p = expit y := by
    intro m xs p h
    unfold GLM.logistic at h
    cases hy : m.linear tx xs with
    | error e => rw [hy] at h; cases h
    | ok y => rw [hy] at h; cases h; exact ⟨y, rfl, rfl⟩
  refine ⟨?_, ?_, ?_⟩
  · intro m p h
    obtain ⟨y, -, rfl⟩ := hlog m xs p h
    exact ⟨expit_pos y, expit_lt_one y⟩
  · intro m m' xs' y y' p p' hy hy' hp hp'
    obtain ⟨z, hz, rfl⟩ := hlog m xs p hp
    obtain ⟨z', hz', rfl⟩ := hlog m' xs' p' hp'
    rw [hy] at hz
    rw [hy'] at hz'
    cases hz
    cases hz'
    have h0 : expit 0 = 1 / 2 := by norm_num [expit]
    refine ⟨⟨expit_strictMono, fun h => ?_⟩, fun h => ?_, fun h => by rw [h, h0]⟩
    · by_contra hn
      rcases (not_lt.1 hn).lt_or_eq with h' | h'
      · exact absurd (expit_strictMono h') (not_lt.2 h.le)
      · rw [h'] at h; exact lt_irrefl _ h
    · rcases lt_trichotomy y 0 with h' | h' | h'
      · have := expit_strictMono h'; rw [h0] at this; linarith
      · exact h'
      · have := expit_strictMono h'; rw [h0] at this; linarith
  · intro m ps h
    obtain ⟨mus, hm, rfl⟩ := (expectation_ok tx m xs ps).1 h
    have hl : mus.length = min m.lcs.length m.intercepts.length := by
      rw [← hm.length_eq, List.length_zip]
    have hpos : ∀ x ∈ mus.map expit, 0 < x := by
      intro x hx
      obtain ⟨y, -, rfl⟩ := List.mem_map.1 hx
      exact expit_pos y
    refine ⟨by simpa using hl, ?_, ?_⟩
    · intro p hp
      obtain ⟨x, hx, rfl⟩ := List.mem_map.1 hp
      exact div_pos (hpos x hx) (sum_pos_of hpos (List.ne_nil_of_mem hx))
    · intro hne
      have : mus.map expit ≠ [] := by
        intro h0; apply hne; rw [h0]; rfl
      rw [sum_map_div, div_self (sum_pos_of hpos this).ne']

/-- Two classes, with predictors 0 and log 3. -/
noncomputable def exMulti : Multinomial String := ⟨[0, Real.log 3], [[], []], ["A", "B"]⟩

theorem exMulti_predictors : HasPredictors plainTexts exMulti [] [0, Real.log 3] :=
  .cons ⟨0, rfl, by norm_num⟩ (.cons ⟨0, rfl, by simp⟩ .nil)

theorem exMulti_expectation : exMulti.expectation plainTexts [] = .ok [2 / 5, 3 / 5] := by
  rw [expectation_ok]
  refine ⟨_, exMulti_predictors, ?_⟩
  have h0 : expit 0 = 1 / 2 := by norm_num [expit]
  have h3 : expit (Real.log 3) = 3 / 4 := by
    rw [expit, Real.exp_neg, Real.exp_log (by norm_num)]
    norm_num
  simp only [List.map_cons, List.map_nil, List.sum_cons, List.sum_nil, h0, h3]
  norm_num

example : ([2 / 5, 3 / 5] : List ℝ).sum = 1 :=
  ((C116 plainTexts []).2.2 exMulti _ exMulti_expectation).2.2 (by simp)

example : (GLM.mk 1 exRegs).linear plainTexts exCase = .ok 18 := by
  rw [GLM.linear, exRegs_predict]
  show Except.ok ((17 : ℝ) + 1) = _
  norm_num

/-! ### C117: odds between classes -/

/-- **C117** fails: with predictors 0 and log 3 the odds should be 3, but are 3/2. -/
theorem C117_refuted : HasPredictors plainTexts exMulti [] [0, Real.log 3] ∧
    exMulti.expectation plainTexts [] = .ok [2 / 5, 3 / 5] ∧
    (3 / 5 : ℝ) / (2 / 5) ≠ Real.exp (Real.log 3 - 0) := by
  refine ⟨exMulti_predictors, exMulti_expectation, ?_⟩
  rw [sub_zero, Real.exp_log (by norm_num)]
  norm_num

/-- **C117**, what holds: the odds are those of the two inverse logits, so the class with the larger predictor is the
more likely. -/
theorem C117_partial (tx : Texts L) (m : Multinomial L) (xs : Dict L (Covariate L)) (mus ps : List ℝ)
    (hm : HasPredictors tx m xs mus) (h : m.expectation tx xs = .ok ps) (i j : Nat) (y z p q : ℝ)
    (hi : mus[i]? = some y) (hj : mus[j]? = some z) (hp : ps[i]? = some p) (hq : ps[j]? = some q) :
    p / q = (Real.exp (-z) + 1) / (Real.exp (-y) + 1) ∧ (y < z → p < q) := by
  obtain ⟨mus', hm', rfl⟩ := (expectation_ok tx m xs ps).1 h
  have heq : mus' = mus := by
    have huniq : ∀ (l : List (List (Regressor L) × ℝ)) (a b : List ℝ),
        List.Forall₂ (fun p mu => ∃ y, linearPredict tx p.1 xs = .ok y ∧ mu = y + p.2) l a →
        List.Forall₂ (fun p mu => ∃ y, linearPredict tx p.1 xs = .ok y ∧ mu = y + p.2) l b → a = b := by
      intro l
      induction l with
      | nil => intro a b ha hb; cases ha; cases hb; rfl
      | cons p l ih =>
        intro a b ha hb
        cases ha with
        | cons h1 ha =>
          cases hb with
          | cons h2 hb =>
            obtain ⟨y1, e1, rfl⟩ := h1
            obtain ⟨y2, e2, rfl⟩ := h2
            rw [e1] at e2
            cases e2
            rw [ih _ _ ha hb]
    exact huniq _ _ _ hm' hm
  subst heq
  simp only [List.getElem?_map, hi, hj, Option.map_some, Option.some.injEq] at hp hq
  have hpos : 0 < (mus'.map expit).sum := by
    refine sum_pos_of ?_ ?_
    · intro x hx
      obtain ⟨y, -, rfl⟩ := List.mem_map.1 hx
      exact expit_pos y
    · intro h0
      have : mus' = [] := by simpa using h0
      rw [this] at hi
      cases hi
  subst hp
  subst hq
  constructor
  · rw [div_div_div_cancel_right₀ hpos.ne']
    unfold expit
    have h1 := Real.exp_pos (-y)
    have h2 := Real.exp_pos (-z)
    field_simp
    ring
  · intro hlt
    exact div_lt_div_of_pos_right (expit_strictMono hlt) hpos

example : (2 / 5 : ℝ) < 3 / 5 :=
  (C117_partial plainTexts exMulti [] _ _ exMulti_predictors exMulti_expectation 0 1 _ _ _ _ rfl rfl rfl rfl).2
    (Real.log_pos (by norm_num))

/-! ### C118: counts -/

/-- **C118** fails for every case: the prediction of a Poisson regression never returns. -/
theorem C118_refuted (tx : Texts L) (m : GLM L) (xs : Dict L (Covariate L)) :
    (∀ c, m.poissonPredict tx xs ≠ .ok c) ∧
    (∀ y, m.linear tx xs = .ok y → m.poissonPredict tx xs = .error .TypeError) := by
  unfold GLM.poissonPredict GLM.poisson
  cases h : m.linear tx xs with
  | error e =>
    refine ⟨?_, fun y hy => by cases hy⟩
    intro c hc
    cases hc
  | ok y =>
    refine ⟨?_, fun y hy => rfl⟩
    intro c hc
    cases hc

/-- **C118**, what holds: the expected count is positive, and its log is the linear predictor. -/
theorem C118_partial (tx : Texts L) (m : GLM L) (xs : Dict L (Covariate L)) (mu : ℝ) (h : m.poisson tx xs = .ok mu) :
    0 < mu ∧ m.linear tx xs = .ok (Real.log mu) := by
  unfold GLM.poisson at h
  cases hy : m.linear tx xs with
  | error e => rw [hy] at h; cases h
  | ok y =>
    rw [hy] at h
    cases h
    exact ⟨Real.exp_pos y, by rw [Real.log_exp]⟩

example : (GLM.mk 0 exRegs).poisson plainTexts exCase = .ok (Real.exp (17 + 0)) := by
  rw [GLM.poisson, GLM.linear, exRegs_predict]
  rfl

/-! ### C119: classes -/

theorem validProbs_fin {ps : List ℝ} (h : ∀ p ∈ ps, 0 ≤ p) (hs : ps.sum = 1) :
    validProbs (ps.map XR.fin) = true := by
  have hsum : (ps.map XR.fin).sum = XR.fin ps.sum := by
    clear h hs
    induction ps with
    | nil => rfl
    | cons a ps ih => simp [ih]
  unfold validProbs
  rw [Bool.and_eq_true]
  constructor
  · rw [List.all_eq_true]
    intro x hx
    obtain ⟨p, hp, rfl⟩ := List.mem_map.1 hx
    simp [XR.isFinite, h p hp]
  · rw [hsum, hs]
    simp

/-- **C119**: when there are as many labels as classes, the prediction is exactly one label, and the sampler gives each
label (if they are distinct) the probability of its class; for another number of labels the prediction is refused. -/
theorem C119 {S : Type} (tx : Texts L) (m : Multinomial L) (xs : Dict L (Covariate L)) (ps : List ℝ)
    (h : m.expectation tx xs = .ok ps) (r : Rand S ℝ) (hr : r.Honest) (s : S) :
    (m.labels.length = ps.length → ps ≠ [] → ∃ l s', l ∈ m.labels ∧ m.predict tx r xs s = (.ok [l], s')) ∧
    (m.labels.length ≠ ps.length → m.predict tx r xs s = (.error .ValueError, s)) ∧
    (m.labels.Nodup → ∃ kv, m.samplerTable tx xs = .ok kv ∧
      ∀ (i : Nat) l p, m.labels[i]? = some l → ps[i]? = some p → kv.get? l = some p) := by
  obtain ⟨-, hpos, hsum⟩ := (C116 tx xs).2.2 m ps h
  refine ⟨?_, ?_, ?_⟩
  · intro hlen hne
    have hv : validProbs (ps.map XR.fin) = true := validProbs_fin (fun p hp => (hpos p hp).le) (hsum hne)
    have h1 := hr.size _ 1 s hv
    have h2 := hr.support _ 1 s hv
    obtain ⟨is, s', hp⟩ : ∃ is s', r.pick (ps.map XR.fin) 1 s = (is, s') := ⟨_, _, rfl⟩
    rw [hp] at h1 h2
    obtain ⟨i, rfl⟩ := List.length_eq_one_iff.1 h1
    obtain ⟨w, hw, -⟩ := h2 i (by simp)
    have hi : i < m.labels.length := by
      rw [hlen]
      have := (List.getElem?_eq_some_iff.1 hw).1
      simpa using this
    refine ⟨m.labels[i], s', List.getElem_mem hi, ?_⟩
    simp [Multinomial.predict, h, hlen, Rand.choice, hv, hp, List.getElem?_eq_getElem hi]
  · intro hlen
    simp [Multinomial.predict, h, hlen]
  · intro hnd
    refine ⟨_, by rw [Multinomial.samplerTable, h]; rfl, ?_⟩
    have key : ∀ (ls : List L) (ps : List ℝ) (d : Dict L ℝ), ls.Nodup →
        (∀ (i : Nat) l p, ls[i]? = some l → ps[i]? = some p →
          ((ls.zip ps).foldl (fun d p => d.set p.1 p.2) d).get? l = some p) ∧
        (∀ l, l ∉ ls → ((ls.zip ps).foldl (fun d p => d.set p.1 p.2) d).get? l = d.get? l) := by
      intro ls
      induction ls with
      | nil => intro ps d _; exact ⟨fun i l p h => by simp at h, fun l _ => by simp⟩
      | cons a ls ih =>
        intro ps d hnd
        cases ps with
        | nil => exact ⟨fun i l p _ h => by simp at h, fun l _ => by simp⟩
        | cons b ps =>
          obtain ⟨ha, hnd⟩ := List.nodup_cons.1 hnd
          obtain ⟨h1, h2⟩ := ih ps (d.set a b) hnd
          constructor
          · intro i l p hl hp
            cases i with
            | zero =>
              simp only [List.getElem?_cons_zero, Option.some.injEq] at hl hp
              subst hl
              subst hp
              rw [List.zip_cons_cons, List.foldl_cons, h2 a ha, Dict.get?_set_self]
            | succ i =>
              simp only [List.getElem?_cons_succ] at hl hp
              exact h1 i l p hl hp
          · intro l hl
            have hla : a ≠ l := fun h => hl (by simp [h])
            rw [List.zip_cons_cons, List.foldl_cons, h2 l (fun h => hl (by simp [h])), Dict.get?_set_ne _ _ hla]
    exact (key m.labels ps [] hnd).1

example : ∃ l s', l ∈ exMulti.labels ∧ exMulti.predict plainTexts (firstRand : Rand Nat ℝ) [] 0 = (.ok [l], s') :=
  (C119 plainTexts exMulti [] _ exMulti_expectation firstRand firstRand_honest 0).1 rfl (by simp)

/-! ### C120: proportional hazards -/

/-- **C120**: in a Cox regression the chance to be event free at `t` is that of the baseline, raised to the exponential
of the linear predictor. -/
theorem C120 (tx : Texts L) (m : Cox L) (hp : Hazard.Positive m.haz) (xs : Dict L (Covariate L)) (y : ℝ)
    (hy : linearPredict tx m.lc xs = .ok y) :
    ∃ d, m.sampler tx xs = .ok d ∧ ∀ t, 0 ≤ t →
      (ProbabilityTheory.expMeasure d.rr).real {e | ∃ x, d.sample 1 [e] = .ok (.one x) ∧ t < x} =
      ((ProbabilityTheory.expMeasure 1).real
        {e | ∃ x, (HazardDist.mk m.haz 1).sample 1 [e] = .ok (.one x) ∧ t < x}) ^ Real.exp y := by
  refine ⟨⟨m.haz, Real.exp y⟩, by rw [Cox.sampler, hy]; rfl, ?_⟩
  intro t ht
  rw [(Hazard.C110 ⟨m.haz, Real.exp y⟩ hp (Real.exp_pos y)).2.2 t ht, (Hazard.C110 ⟨m.haz, 1⟩ hp one_pos).2.2 t ht,
    ← Real.exp_mul]
  congr 1
  show -(Real.exp y * m.haz.cumHazard t) = -(1 * m.haz.cumHazard t) * Real.exp y
  ring

example : Hazard.Positive (Cox.mk (.exp 2) exRegs).haz ∧ linearPredict plainTexts (Cox.mk (.exp 2) exRegs).lc exCase = .ok 17 :=
  ⟨by show (0 : ℝ) < 2; norm_num, exRegs_predict⟩

/-- **C120** for zero inflated regressions: a draw is zero with the probability that the logistic part predicts, and
otherwise a draw of the Cox regression. -/
theorem C120_zero (tx : Texts L) (m : ZeroCox L) (xs : Dict L (Covariate L)) (p : ℝ)
    (hz : m.zero.logistic tx xs = .ok p) (dc : HazardDist) (hc : m.cox.sampler tx xs = .ok dc) :
    ∃ d, m.sampler tx xs = .ok d ∧
      (∀ u e, ∃ x, d.sample 1 [u] [e] = .ok (.one x) ∧ (u < p → x = 0) ∧
        (p ≤ u → dc.sample 1 [e] = .ok (.one x))) ∧
      (MeasureTheory.volume.restrict (Set.Ico (0 : ℝ) 1)).real {u | u < p} = p := by
  refine ⟨⟨p, dc⟩, by rw [ZeroCox.sampler, hz, hc]; rfl, (Hazard.C112 ⟨p, dc⟩).1, ?_⟩
  obtain ⟨h0, h1⟩ := (C116 tx xs).1 m.zero p hz
  exact (Hazard.C112 ⟨p, dc⟩).2.2 h0.le h1.le

example : ∃ p dc, (ZeroCox.mk ⟨0, exRegs⟩ ⟨.exp 2, exRegs⟩).zero.logistic plainTexts exCase = .ok p ∧
    (ZeroCox.mk ⟨0, exRegs⟩ ⟨.exp 2, exRegs⟩).cox.sampler plainTexts exCase = .ok dc :=
  ⟨expit (17 + 0), ⟨.exp 2, Real.exp 17⟩, by rw [GLM.logistic, GLM.linear, exRegs_predict]; rfl,
    by rw [Cox.sampler, exRegs_predict]; rfl⟩

end Props.Regression
