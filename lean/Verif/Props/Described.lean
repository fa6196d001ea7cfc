import Verif.Model.Described
import Verif.Props.Dist
import Verif.Props.Converter

/-!
# Search points become values of the parameters: C209
-/

namespace Props.Described

open Py Model Model.Dist Model.Described

variable {N : Type}

theorem converter_strict {d : Dom N ℝ} (h : Converter.Proper d) {u : ℝ} (h0 : 0 < u) (h1 : u < 1) :
    ∃ v, (Model.getConverter d).uniform2value (.fin u) = .fin v ∧ XR.lt d.lower (.fin v) = true ∧
      XR.lt (.fin v) d.upper = true := by
  rcases h.shapes with ⟨l, w, hlw, hl, hw, hc⟩ | ⟨l, s, hs, hl, hw, hc⟩ | ⟨w, s, hs, hl, hw, hc⟩ | ⟨s, m, hs, hl, hw, hc⟩
  · refine ⟨u * (w - l) + l, by rw [hc, Converter.ff_u2v], ?_, ?_⟩
    · rw [hl, XR.lt_fin, decide_eq_true_eq]
      nlinarith
    · rw [hw, XR.lt_fin, decide_eq_true_eq]
      nlinarith
  · refine ⟨_, by rw [hc, Converter.fi_u2v _ _ h1], ?_, ?_⟩
    · rw [hl, XR.lt_fin, decide_eq_true_eq]
      have := Real.log_neg (x := 1 - u) (by linarith) (by linarith)
      nlinarith
    · rw [hw]; rfl
  · refine ⟨_, by rw [hc, Converter.if_u2v _ _ h0], ?_, ?_⟩
    · rw [hl]; rfl
    · rw [hw, XR.lt_fin, decide_eq_true_eq]
      have := Real.log_neg h0 h1
      nlinarith
  · rcases le_total u (1 / 2) with h | h
    · exact ⟨_, by rw [hc, Converter.ii_u2v_lo _ _ h h0], by rw [hl]; rfl, by rw [hw]; rfl⟩
    · exact ⟨_, by rw [hc, Converter.ii_u2v_hi _ _ h h1], by rw [hl]; rfl, by rw [hw]; rfl⟩

theorem interval_lt {d : SpDouble} (hd : d.Valid) : XR.lt d.interval.1 d.interval.2 = true := by
  have hs := hd.2
  rw [SpDouble.interval, if_pos hd]
  cases h : d.family <;> simp [SpDouble.place, Family.ends, XR.lt, hs]

/-- **C209** (partial): for a continuous distribution with parameters that scipy accepts, and a mean and a positive
deviation that are finite, every number strictly inside of the unit interval becomes a value with a finite log density. -/
theorem C209_partial {d : SpDouble} (hd : d.Valid) {m s : ℝ} (hs : 0 < s) (x : N) {u : ℝ} (h0 : 0 < u) (h1 : u < 1) :
    ∃ con v l, Described.getConverter (domainOf x (.double d (.fin m) (.fin s))) = .ok con ∧
      con.uniform2value (.fin u) = .fin v ∧ Described.logpdf (.double d (.fin m) (.fin s)) v = .ok (.fin l) := by
  have hp : Converter.Proper (⟨x, d.interval.1, d.interval.2, .fin m, .fin s⟩ : Dom N ℝ) :=
    ⟨interval_lt hd, ⟨m, rfl⟩, s, hs, rfl⟩
  obtain ⟨v, h2, h3, h4⟩ := converter_strict hp h0 h1
  obtain ⟨l, hl⟩ := (Dist.C144 hd v).1 h3 h4
  refine ⟨_, v, l, ?_, h2, by rw [Described.logpdf, hl]⟩
  simp only [Described.getConverter, domainOf, RV.ends, RV.mean, RV.std, Model.getConverter]
  split <;> split <;> rfl

example : (⟨.gamma 2, 0, 1⟩ : SpDouble).Valid := ⟨two_pos, one_pos⟩

/-- **C209** (partial): a constant has only its own value. -/
theorem C209_const_partial (k : ℝ) (x : N) (u : ℝ) : ∃ con, Described.getConverter (domainOf x (.const k)) = .ok con ∧
    con.uniform2value (.fin u) = .fin k ∧ Described.logpdf (.const k) k = .ok (.fin 0) := by
  refine ⟨.FF (.fin k) (.fin k), by simp [Described.getConverter, domainOf, RV.ends, XR.isInf], ?_, ?_⟩
  · rw [Converter.ff_u2v]
    simp
  · rw [Described.logpdf, Const.logpdf, if_pos rfl]
    rfl

/-- **C209** (partial): for a number of successes, only the numbers that are multiples of one over the size become values
with a finite log density. -/
theorem C209_integer_partial {n : ℕ} {p : ℝ} (hp : 0 < p) (hp1 : p < 1) (m s : XR ℝ) (x : N) {u : ℝ} (h0 : 0 ≤ u)
    (h1 : u ≤ 1) : ∃ con, Described.getConverter (domainOf x (.integer (.binom n p) m s)) = .ok con ∧
      con.uniform2value (.fin u) = .fin (u * n) ∧
      ((∃ l, Described.logpdf (.integer (.binom n p) m s) (u * n) = .ok (.fin l)) ↔ ∃ z : ℤ, u * n = z) := by
  have e : ((.fin (-1) : XR ℝ) + .fin 1) = .fin 0 := by
    show XR.fin (-1 + 1 : ℝ) = _
    norm_num
  refine ⟨.FF (.fin 0) (.fin n), ?_, ?_, ?_⟩
  · simp [Described.getConverter, domainOf, RV.ends, SpInteger.interval, SpInteger.scipyInterval, XR.isInf]
  · rw [Converter.ff_u2v]
    simp
  · constructor
    · rintro ⟨l, h⟩
      by_contra hz
      rw [Described.logpdf, if_neg (fun h2 => hz ⟨_, h2.symm⟩)] at h
      cases h
    · rintro ⟨z, hz⟩
      rw [Described.logpdf, hz, Int.floor_intCast, if_pos rfl, SpInteger.logpdf]
      have hz0 : 0 ≤ z := by
        have : (0 : ℝ) ≤ z := by rw [← hz]; positivity
        exact_mod_cast this
      have hzn : z ≤ n := by
        have : (z : ℝ) ≤ n := by
          rw [← hz]
          exact mul_le_of_le_one_left (Nat.cast_nonneg n) h1
        exact_mod_cast this
      have hpos : 0 < (SpInteger.binom n p).pmf z := by
        rw [SpInteger.pmf, if_pos ⟨hz0, hzn⟩]
        have hc : 0 < n.choose z.toNat := Nat.choose_pos (by omega)
        have h2 : 0 < 1 - p := by linarith
        positivity
      obtain ⟨y, hy⟩ := Dist.npLog_pos hpos
      exact ⟨y, by rw [hy]⟩

example : (0 : ℝ) < 1 / 2 ∧ (1 / 2 : ℝ) < 1 ∧ (0 : ℝ) ≤ 1 / 3 ∧ (1 / 3 : ℝ) ≤ 1 := by norm_num

open Classical in
/-- **C209** (partial): the converters of a model are made unless a root is categorical. -/
theorem C209_converters_partial (roots : List (N × RV)) :
    if ∃ r ∈ roots, ∃ kv, r.2 = .cat kv then converters roots = .error .TypeError
    else ∃ cs, converters roots = .ok cs ∧ cs.length = roots.length := by
  have hone : ∀ r : N × RV, if ∃ kv, r.2 = .cat kv then Described.getConverter (domainOf r.1 r.2) = .error .TypeError
      else ∃ c, Described.getConverter (domainOf r.1 r.2) = .ok c := by
    rintro ⟨x, d⟩
    cases d with
    | cat kv => rw [if_pos ⟨kv, rfl⟩]; rfl
    | _ =>
      rw [if_neg (by rintro ⟨kv, h⟩; cases h)]
      simp only [Described.getConverter, domainOf, RV.ends]
      split <;> first | exact ⟨_, rfl⟩ | (split <;> exact ⟨_, rfl⟩)
  induction roots with
  | nil => rw [if_neg (by simp)]; exact ⟨[], rfl, rfl⟩
  | cons r l ih =>
    have hr := hone r
    have e : converters (r :: l) = (do
      let c ← Described.getConverter (domainOf r.1 r.2)
      let cs ← converters l
      pure (c :: cs)) := by simp only [converters, List.mapM_cons]
    by_cases h1 : ∃ kv, r.2 = .cat kv
    · rw [if_pos h1] at hr
      rw [if_pos ⟨r, by simp, h1⟩, e, hr]
      rfl
    · rw [if_neg h1] at hr
      obtain ⟨c, hc⟩ := hr
      by_cases h2 : ∃ r ∈ l, ∃ kv, r.2 = .cat kv
      · rw [if_pos h2] at ih
        obtain ⟨r', h3, h4⟩ := h2
        rw [if_pos ⟨r', by simp [h3], h4⟩, e, hc, ih]
        rfl
      · rw [if_neg h2] at ih
        obtain ⟨cs, h3, h4⟩ := ih
        rw [if_neg]
        · exact ⟨c :: cs, by rw [e, hc, h3]; rfl, by simp [h4]⟩
        · rintro ⟨r', h5, h6⟩
          rcases List.mem_cons.1 h5 with rfl | h5
          · exact h1 h6
          · exact h2 ⟨r', h5, h6⟩

/-- **C209** (refuted): a number of successes gets a value between the integers, which is impossible, and a categorical
root has no ends, so that no converter can be made. -/
theorem C209_refuted : (∃ con v, Described.getConverter (domainOf "x"
        (.integer (.binom 1 (1 / 2)) (.fin (1 / 2)) (.fin (1 / 2)))) = .ok con ∧
      con.uniform2value (.fin (1 / 3)) = .fin v ∧
      Described.logpdf (.integer (.binom 1 (1 / 2)) (.fin (1 / 2)) (.fin (1 / 2))) v = .ok .ninf) ∧
    ∀ kv, converters [("x", .cat kv)] = .error .TypeError := by
  constructor
  · obtain ⟨con, h1, h2, h3⟩ := C209_integer_partial (n := 1) (p := 1 / 2) (by norm_num) (by norm_num) (.fin (1 / 2))
      (.fin (1 / 2)) "x" (u := 1 / 3) (by norm_num) (by norm_num)
    refine ⟨con, _, h1, h2, ?_⟩
    rw [Described.logpdf, if_neg]
    intro h
    have hf : ⌊(1 / 3 * ((1 : ℕ) : ℝ) : ℝ)⌋ = 0 := by
      rw [Int.floor_eq_zero_iff]
      constructor <;> norm_num
    rw [hf] at h
    norm_num at h
  · intro kv
    have h := C209_converters_partial [("x", RV.cat kv)]
    rwa [if_pos ⟨("x", RV.cat kv), by simp, kv, rfl⟩] at h

end Props.Described
