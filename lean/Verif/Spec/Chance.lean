import Verif.Py.Rand
import Mathlib.MeasureTheory.Measure.Lebesgue.Basic

/-!
# The chance that a program does something

A random generator is ideal in this sense: whatever a step does happens with some probability, and the state it leaves
is distributed as the one it started from, independently of what happened.
-/

namespace Spec

open MeasureTheory

variable {S : Type} [MeasurableSpace S]

/-- `E s s'` says that from the generator state `s` a program does something certain and ends with the state `s'`.
When the state before is distributed as `μ`, this happens with chance `p`, and the state after is then again
distributed as `μ`. -/
def Chance (μ : Measure S) (E : S → S → Prop) (p : ENNReal) : Prop :=
  ∀ B, MeasurableSet B → MeasurableSet {s | ∃ s' ∈ B, E s s'} ∧ μ {s | ∃ s' ∈ B, E s s'} = p * μ B

/-- A program draws a value with the law `P`: it falls into a set with the probability of the set. -/
def Draws {X : Type} [MeasurableSpace X] (μ : Measure S) (R : S → X → S → Prop) (P : Measure X) : Prop :=
  ∀ A, MeasurableSet A → Chance μ (fun s s' => ∃ x ∈ A, R s x s') (P A)

/-- The number whose logarithm is given; NaN counts as impossible. -/
noncomputable def expX : Py.XR ℝ → ENNReal
  | .fin x => ENNReal.ofReal (Real.exp x)
  | .pinf => ⊤
  | .ninf => 0
  | .nan => 0

open Classical in
/-- The sum of the weights of the elements in `A`. -/
noncomputable def mass {H : Type} (l : List (H × ENNReal)) (A : Set H) : ENNReal :=
  (l.map (fun x => if x.1 ∈ A then x.2 else 0)).sum

/-- A probability as numpy holds it. -/
noncomputable def prob : Py.XR ℝ → ENNReal
  | .fin x => ENNReal.ofReal x
  | _ => 0

/-- The indices of a list with their probabilities. -/
noncomputable def indexed (p : List (Py.XR ℝ)) : List (ℕ × ENNReal) := (List.range p.length).zip (p.map prob)

/-- The weighted choices of a generator are independent, and each falls on an index with its probability. -/
def FairPick (μ : Measure S) (r : Py.Rand S ℝ) : Prop :=
  ∀ p, Py.validProbs p = true → ∀ As : List (Set ℕ),
    Chance μ (fun s s' => ∃ is, r.pick p As.length s = (is, s') ∧ List.Forall₂ (fun i A => i ∈ A) is As)
      ((As.map (mass (indexed p))).prod)

/-! ## An ideal generator, for the examples -/

/-- Numbers in the unit interval, uniformly. -/
noncomputable def uniform01 : Measure ℝ := volume.restrict (Set.Ico 0 1)

instance : IsProbabilityMeasure uniform01 := ⟨by simp [uniform01]⟩

/-- A coin that shows `true` with probability `p`: the number is stretched after it was used. -/
noncomputable def coin (p : ℝ) (s : ℝ) : Bool × ℝ := if s < p then (true, s / p) else (false, (s - p) / (1 - p))

/-- An index with the probabilities of a list, of which those before have the sum `c`. -/
noncomputable def pickOne : List ℝ → ℝ → ℝ → ℕ × ℝ
  | [], _, s => (0, s)
  | p :: ps, c, s => if s < c + p then (0, (s - c) / p) else ((pickOne ps (c + p) s).1 + 1, (pickOne ps (c + p) s).2)

/-- Several indices. -/
noncomputable def pickMany (ps : List ℝ) : ℕ → ℝ → List ℕ × ℝ
  | 0, s => ([], s)
  | n + 1, s =>
    ((pickOne ps 0 s).1 :: (pickMany ps n (pickOne ps 0 s).2).1, (pickMany ps n (pickOne ps 0 s).2).2)

/-- The real part of a number. -/
noncomputable def toReal : Py.XR ℝ → ℝ
  | .fin w => w
  | _ => 0

/-- The generator of the unit interval.  (`random` hands out the number itself.) -/
noncomputable def rand01 : Py.Rand ℝ ℝ where
  random := fun s => (s, s)
  pick := fun p n s => pickMany (p.map toReal) n s

end Spec
