import Verif.Spec.Graph

/-!
# What is determined once some nodes are fixed
-/

namespace Spec

/-- Starting from the nodes `A`, the nodes of `R` that are not random and whose parents are all settled are
settled. -/
inductive Settled {α : Type _} (E : α → α → Prop) (rv A R : α → Prop) : α → Prop
  | asked {x} : A x → Settled E rv A R x
  | follows {x} : R x → ¬ rv x → (∀ p, E p x → Settled E rv A R p) → Settled E rv A R x

end Spec
