import Verif.Model.Prelude

/-!
# Specification of C104: how many multiplications a computation does
-/

namespace ZkSaas.Spec

/-- A computation next to a counter. -/
abbrev Counted (α : Type) := StateT Nat Res α

/-- `x` is the computation `f` with a counter beside it: it gives what `f` gives, panics when `f` panics, and adds `N` to the counter. -/
def CountsAs {α : Type} (x : Counted α) (f : Res α) (N : Nat) : Prop :=
  ∀ c, x.run c = f.map fun r => (r, c + N)

end ZkSaas.Spec
