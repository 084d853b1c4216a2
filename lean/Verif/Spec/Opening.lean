import Mathlib.Algebra.Field.Basic
import Mathlib.Data.Nat.Cast.Defs

/-!
# Specification of opening

The weights of interpolation on the `n`-th roots of unity: a polynomial with at most `n` coefficients and values `y_i` at `ω^i` has the
value `∑ weight ω n i x * y_i` at a point `x` that is no such root.
-/

namespace ZkSaas.Spec

/-- The Lagrange polynomial of the node `ω^i` among the `n`-th roots of unity, at `x`, in closed form. -/
def weight {F : Type} [Field F] (ω : F) (n i : Nat) (x : F) : F := ω ^ i * (x ^ n - 1) / (n * (x - ω ^ i))

end ZkSaas.Spec
