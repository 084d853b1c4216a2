import Mathlib.Algebra.BigOperators.Group.Finset.Basic
import Mathlib.Algebra.Module.Defs

/-!
# Specification: the errors that a debug build notices
-/

namespace ZkSaas.Spec

open Finset

/-- In one of the `N` columns the errors `e p c` of the servers `p < n`, weighted with the powers of `ω`, do not add up to zero. -/
def Notices {F T : Type} [Monoid F] [AddCommMonoid T] [SMul F T] (ω : F) (n N : Nat) (e : Nat → Nat → T) : Prop :=
  ∃ c < N, ∑ p ∈ range n, ω ^ p • e p c ≠ 0

end ZkSaas.Spec
