import Mathlib.Algebra.Polynomial.Basic
import Mathlib.Algebra.Polynomial.Eval.Defs
import Mathlib.Algebra.Polynomial.Degree.Defs
import Mathlib.Algebra.BigOperators.Group.Finset.Basic

/-!
# Specification: the polynomial a coefficient list denotes
-/

namespace ZkSaas.Spec

open Finset Polynomial

/-- The polynomial with coefficients `p`, constant term first. -/
noncomputable def toPoly {F : Type} [Semiring F] (p : List F) : F[X] :=
  ∑ j ∈ range p.length, C (p.getD j 0) * X ^ j

/-- `A` has degree below `m` and takes the value `v i` at `ω^i` for every `i < m`. -/
def Interpolates {F : Type} [Semiring F] (ω : F) (m : Nat) (v : Nat → F) (A : F[X]) : Prop :=
  A.degree < m ∧ ∀ i < m, A.eval (ω ^ i) = v i

end ZkSaas.Spec
