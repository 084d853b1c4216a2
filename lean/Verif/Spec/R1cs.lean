import Mathlib.Algebra.Field.Defs
import Mathlib.Algebra.BigOperators.Group.List.Basic

/-!
# Specification: rank-1 constraint systems

A matrix is a list of sparse rows of `(coefficient, column)` pairs.
-/

namespace ZkSaas.Spec

variable {F : Type} [Field F]

/-- Inner product of a sparse row with the assignment `z`. -/
def dot (row : List (F × Nat)) (z : List F) : F := (row.map fun t => t.1 * z.getD t.2 0).sum

/-- The assignment `z` satisfies the `n` constraints `⟨Aᵢ,z⟩·⟨Bᵢ,z⟩ = ⟨Cᵢ,z⟩`. -/
def Satisfies (n : Nat) (A B C : List (List (F × Nat))) (z : List F) : Prop :=
  ∀ i < n, dot (A.getD i []) z * dot (B.getD i []) z = dot (C.getD i []) z

/-- Every column used in the rows is below `k`. -/
def ColumnsBelow (k : Nat) (M : List (List (F × Nat))) : Prop := ∀ row ∈ M, ∀ t ∈ row, t.2 < k

end ZkSaas.Spec
