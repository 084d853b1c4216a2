import Verif.Model.Qap
import Verif.Spec.R1cs

/-!
# Specification: a constraint system with an assignment
-/

namespace ZkSaas.Spec

/-- One row per constraint, no column beyond the assignment `z`, whose first entry is the constant one and whose public part is not
longer than all of it. -/
structure IsR1cs {F : Type} [Field F] (mats : ConstraintMatrices F) (z : List F) : Prop where
  rowsA : mats.a.length = mats.numConstraints
  rowsB : mats.b.length = mats.numConstraints
  colsA : ColumnsBelow z.length mats.a
  colsB : ColumnsBelow z.length mats.b
  colsC : ColumnsBelow z.length mats.c
  inputs : 1 ≤ mats.numInstanceVariables
  wires : mats.numInstanceVariables ≤ z.length
  one : z.getD 0 0 = 1

end ZkSaas.Spec
