import Verif.Model.Pss
import Verif.Spec.Poly
import Mathlib.Algebra.Polynomial.FieldDivision

/-!
# `secret-sharing/src/gao.rs`

`ark_poly::univariate::DensePolynomial<F>` is external; its values are represented by Mathlib polynomials over the
field, `degree()` (0 for the zero polynomial) by `natDegree`, `/` and `divide_with_q_and_r` by Euclidean division.
-/

namespace ZkSaas

open Polynomial

variable {F : Type} [Field F] [DecidableEq F]

/-- `ark_poly` `divide_with_q_and_r`: zero dividend ⇒ `(0,0)`; zero divisor ⇒ panic; otherwise Euclidean division. -/
noncomputable def divideWithQAndR (a b : F[X]) : Res (F[X] × F[X]) :=
  if a = 0 then .ok (0, 0) else if b = 0 then panic' else .ok (a / b, a % b)

/-- `secret-sharing/src/gao.rs:32-42`, the loop of `partial_xgcd`. The case `prev_r = r = 0` with `stop = 0`, in which
the Rust loop spins forever, is reported as a panic. -/
noncomputable def xgcdLoop (stop : Nat) (r prevR s prevS : F[X]) : Res (F[X] × F[X]) :=
  if stop ≤ r.natDegree then
    if r = 0 then panic'
    else xgcdLoop stop (prevR - prevR / r * r) r (prevS - prevR / r * s) s
  else .ok (r, s)
termination_by r.degree
decreasing_by
  rename_i h
  have : prevR - prevR / r * r = prevR % r := by
    rw [EuclideanDomain.mod_eq_sub_mul_div, mul_comm]
  rw [this]
  exact EuclideanDomain.mod_lt _ h

/-- `secret-sharing/src/gao.rs:11-45` `partial_xgcd` (`&self` is unused). -/
noncomputable def partialXgcd (a b : F[X]) (codelength dimension : Nat) : Res (F[X] × F[X]) :=
  let stop := (dimension + codelength) / 2
  xgcdLoop stop b a 1 0

/-- `secret-sharing/src/gao.rs:47-84` `decode_to_message`. -/
noncomputable def PSS.decodeToMessage (pp : PSS F) (receivedCode : List F) (codelength dimension : Nat) :
    Res F[X] := do
  let r := Spec.toPoly (pp.share.ifft receivedCode)
  let z := X ^ pp.share.size - C (pp.share.offset ^ pp.share.size)
  let (q1, q0) ← partialXgcd z r codelength dimension
  let (h, rem) ← divideWithQAndR q1 q0
  assert (decide (rem = 0))
  pure h

end ZkSaas
