import Verif.Model.ProvingKey
import Verif.Spec.Poly
import Verif.Spec.R1cs
import Mathlib.Algebra.Module.LinearMap.Basic
import Mathlib.LinearAlgebra.BilinearMap

/-!
# Specification: Groth16

The quadratic arithmetic program of a constraint system, the keys of the trusted set-up with the circom reduction, and the
verification equation, written additively.
-/

namespace ZkSaas.Spec

open Finset Polynomial

variable {F : Type} [Field F]

/-- Entry `(i, k)` of a sparse matrix. -/
def entry [DecidableEq F] (M : List (List (F × Nat))) (i k : Nat) : F :=
  (((M.getD i []).filter fun t => t.2 = k).map Prod.fst).sum

/-- The polynomials of the quadratic arithmetic program with `nw` wires: `a k` takes on the domain the values of column `k` of
the first matrix, followed by one row `e_k` per instance variable; `b k` and `c k` those of the other two matrices. -/
structure IsQap [DecidableEq F] (mats : ConstraintMatrices F) (nw : Nat) (ω : F) (m : Nat) (a b c : Nat → F[X]) : Prop where
  a : ∀ k < nw, Interpolates ω m (fun i => if i < mats.numConstraints then entry mats.a i k else
    if i = mats.numConstraints + k ∧ k < mats.numInstanceVariables then 1 else 0) (a k)
  b : ∀ k < nw, Interpolates ω m (fun i => if i < mats.numConstraints then entry mats.b i k else 0) (b k)
  c : ∀ k < nw, Interpolates ω m (fun i => if i < mats.numConstraints then entry mats.c i k else 0) (c k)

/-- The secrets of the set-up. -/
structure Toxic (F : Type) where
  alpha : F
  beta : F
  gamma : F
  delta : F
  tau : F

variable {G1 G2 GT : Type} [AddCommGroup G1] [Module F G1] [AddCommGroup G2] [Module F G2] [AddCommGroup GT] [Module F GT]

/-- The proving key the set-up makes of the secrets `t` for a program with `nw` wires, of which `ni` are public, and domain size
`m`. `w` is the primitive `2m`-th root of unity. The `h` query is the circom one: the coefficients `τ^k/δ`, `k < 2m-1`, after an
inverse Fourier transform of size `2m`, at the odd positions. -/
structure IsCircomKey (t : Toxic F) (g1 : G1) (g2 : G2) (nw ni m : Nat) (w : F) (a b c : Nat → F[X]) (pk : ProvingKey G1 G2) : Prop where
  alphaG1 : pk.vk.alphaG1 = t.alpha • g1
  betaG1 : pk.betaG1 = t.beta • g1
  betaG2 : pk.vk.betaG2 = t.beta • g2
  gammaG2 : pk.vk.gammaG2 = t.gamma • g2
  deltaG1 : pk.deltaG1 = t.delta • g1
  deltaG2 : pk.vk.deltaG2 = t.delta • g2
  gammaAbcG1 : pk.vk.gammaAbcG1 = (List.range ni).map fun k =>
    ((t.beta * (a k).eval t.tau + t.alpha * (b k).eval t.tau + (c k).eval t.tau) / t.gamma) • g1
  aQuery : pk.aQuery = (List.range nw).map fun k => (a k).eval t.tau • g1
  bG1Query : pk.bG1Query = (List.range nw).map fun k => (b k).eval t.tau • g1
  bG2Query : pk.bG2Query = (List.range nw).map fun k => (b k).eval t.tau • g2
  lQuery : pk.lQuery = (List.range (nw - ni)).map fun k =>
    ((t.beta * (a (ni + k)).eval t.tau + t.alpha * (b (ni + k)).eval t.tau + (c (ni + k)).eval t.tau) / t.delta) • g1
  hQuery : pk.hQuery = (List.range m).map fun i =>
    ((∑ k ∈ range (2 * m - 1), t.tau ^ k / t.delta * (w⁻¹ ^ (2 * i + 1)) ^ k) / (2 * m : Nat)) • g1

/-- The verification equation `e(A, B) = e(α, β) + e(Σ pubᵢ·γabcᵢ, γ) + e(C, δ)`, the public inputs without the leading one. -/
def Verifies (e : G1 →ₗ[F] G2 →ₗ[F] GT) (vk : VerifyingKey G1 G2) (pub : List F) (A : G1) (B : G2) (C : G1) : Prop :=
  pub.length + 1 = vk.gammaAbcG1.length ∧
  e A B = e vk.alphaG1 vk.betaG2 +
    e (vk.gammaAbcG1.getD 0 0 + ∑ i ∈ range pub.length, pub.getD i 0 • vk.gammaAbcG1.getD (i + 1) 0) vk.gammaG2 + e C vk.deltaG2

/-- The proof of Groth16 (EUROCRYPT 2016, section 3.2) for the assignment `z` and the prover's random `r` and `s`. `hz` is the value
at `τ` of the quotient polynomial times the vanishing polynomial. -/
structure IsGroth16Proof (t : Toxic F) (g1 : G1) (g2 : G2) (ni : Nat) (a b c : Nat → F[X]) (z : List F) (hz r s : F)
    (A : G1) (B : G2) (C : G1) : Prop where
  A : A = (t.alpha + (∑ k ∈ range z.length, z.getD k 0 * (a k).eval t.tau) + r * t.delta) • g1
  B : B = (t.beta + (∑ k ∈ range z.length, z.getD k 0 * (b k).eval t.tau) + s * t.delta) • g2
  C : C = (((∑ k ∈ Ico ni z.length, z.getD k 0 *
        (t.beta * (a k).eval t.tau + t.alpha * (b k).eval t.tau + (c k).eval t.tau)) + hz) / t.delta +
      s * (t.alpha + (∑ k ∈ range z.length, z.getD k 0 * (a k).eval t.tau) + r * t.delta) +
      r * (t.beta + (∑ k ∈ range z.length, z.getD k 0 * (b k).eval t.tau) + s * t.delta) - r * s * t.delta) • g1

end ZkSaas.Spec
