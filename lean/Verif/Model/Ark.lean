import Verif.Model.Prelude
import Mathlib.RingTheory.RootsOfUnity.PrimitiveRoots
import Mathlib.Algebra.Module.Basic
import Mathlib.Algebra.BigOperators.Group.Finset.Basic

/-!
# Contract of the arkworks functions the repository calls

arkworks (`ark-ff`, `ark-poly`, `ark-ec` 0.4) is a dependency: its code is not in `/repo`. The definitions
below are the documented contract of the functions used, including the points where the
repository depends on details (`fft_in_place`/`ifft_in_place` *resize*, i.e. pad or truncate).
-/

namespace ZkSaas

open Finset

/-- `ark_ff::FftField`: the constants of an FFT-friendly field with the laws arkworks documents for them
(`TWO_ADIC_ROOT_OF_UNITY` is a primitive `2^TWO_ADICITY`-th root of unity, `GENERATOR` generates the
multiplicative group). Fields with a "large subgroup" are not modelled. -/
class FftField (F : Type) [Field F] where
  TWO_ADICITY : Nat
  ROOT : F
  GENERATOR : F
  root_primitive : IsPrimitiveRoot ROOT (2 ^ TWO_ADICITY)
  generator_ne_zero : GENERATOR ≠ 0
  generator_generates : ∀ x : F, x ≠ 0 → ∃ k : Nat, GENERATOR ^ k = x

/-- `ark_poly::Radix2EvaluationDomain<F>`. -/
structure Domain (F : Type) where
  size : Nat
  groupGen : F
  groupGenInv : F
  sizeInv : F
  offset : F
  offsetInv : F
  deriving DecidableEq

variable {F : Type} [Field F]

/-- `F::get_root_of_unity(2^k)`: square `TWO_ADIC_ROOT_OF_UNITY` `TWO_ADICITY - k` times. -/
def rootOfUnity [FftField F] (k : Nat) : F :=
  (fun x : F => x * x)^[FftField.TWO_ADICITY F - k] (FftField.ROOT : F)

/-- `Radix2EvaluationDomain::new(num_coeffs)`: rounds up to a power of two, `None` beyond the two-adicity. -/
def Domain.new [FftField F] (numCoeffs : Nat) : Option (Domain F) :=
  let k := Nat.clog 2 numCoeffs
  if k > FftField.TWO_ADICITY F then none
  else some
    { size := 2 ^ k
      groupGen := rootOfUnity k
      groupGenInv := (rootOfUnity k)⁻¹
      sizeInv := ((2 ^ k : Nat) : F)⁻¹
      offset := 1
      offsetInv := 1 }

/-- `get_coset(offset)`: `None` when the offset has no inverse. -/
def Domain.getCoset [DecidableEq F] (d : Domain F) (g : F) : Option (Domain F) :=
  if g = 0 then none else some { d with offset := g, offsetInv := g⁻¹ }

/-- `element(i)` = `offset * group_gen^i`; `elements()` lists them for `i < size`. -/
def Domain.element (d : Domain F) (i : Nat) : F := d.offset * d.groupGen ^ i

/-- `elements().collect()`. -/
def Domain.elements (d : Domain F) : List F := (List.range d.size).map d.element

section coeffs
variable {T : Type} [AddCommGroup T] [Module F T]

/-- The value at `x` of the polynomial with coefficient list `c`, lowest degree first. -/
def evalAt (c : List T) (x : F) : T := ∑ j ∈ range c.length, x ^ j • c.getD j 0

/-- `fft_in_place`: resize the coefficients to the domain size (truncating longer inputs!) and
evaluate at every domain element in order. (The `degree_aware` path for short inputs computes the same.) -/
def Domain.fft (d : Domain F) (c : List T) : List T :=
  (List.range d.size).map fun i => evalAt (resize c d.size 0) (d.element i)

/-- `ifft_in_place`: resize the evaluations to the domain size, inverse DFT, divide by `offset^j`. -/
def Domain.ifft (d : Domain F) (e : List T) : List T :=
  (List.range d.size).map fun j =>
    (d.offsetInv ^ j * d.sizeInv) • evalAt (resize e d.size 0) (d.groupGenInv ^ j)

/-- `Radix2EvaluationDomain::distribute_powers(coeffs, g)`: coefficient `i` times `g^i`. -/
def distributePowers (c : List T) (g : F) : List T := c.mapIdx fun i x => g ^ i • x

end coeffs

/-- `evaluate_vanishing_polynomial(tau)` = `tau^size - offset^size`. -/
def Domain.evalVanishing (d : Domain F) (tau : F) : F := tau ^ d.size - d.offset ^ d.size

/-- `ark_ff::batch_inversion`: inverts every non-zero entry and leaves zeros (`0⁻¹ = 0` in Lean). -/
def batchInversion (v : List F) : List F := v.map (·⁻¹)

/-- `VariableBaseMSM::msm(bases, scalars)`: `Err` on a length mismatch, otherwise `Σ scalars[i]·bases[i]`. -/
def msm {G : Type} [AddCommGroup G] [Module F G] (bases : List G) (scalars : List F) : Res G :=
  if bases.length = scalars.length then .ok ((scalars.zip bases).map fun p => p.1 • p.2).sum
  else .error (.net .generic)

end ZkSaas
