import Mathlib.Algebra.Module.Basic
import Mathlib.Algebra.BigOperators.Group.Finset.Basic

/-!
# Specification of packed secret sharing

Written without reference to the model: a list of `4l` values is a degree-`<d` sharing of `l` secrets when one
polynomial with fewer than `d+1` coefficients takes the values of the shares at `1, ω, …, ω^(4l-1)` and the
secrets at `g, gω², …, gω^(2(l-1))`.
-/

namespace ZkSaas.Spec

open Finset

variable {F : Type} [Field F] {T : Type} [AddCommGroup T] [Module F T]

/-- Value at `x` of the polynomial `c₀ + c₁X + … + c_{d-1}X^{d-1}` with coefficients in a module. -/
def pval (c : Nat → T) (d : Nat) (x : F) : T := ∑ j ∈ range d, x ^ j • c j

/-- `shares` is a sharing of `secrets` by a polynomial with `d` coefficients. `ω` generates the `4l` share
points, the secrets sit on the coset `g⟨ω²⟩`. -/
def Sharing (ω g : F) (l d : Nat) (shares secrets : List T) : Prop :=
  shares.length = 4 * l ∧ secrets.length = l ∧
  ∃ c : Nat → T,
    (∀ i < 4 * l, shares.getD i 0 = pval c d (ω ^ i)) ∧
    (∀ k < l, secrets.getD k 0 = pval c d (g * (ω ^ 2) ^ k))

end ZkSaas.Spec
