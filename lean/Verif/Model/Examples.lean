import Verif.Model.Ark
import Mathlib.Data.ZMod.Basic
import Mathlib.Algebra.Field.ZMod
import Mathlib.Tactic.NormNum.Prime
import Mathlib.Tactic.IntervalCases

/-!
# Concrete fields for the non-vacuity examples

`ZMod 17` is the field of the repository's own Gao test (`secret-sharing/src/gao.rs:91-95`: modulus 17,
generator 3).
-/

namespace ZkSaas

instance fact17 : Fact (Nat.Prime 17) := ⟨by norm_num⟩

/-- `secret-sharing/src/gao.rs:91-95` test field `F17`: two-adicity 4, generator 3 (of order 16). -/
instance fft17 : FftField (ZMod 17) where
  TWO_ADICITY := 4
  ROOT := 3
  GENERATOR := 3
  root_primitive := by
    apply IsPrimitiveRoot.mk_of_lt
    · norm_num
    · decide
    · intro l h1 h2
      norm_num at h2
      interval_cases l <;> decide
  generator_ne_zero := by decide
  generator_generates := by
    have : ∀ x : ZMod 17, x ≠ 0 → ∃ k : Fin 16, (3 : ZMod 17) ^ (k : Nat) = x := by decide
    intro x hx
    obtain ⟨k, hk⟩ := this x hx
    exact ⟨k, hk⟩

end ZkSaas
