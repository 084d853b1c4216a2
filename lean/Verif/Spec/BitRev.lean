import Mathlib.Data.Nat.Bitwise

/-! # Specification: bit reversal -/

namespace ZkSaas.Spec

/-- The number whose `k` binary digits are those of `i` in reverse order. -/
def bitRev : Nat → Nat → Nat
  | 0, _ => 0
  | k + 1, i => (i % 2) * 2 ^ k + bitRev k (i / 2)

end ZkSaas.Spec
