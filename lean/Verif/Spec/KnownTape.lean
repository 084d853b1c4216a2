import Verif.Spec.Statistical

/-!
# Specification of C102: the draws when the program is packed with a known tape
-/

namespace ZkSaas.Spec

/-- The draws of a client that takes the values with which it packs the program from a fixed sequence, as `ark_std::test_rng()` in
`groth16/src/qap.rs:99` is; everything else is drawn. -/
def knownProgram {F G1 G2 : Type} {N : Nat} (τ : Fin 3 → Fin N → Fin N → F) (x : Draws F G1 G2 N) : Draws F G1 G2 N :=
  (x.1, x.2.1, ![τ 0, τ 1, τ 2, x.2.2.1 3, x.2.2.1 4], x.2.2.2)

end ZkSaas.Spec
