import Verif.Spec.Cheaters
import Verif.Spec.Noticed

/-!
# Specification: sessions in which errors are noticed
-/

namespace ZkSaas.Spec

open ZkSaas Finset

/-- Whatever the schedule of a reliable network, no party ever finishes successfully. -/
def NobodyFinishes {n : Nat} {α : Type} (c : Net n α) : Prop := ∀ k c', GSteps Reliable k c c' → ∀ i v, c'.procs i ≠ .done (.ok v)

/-- In one of the twelve messages of a session the errors of the servers, weighted with the powers of the generator of the shares, do not add up to zero:
in one of the `N` columns of a transform or of the degree reduction, or in a multi-scalar multiplication. -/
def NoticedIn {F : Type} [Field F] {G1 G2 : Type} [AddCommGroup G1] [Module F G1] [AddCommGroup G2] [Module F G2] (ω : F) (n N : Nat)
    (E : Nat → Errors F G1 G2) : Prop :=
  (∃ k < 6, Notices ω n N fun p => (E p).fft k) ∨ Notices ω n N (fun p => (E p).degred) ∨ (∃ k < 4, ∑ p ∈ range n, ω ^ p • (E p).msm1 k ≠ 0) ∨
    ∑ p ∈ range n, ω ^ p • (E p).msm2 ≠ 0

end ZkSaas.Spec
