import Verif.Spec.Cheaters
import Verif.Spec.Statistical

/-!
# Specification: what cheating servers have of a session, as a random variable
-/

namespace ZkSaas.Spec

open ZkSaas

variable {F : Type} [Field F] [FftField F] [DecidableEq F] [FixedWire F] {G1 G2 : Type} [AddCommGroup G1] [Module F G1] [DecidableEq G1] [FixedWire G1]
  [AddCommGroup G2] [Module F G2] [DecidableEq G2] [FixedWire G2]

/-- With these draws of the client, a session in which the errors are those of the strategy for `v` ends with the servers `P` having `v`. -/
def Comes (pp : PSS F) (dbg : Bool) (b : Nat) (mats : ConstraintMatrices F) (z : List F) (pk : ProvingKey G1 G2) (gen1 : G1) (gen2 : G2)
    (rng : Nat → Nat → Nat → F) {k : Nat} (P : Fin k → Nat) (σ : Holding F G1 G2 k → Nat → Errors F G1 G2) {N : Nat} (x : Draws F G1 G2 N)
    (v : Holding F G1 G2 k) : Prop :=
  ShowsWith pp dbg b mats z pk gen1 gen2 rng P (σ v) x.1.1 x.1.2 (clientTape x) v

/-- What the servers `P` have of the session with these draws, nothing if it does not end. -/
noncomputable def gained (pp : PSS F) (dbg : Bool) (b : Nat) (mats : ConstraintMatrices F) (z : List F) (pk : ProvingKey G1 G2) (gen1 : G1) (gen2 : G2)
    (rng : Nat → Nat → Nat → F) {k : Nat} (P : Fin k → Nat) (σ : Holding F G1 G2 k → Nat → Errors F G1 G2) {N : Nat} (x : Draws F G1 G2 N) :
    Option (Holding F G1 G2 k) :=
  open Classical in if h : ∃ v, Comes pp dbg b mats z pk gen1 gen2 rng P σ x v then some h.choose else none

/-- No share of `r` is zero. -/
def NoZeroShare (pp : PSS F) (dbg : Bool) (b : Nat) {N : Nat} (x : Draws F G1 G2 N) : Prop :=
  ∀ rs, pp.pack dbg (List.replicate (2 ^ b) x.1.1) (clientTape x).r = .ok rs → ∀ y ∈ rs, y ≠ 0

/-- The strategy decides the course of every session (without zero shares of `r`): it does not choose errors by what those very errors lead to, such
that two ends of a session would justify themselves. -/
def Decided (pp : PSS F) (dbg : Bool) (b : Nat) (mats : ConstraintMatrices F) (z : List F) (pk : ProvingKey G1 G2) (gen1 : G1) (gen2 : G2)
    (rng : Nat → Nat → Nat → F) {k : Nat} (P : Fin k → Nat) (σ : Holding F G1 G2 k → Nat → Errors F G1 G2) (N : Nat) : Prop :=
  ∀ (x : Draws F G1 G2 N) v v', NoZeroShare pp dbg b x → Comes pp dbg b mats z pk gen1 gen2 rng P σ x v →
    Comes pp dbg b mats z pk gen1 gen2 rng P σ x v' → v = v'

/-- The errors are the same in the `j`-th of the twelve messages that a server sends to the king in a session. -/
def SameAt (j : Nat) (E E' : Errors F G1 G2) : Prop :=
  (j < 6 → E.fft j = E'.fft j) ∧ (j = 6 → E.degred = E'.degred) ∧ (j = 7 → E.msm1 0 = E'.msm1 0) ∧ (j = 8 → E.msm1 1 = E'.msm1 1) ∧
    (j = 9 → E.msm2 = E'.msm2) ∧ (j = 10 → E.msm1 2 = E'.msm1 2) ∧ (j = 11 → E.msm1 3 = E'.msm1 3)

/-- The errors in the `j`-th message are chosen by what the servers are dealt and by the answers to the messages before. -/
def Causal {k : Nat} (σ : Holding F G1 G2 k → Nat → Errors F G1 G2) : Prop :=
  ∀ v v', v.dealt = v'.dealt → ∀ j < 12, (∀ i, (v.sent i).take j = (v'.sent i).take j) → ∀ p, SameAt j (σ v p) (σ v' p)

end ZkSaas.Spec
