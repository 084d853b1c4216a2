import Verif.Model.Example
import Verif.Spec.Groth16
import Verif.Spec.Net

/-!
# Specification: sessions that work and sessions in which somebody is left behind
-/

namespace ZkSaas.Spec

variable {F : Type} [Field F] [DecidableEq F] [FftField F] [FixedWire F] {G1 G2 : Type} [AddCommGroup G1] [Module F G1] [DecidableEq G1]
  [FixedWire G1] [AddCommGroup G2] [Module F G2] [DecidableEq G2] [FixedWire G2]

/-- The client deals, the `n` servers always end with some answers, and these open to a proof that is accepted under every pairing. -/
def SessionWorks (GT : Type) [AddCommGroup GT] [Module F GT] (pp : PSS F) (dbg : Bool) (n copies : Nat) (mats : ConstraintMatrices F) (z : List F)
    (pk : ProvingKey G1 G2) (gen1 : G1) (gen2 : G2) (r s : F) (tape : ClientTape F G1 G2) (rng : Nat → Nat → Nat → F) : Prop :=
  ∃ (ins : Nat → ServerInput F G1 G2) (outs : Nat → G1 × G2 × G1) (pA : G1) (pB : G2) (pC : G1),
    pp.deal dbg copies mats z pk gen1 gen2 r s tape = .ok ((List.range n).map ins) ∧
    AlwaysYields (Net.init fun i : Fin n => (ins i).run pp dbg n i rng) (fun i => outs i) ∧
    pp.openProof dbg ((List.range n).map outs) = .ok (pA, pB, pC) ∧
    ∀ e : G1 →ₗ[F] G2 →ₗ[F] GT, Verifies e pk.vk ((z.take mats.numInstanceVariables).drop 1) pA pB pC

/-- The client deals, but in no execution on a reliable network do all `n` servers end with an answer. -/
def SessionNeverEnds (pp : PSS F) (dbg : Bool) (n copies : Nat) (mats : ConstraintMatrices F) (z : List F)
    (pk : ProvingKey G1 G2) (gen1 : G1) (gen2 : G2) (r s : F) (tape : ClientTape F G1 G2) (rng : Nat → Nat → Nat → F) : Prop :=
  ∃ ins : Nat → ServerInput F G1 G2, pp.deal dbg copies mats z pk gen1 gen2 r s tape = .ok ((List.range n).map ins) ∧
    ∀ k c, GSteps Reliable k (Net.init fun i : Fin n => (ins i).run pp dbg n i rng) c → ∃ i, ∀ v, c.procs i ≠ .done (.ok v)

/-- The tape on which the random values for `r` are `τ`. -/
def withR {l : Nat} (tape : ClientTape F G1 G2) (τ : Fin l → F) : ClientTape F G1 G2 :=
  { tape with r := fun i => if h : i < l then τ ⟨i, h⟩ else 0 }

end ZkSaas.Spec
