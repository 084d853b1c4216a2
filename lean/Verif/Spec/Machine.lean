import Verif.Model.Machine
import Verif.Spec.Chance

/-!
# Specification: computing with machine integers makes no difference
-/

namespace ZkSaas.Spec

/-- Two states of a network look alike from outside: the same messages are in transit, the same parties have ended, with the same results, and either
both or none of the networks can go on. -/
def LookAlike {n : Nat} {α : Type} (ok : Act → Prop) (c d : Net n α) : Prop :=
  c.queues = d.queues ∧ (∀ i r, c.procs i = .done r ↔ d.procs i = .done r) ∧ ((∃ e, GStep ok c e) ↔ ∃ e, GStep ok d e)

/-- Two networks behave alike: to every execution of one, with whatever faults, there is one of the other with as many steps which ends in a state
that looks alike. -/
def BehaveAlike {n : Nat} {α : Type} (c d : Net n α) : Prop :=
  ∀ (ok : Act → Prop) (k : Nat), (∀ c', GSteps ok k c c' → ∃ d', GSteps ok k d d' ∧ LookAlike ok c' d') ∧
    ∀ d', GSteps ok k d d' → ∃ c', GSteps ok k c c' ∧ LookAlike ok c' d'

variable {F : Type} [Field F] [DecidableEq F] [FftField F] [FixedWire F] {G1 G2 : Type} [AddCommGroup G1] [Module F G1] [DecidableEq G1]
  [FixedWire G1] [AddCommGroup G2] [Module F G2] [DecidableEq G2] [FixedWire G2]

/-- `SessionWorks` for the functions on machine integers, from the choice of the parameters on. -/
def SessionWorksM (GT : Type) [AddCommGroup GT] [Module F GT] (dbg : Bool) (l n copies : Nat) (mats : ConstraintMatrices F) (z : List F)
    (pk : ProvingKey G1 G2) (gen1 : G1) (gen2 : G2) (r s : F) (tape : ClientTape F G1 G2) (rng : Nat → Nat → Nat → F) : Prop :=
  ∃ (pp : PSS F) (ins : Nat → ServerInput F G1 G2) (outs : Nat → G1 × G2 × G1) (pA : G1) (pB : G2) (pC : G1),
    PSS.newM dbg l = .ok pp ∧ pp.dealM dbg copies mats z pk gen1 gen2 r s tape = .ok ((List.range n).map ins) ∧
    AlwaysYields (Net.init fun i : Fin n => (ins i).runM pp dbg n i rng) (fun i => outs i) ∧
    pp.openProofM dbg ((List.range n).map outs) = .ok (pA, pB, pC) ∧
    ∀ e : G1 →ₗ[F] G2 →ₗ[F] GT, Verifies e pk.vk ((z.take mats.numInstanceVariables).drop 1) pA pB pC

end ZkSaas.Spec
