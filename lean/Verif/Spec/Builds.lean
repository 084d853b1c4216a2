import Verif.Model.Example
import Verif.Spec.Groth16
import Verif.Spec.Net

/-!
# Specification: debug and release builds
-/

namespace ZkSaas.Spec

/-- The stricter computation panics or both come to the same. -/
def PanicsOrAgrees {α : Type} (strict lenient : Res α) : Prop := strict = panic' ∨ strict = lenient

/-- A panic has happened in the program or in a branch of it. -/
inductive Panicked : {α : Type} → Proc α → Prop where
  | done {α : Type} : Panicked (.done panic' : Proc α)
  | parL {α β γ : Type} {p : Proc β} (q : Proc γ) (k : β → γ → Proc α) (h : Panicked p) : Panicked (.par p q k)
  | parR {α β γ : Type} (p : Proc β) {q : Proc γ} (k : β → γ → Proc α) (h : Panicked q) : Panicked (.par p q k)

/-- The same messages are in transit and the same parties have ended with the same results, apart from those that panicked in the stricter network `c`.
If nobody has, either both networks can go on or none. -/
def UpToPanics {n : Nat} {α : Type} (ok : Act → Prop) (c d : Net n α) : Prop :=
  c.queues = d.queues ∧ (∀ i, Panicked (c.procs i) ∨ ∀ r, c.procs i = .done r ↔ d.procs i = .done r) ∧
    ((∀ i, ¬ Panicked (c.procs i)) → ((∃ e, GStep ok c e) ↔ ∃ e, GStep ok d e))

/-- The stricter network `c` behaves like `d` until somebody in it panics: whatever one does, the other can do as well, unless somebody in `c` panics on
the way. This holds for every kind of fault. -/
def AlikeUntilPanic {n : Nat} {α : Type} (c d : Net n α) : Prop :=
  ∀ (ok : Act → Prop) (k : Nat),
    (∀ d', GSteps ok k d d' → (∃ j ≤ k, ∃ c' i, GSteps ok j c c' ∧ Panicked (c'.procs i)) ∨ ∃ c', GSteps ok k c c' ∧ UpToPanics ok c' d') ∧
    ∀ c', GSteps ok k c c' → (∃ j ≤ k, ∃ c' i, GSteps ok j c c' ∧ Panicked (c'.procs i)) ∨ ∃ d', GSteps ok k d d' ∧ UpToPanics ok c' d'

variable {F : Type} [Field F] [DecidableEq F] [FftField F] [FixedWire F] {G1 G2 : Type} [AddCommGroup G1] [Module F G1] [DecidableEq G1]
  [FixedWire G1] [AddCommGroup G2] [Module F G2] [DecidableEq G2] [FixedWire G2]

/-- A session with a client of build `client` and servers of the builds `servers` works: the client deals, the servers always end with some answers,
and these open to a proof that is accepted under every pairing. -/
def MixedSessionWorks (GT : Type) [AddCommGroup GT] [Module F GT] (pp : PSS F) (client : Bool) (servers : Nat → Bool) (n copies : Nat)
    (mats : ConstraintMatrices F) (z : List F) (pk : ProvingKey G1 G2) (gen1 : G1) (gen2 : G2) (r s : F) (tape : ClientTape F G1 G2)
    (rng : Nat → Nat → Nat → F) : Prop :=
  ∃ (ins : Nat → ServerInput F G1 G2) (outs : Nat → G1 × G2 × G1) (pA : G1) (pB : G2) (pC : G1),
    pp.deal client copies mats z pk gen1 gen2 r s tape = .ok ((List.range n).map ins) ∧
    AlwaysYields (Net.init fun i : Fin n => (ins i).run pp (servers i) n i rng) (fun i => outs i) ∧
    pp.openProof client ((List.range n).map outs) = .ok (pA, pB, pC) ∧
    ∀ e : G1 →ₗ[F] G2 →ₗ[F] GT, Verifies e pk.vk ((z.take mats.numInstanceVariables).drop 1) pA pB pC

end ZkSaas.Spec
