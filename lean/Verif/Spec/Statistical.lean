import Mathlib.Data.Rat.Defs
import Mathlib.Algebra.Order.Field.Rat
import Mathlib.SetTheory.Cardinal.Finite
import Verif.Spec.View
import Verif.Spec.Net
import Verif.Model.Example

/-!
# Specification of C100: probabilities over everything the client draws, and what a coalition observes
-/

namespace ZkSaas.Spec

/-- The probability of an event when all elements of a finite set are equally likely. -/
noncomputable def prob {Ω : Type} (E : Ω → Prop) : ℚ := Nat.card {ω : Ω // E ω} / Nat.card Ω

/-- Two random values are told apart by no test with an advantage above `ε`. -/
def Close {Ω Ω' O : Type} (ε : ℚ) (X : Ω → O) (Y : Ω' → O) : Prop := ∀ E : O → Prop, |prob (fun ω => E (X ω)) - prob (fun ω => E (Y ω))| ≤ ε

/-- `k` rounds one after the other, each with its own draws, `X h` being what is observed in a round after the observations `h`. -/
def observed {Ω O : Type} (X : List O → Ω → O) : (k : Nat) → List O → (Fin k → Ω) → List O
  | 0, h, _ => h
  | k + 1, h, ω => observed X k (h ++ [X h (ω 0)]) fun i => ω i.succ

section
variable (F G1 G2 : Type) (N : Nat)

/-- `N` values for each of the sequences of one `FftMask::sample` or `DegRedMask::sample`. -/
abbrev VecDraws := (Fin N → F) × (Fin N → Fin N → F) × (Fin N → Fin N → F)

/-- `N` values for each of the sequences of one `MsmMask::sample`. -/
abbrev MsmDraws (G : Type) := (Fin N → F) × (Fin N → G) × (Fin N → G)

/-- Everything the client draws: `r` and `s`; what packs them; what packs the program (three vectors) and the assignment (two); the masks. -/
abbrev Draws := (F × F) × ((Fin N → F) × (Fin N → F)) × (Fin 5 → Fin N → Fin N → F) × (Fin 6 → VecDraws F N) × VecDraws F N ×
  (Fin 4 → MsmDraws F N G1) × MsmDraws F N G2

end

variable {F G1 G2 : Type} {N : Nat}

/-- A sequence of which `N` values are drawn. -/
def seq {T : Type} [Zero T] (f : Fin N → T) : Nat → T := fun i => if h : i < N then f ⟨i, h⟩ else 0

/-- A family of sequences. -/
def seqs {T : Type} [Zero T] (f : Fin N → Fin N → T) : Nat → Nat → T := fun i => if h : i < N then seq (f ⟨i, h⟩) else fun _ => 0

/-- The tape of a mask of vectors. -/
def vecTape [Zero F] (x : VecDraws F N) : VecTape F := ⟨seq x.1, seqs x.2.1, seqs x.2.2⟩

/-- The tape of a mask of sums. -/
def msmTape {G : Type} [Zero F] [Zero G] (x : MsmDraws F N G) : MsmTape F G := ⟨seq x.1, seq x.2.1, seq x.2.2⟩

/-- The tape of the client that goes with some draws. -/
def clientTape [Zero F] [Zero G1] [Zero G2] (x : Draws F G1 G2 N) : ClientTape F G1 G2 where
  r := seq x.2.1.1
  s := seq x.2.1.2
  qapA := seqs (x.2.2.1 0)
  qapB := seqs (x.2.2.1 1)
  qapC := seqs (x.2.2.1 2)
  a := seqs (x.2.2.1 3)
  ax := seqs (x.2.2.1 4)
  fft := fun k => if h : k < 6 then vecTape (x.2.2.2.1 ⟨k, h⟩) else ⟨0, 0, 0⟩
  degred := vecTape x.2.2.2.2.1
  msm1 := fun k => if h : k < 4 then msmTape (x.2.2.2.2.2.1 ⟨k, h⟩) else ⟨0, 0, 0⟩
  msm2 := msmTape x.2.2.2.2.2.2

variable [Field F] [DecidableEq F] [FftField F] [FixedWire F] [AddCommGroup G1] [Module F G1] [DecidableEq G1] [FixedWire G1] [AddCommGroup G2]
  [Module F G2] [DecidableEq G2] [FixedWire G2]

/-- What is observed of a session: what the servers `P` are dealt and end with, all that every server but the king is sent, the opened proof. -/
structure Observation (F G1 G2 : Type) (n k : Nat) where
  dealt : Fin k → ServerInput F G1 G2
  answers : Fin k → G1 × G2 × G1
  sent : {i : Fin n // i.val ≠ 0} → Transcript
  proof : G1 × G2 × G1

/-- A session on the assignment `z` with these draws ends, and then `v` is what is observed. -/
def Shows (pp : PSS F) (dbg : Bool) (n copies : Nat) (mats : ConstraintMatrices F) (z : List F) (pk : ProvingKey G1 G2) (gen1 : G1) (gen2 : G2)
    (rng : Nat → Nat → Nat → F) {k : Nat} (P : Fin k → Nat) (x : Draws F G1 G2 N) (v : Observation F G1 G2 n k) : Prop :=
  ∃ (ins : Nat → ServerInput F G1 G2) (outs : Nat → G1 × G2 × G1) (views : Fin n → Transcript),
    pp.deal dbg copies mats z pk gen1 gen2 x.1.1 x.1.2 (clientTape x) = .ok ((List.range n).map ins) ∧
    AlwaysYields (Net.init fun i : Fin n => ((ins i).run pp dbg n i rng).recorded) (fun i => (outs i, views i)) ∧
    pp.openProof dbg ((List.range n).map outs) = .ok v.proof ∧ (∀ i, v.dealt i = ins (P i)) ∧ (∀ i, v.answers i = outs (P i)) ∧
    ∀ i : {i : Fin n // i.val ≠ 0}, v.sent i = views i

open Classical in
/-- What is observed of a session, `none` if it does not end. -/
noncomputable def observation (pp : PSS F) (dbg : Bool) (n copies : Nat) (mats : ConstraintMatrices F) (z : List F) (pk : ProvingKey G1 G2) (gen1 : G1)
    (gen2 : G2) (rng : Nat → Nat → Nat → F) {k : Nat} (P : Fin k → Nat) (x : Draws F G1 G2 N) : Option (Observation F G1 G2 n k) :=
  if h : ∃ v, Shows pp dbg n copies mats z pk gen1 gen2 rng P x v then some h.choose else none

end ZkSaas.Spec
