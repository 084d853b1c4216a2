import Verif.Spec.Statistical

/-!
# Specification of C105: what a coalition with the king observes, and the points that `r` and `s` are to hide
-/

namespace ZkSaas.Spec

open Finset

variable {F G1 G2 : Type} {N : Nat} [Field F] [DecidableEq F] [FftField F] [FixedWire F] [AddCommGroup G1] [Module F G1] [DecidableEq G1] [FixedWire G1]
  [AddCommGroup G2] [Module F G2] [DecidableEq G2] [FixedWire G2]

/-- A session on the assignment `z` with these draws ends, the servers `P` are dealt `v.1`, and the king is sent `v.2`. -/
def KingShows (pp : PSS F) (dbg : Bool) (n copies : Nat) (mats : ConstraintMatrices F) (z : List F) (pk : ProvingKey G1 G2) (gen1 : G1) (gen2 : G2)
    (rng : Nat → Nat → Nat → F) {k : Nat} (P : Fin k → Nat) (x : Draws F G1 G2 N) (v : (Fin k → ServerInput F G1 G2) × Transcript) : Prop :=
  ∃ (ins : Nat → ServerInput F G1 G2) (outs : Nat → G1 × G2 × G1) (views : Fin n → Transcript),
    pp.deal dbg copies mats z pk gen1 gen2 x.1.1 x.1.2 (clientTape x) = .ok ((List.range n).map ins) ∧
    AlwaysYields (Net.init fun i : Fin n => ((ins i).run pp dbg n i rng).recorded) (fun i => (outs i, views i)) ∧
    (∀ i, v.1 i = ins (P i)) ∧ ∀ i : Fin n, i.val = 0 → v.2 = views i

open Classical in
/-- What the king and the servers `P` observe of a session, `none` if it does not end. -/
noncomputable def kingObservation (pp : PSS F) (dbg : Bool) (n copies : Nat) (mats : ConstraintMatrices F) (z : List F) (pk : ProvingKey G1 G2) (gen1 : G1)
    (gen2 : G2) (rng : Nat → Nat → Nat → F) {k : Nat} (P : Fin k → Nat) (x : Draws F G1 G2 N) : Option ((Fin k → ServerInput F G1 G2) × Transcript) :=
  if h : ∃ v, KingShows pp dbg n copies mats z pk gen1 gen2 rng P x v then some h.choose else none

/-- The sums of an assignment over the `a` query, over the `b` query in the second group and over the private part of the key: what `r` and `s` are to
hide in the proof. -/
def hiddenSums (mats : ConstraintMatrices F) (z : List F) (pk : ProvingKey G1 G2) : G1 × G2 × G1 :=
  (∑ k ∈ range (z.length - 1), z.getD (k + 1) 0 • pk.aQuery.getD (k + 1) 0,
    ∑ k ∈ range (z.length - 1), z.getD (k + 1) 0 • pk.bG2Query.getD (k + 1) 0,
    ∑ k ∈ range (z.length - mats.numInstanceVariables), z.getD (mats.numInstanceVariables + k) 0 • pk.lQuery.getD k 0)

end ZkSaas.Spec
