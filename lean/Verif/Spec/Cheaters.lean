import Verif.Model.Example
import Verif.Spec.Guess
import Verif.Spec.View
import Verif.Spec.Net
import Mathlib.Algebra.BigOperators.Group.Finset.Basic

/-!
# Specification: servers who send something else than they should
-/

namespace ZkSaas.Spec

open ZkSaas Finset

variable {F : Type} [Field F] {G1 G2 : Type} [AddCommGroup G1] [Module F G1] [AddCommGroup G2] [Module F G2]

/-- Adds `e c` to the element at position `c`. -/
def addErr (v : List F) (e : Nat → F) : List F := (List.range v.length).map fun c => v.getD c 0 + e c

/-- The differences between what a server sends to the king in a session and what it should send: in the six transforms of `circom_h`, in its degree
reduction and in the five multi-scalar multiplications. -/
@[ext] structure Errors (F G1 G2 : Type) where
  fft : Nat → Nat → F
  degred : Nat → F
  msm1 : Nat → G1
  msm2 : G2

/-- The input on which the code sends messages with these errors: what is sent is masked, and the masks are wrong by the errors. -/
def Errors.spoil (E : Errors F G1 G2) (x : ServerInput F G1 G2) : ServerInput F G1 G2 :=
  { x with
    fftMask := (List.range 6).map fun k =>
      let m := x.fftMask.getD k (FftMask.zero 0)
      ⟨addErr m.inMask (E.fft k), m.outMask⟩
    degredMask := ⟨addErr x.degredMask.inMask E.degred, x.degredMask.outMask⟩
    g1Mask := (List.range 4).map fun k => spoiled (E.msm1 k) (x.g1Mask.getD k MsmMask.zero)
    g2Mask := spoiled E.msm2 x.g2Mask }

/-- The debug build does not notice the errors. -/
structure Passes (pp : PSS F) (b : Nat) (E : Nat → Errors F G1 G2) : Prop where
  fft : ∀ k c, ∑ p ∈ range (4 * 2 ^ b), pp.share.groupGen ^ p • (E p).fft k c = 0
  degred : ∀ c, ∑ p ∈ range (4 * 2 ^ b), pp.share.groupGen ^ p • (E p).degred c = 0
  msm1 : ∀ k, ∑ p ∈ range (4 * 2 ^ b), pp.share.groupGen ^ p • (E p).msm1 k = 0
  msm2 : ∑ p ∈ range (4 * 2 ^ b), pp.share.groupGen ^ p • (E p).msm2 = 0

/-- What the servers `P` have of a session: what they are dealt, what they are sent and what they end with. -/
structure Holding (F G1 G2 : Type) (k : Nat) where
  dealt : Fin k → ServerInput F G1 G2
  sent : Fin k → Transcript
  answers : Fin k → G1 × G2 × G1

/-- A session on the assignment `z` in which the servers send messages with these errors ends, and then `v` is what the servers `P` have. -/
def ShowsWith [FftField F] [DecidableEq F] [FixedWire F] [DecidableEq G1] [FixedWire G1] [DecidableEq G2] [FixedWire G2] (pp : PSS F) (dbg : Bool) (b : Nat)
    (mats : ConstraintMatrices F) (z : List F) (pk : ProvingKey G1 G2) (gen1 : G1) (gen2 : G2) (rng : Nat → Nat → Nat → F) {k : Nat} (P : Fin k → Nat)
    (E : Nat → Errors F G1 G2) (r s : F) (t : ClientTape F G1 G2) (v : Holding F G1 G2 k) : Prop :=
  ∃ (ins : Nat → ServerInput F G1 G2) (outs : Nat → G1 × G2 × G1) (views : Nat → Transcript),
    pp.deal dbg (2 ^ b) mats z pk gen1 gen2 r s t = .ok ((List.range (4 * 2 ^ b)).map ins) ∧
    AlwaysYields (Net.init fun i : Fin (4 * 2 ^ b) => (((E i).spoil (ins i)).run pp dbg (4 * 2 ^ b) i rng).recorded) (fun i => (outs i, views i)) ∧
    (∀ i, v.dealt i = ins (P i)) ∧ (∀ i, v.sent i = views (P i)) ∧ ∀ i, v.answers i = outs (P i)

end ZkSaas.Spec
