import Verif.Model.Example
import Verif.Spec.Opening
import Verif.Spec.RogueKing
import Mathlib.Algebra.BigOperators.Group.Finset.Basic

/-!
# Specification: servers who spoil what they send, and guesses about the assignment
-/

namespace ZkSaas.Spec

open ZkSaas Finset

variable {F : Type} [Field F] {G G1 G2 : Type} [AddCommGroup G] [Module F G] [AddCommGroup G1] [Module F G1] [AddCommGroup G2] [Module F G2]

/-- How much the answer of the king in `d_msm` moves with what server `i` of `4 * l` sends: the answer is the sum over the `l` secret points
`off * (ω²)^k`. -/
def msmWeight (ω off : F) (l i : Nat) : F := ∑ k ∈ range l, weight ω (4 * l) i (off * (ω ^ 2) ^ k)

/-- Errors that add one to the answer of the king and that the debug build does not notice. -/
structure Unnoticed (pp : PSS F) (dbg : Bool) (b : Nat) (ε : Nat → F) : Prop where
  sum : ∑ i ∈ range (4 * 2 ^ b), msmWeight pp.share.groupGen pp.secret.offset (2 ^ b) i * ε i = 1
  check : dbg = true → ∑ i ∈ range (4 * 2 ^ b), pp.share.groupGen ^ i * ε i = 0

/-- A mask with `d` added to what is sent to the king. -/
def spoiled (d : G) (m : MsmMask G) : MsmMask G := ⟨m.inMask + d, m.outMask⟩

/-- A server that adds `c • Δ` to what it sends to the king in the five multiplications, and otherwise runs the code: it runs the code on
an input of its own making. -/
def tampered (c : F) (Δ : Shift G1 G2) (x : ServerInput F G1 G2) : ServerInput F G1 G2 :=
  let m1 := fun k => x.g1Mask.getD k MsmMask.zero
  { x with
    g1Mask := [spoiled (c • Δ.a) (m1 0), spoiled (c • Δ.b1) (m1 1), spoiled (c • Δ.w) (m1 2), spoiled (c • Δ.u) (m1 3)]
    g2Mask := spoiled (c • Δ.b2) x.g2Mask }

/-- The shift that tests whether `z` and the client's assignment have the same sum over the `b` query. -/
def guessB (pk : ProvingKey G1 G2) (z : List F) : Shift G1 G2 :=
  ⟨pk.deltaG1, 0, 0, 0, pk.betaG1 + ∑ i ∈ range z.length, z.getD i 0 • pk.bG1Query.getD i 0⟩

/-- The shift that tests whether `z` and the client's assignment have the same sum over the `a` query. -/
def guessA (pk : ProvingKey G1 G2) (z : List F) : Shift G1 G2 :=
  ⟨0, pk.deltaG1, pk.vk.deltaG2, 0, pk.vk.alphaG1 + ∑ i ∈ range z.length, z.getD i 0 • pk.aQuery.getD i 0⟩

end ZkSaas.Spec
