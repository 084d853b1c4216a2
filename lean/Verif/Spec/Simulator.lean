import Verif.Spec.Statistical
import Verif.Spec.Groth16

/-!
# Specification of C101: a simulator that knows no witness
-/

namespace ZkSaas.Spec

open Finset Polynomial

/-- An assignment without any secret: the constant one, and zeros. -/
def blank {F : Type} [Zero F] [One F] (nw : Nat) : List F := 1 :: List.replicate (nw - 1) 0

/-- What was observed, with another proof. -/
def Observation.withProof {F G1 G2 : Type} {n k : Nat} (o : Observation F G1 G2 n k) (π : G1 × G2 × G1) : Observation F G1 G2 n k :=
  { o with proof := π }

variable {F : Type} [Field F] {G1 G2 : Type} [AddCommGroup G1] [Module F G1] [AddCommGroup G2] [Module F G2]

/-- The simulated proof of Groth16 (EUROCRYPT 2016, section 3.2): `A` and `B` are drawn, `C` is what the verification equation asks for, computed from
the secrets of the set-up. `pub` are the public inputs with the leading one. -/
noncomputable def trapdoorProof (t : Toxic F) (g1 : G1) (g2 : G2) (a b c : Nat → F[X]) (pub : List F) (u v : F) : G1 × G2 × G1 :=
  (u • g1, v • g2, ((u * v - t.alpha * t.beta - ∑ k ∈ range pub.length, pub.getD k 0 *
    (t.beta * (a k).eval t.tau + t.alpha * (b k).eval t.tau + (c k).eval t.tau)) / t.delta) • g1)

variable [DecidableEq F] [FftField F] [FixedWire F] [DecidableEq G1] [FixedWire G1] [DecidableEq G2] [FixedWire G2]

/-- The simulator: a session on the blank assignment, with the given proof in place of what it opens. -/
noncomputable def simulation (pp : PSS F) (dbg : Bool) (n copies : Nat) (mats : ConstraintMatrices F) (nw : Nat) (pk : ProvingKey G1 G2) (gen1 : G1)
    (gen2 : G2) (rng : Nat → Nat → Nat → F) {k : Nat} (P : Fin k → Nat) {N : Nat} (proof : F → F → G1 × G2 × G1) (x : Draws F G1 G2 N × F × F) :
    Option (Observation F G1 G2 n k) :=
  (observation pp dbg n copies mats (blank nw) pk gen1 gen2 rng P x.1).map fun o => o.withProof (proof x.2.1 x.2.2)

end ZkSaas.Spec
