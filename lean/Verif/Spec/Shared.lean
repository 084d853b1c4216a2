import Verif.Spec.Sharing
import Verif.Spec.BitRev

/-!
# Specification: vectors shared position by position

A vector of `2^(a+b)` values is held by `4·2^b` parties as `2^a` packed positions of `2^b` slots each. Two layouts are
used by the repository: consecutive chunks, and the strided layout of the bit-reversed vector that the distributed
Fourier transforms take as input.
-/

namespace ZkSaas.Spec

variable {F : Type} [Field F] {T : Type} [AddCommGroup T] [Module F T]

/-- Party `p` holds the vector `sh p` of `N` shares; position `c` of all vectors is a sharing of `sec c`. -/
def SharedVec (ω g : F) (l d N : Nat) (sh : Nat → List T) (sec : Nat → List T) : Prop :=
  (∀ p < 4 * l, (sh p).length = N) ∧
  ∀ c < N, Sharing ω g l d ((List.range (4 * l)).map fun p => (sh p).getD c 0) (sec c)

/-- Which entry of the vector sits in slot `j` of position `c`: chunks (`rev = false`), or the strided layout of the
bit-reversed vector (`rev = true`). -/
def slot (rev : Bool) (a b c j : Nat) : Nat :=
  if rev then bitRev (a + b) (c + j * 2 ^ a) else c * 2 ^ b + j

/-- The secrets of position `c` when the vector `x` is packed in the given layout. -/
def packed {T : Type} (rev : Bool) (a b : Nat) (x : Nat → T) (c : Nat) : List T :=
  (List.range (2 ^ b)).map fun j => x (slot rev a b c j)

/-- The secrets of position `c` when the vector `x` is packed in consecutive chunks of `l`. -/
def chunks {T : Type} (l : Nat) (x : Nat → T) (c : Nat) : List T := (List.range l).map fun j => x (c * l + j)

/-- The parties hold one value each: together a sharing of `l` copies of `v`. -/
def SharedValue (ω g : F) (l d : Nat) (out : Nat → T) (v : T) : Prop :=
  Sharing ω g l d ((List.range (4 * l)).map out) (List.replicate l v)

end ZkSaas.Spec
