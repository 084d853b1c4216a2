import Verif.Model.Qap

/-!
# Specification: a king who adds to the results of transforms

The programs below are those of the code, with a king who adds something to its answers. Only the king runs its closure: the program of any
other party does not depend on it.
-/

namespace ZkSaas.Spec

open ZkSaas Finset

variable {F : Type} [Field F] [DecidableEq F]

/-- Add `d c` to entry `c`. -/
def shiftRow (d : Nat → F) (row : List F) : List F := row.mapIdx fun c x => x + d c

/-- `d_fft` (`dist-primitives/src/dfft/mod.rs:99-134`, `:240-320`) with a king who adds `d p c` to entry `c` of its answer to party `p`. -/
def dFftShift [FixedWire F] (pp : PSS F) (dbg : Bool) (n me : Nat) (d : Nat → Nat → F) (pcoeffShare : List F) (mask : FftMask F)
    (rearrange : Bool) (dom : Domain F) (sid : Sid) (rng : Nat → Nat → F) : Proc (List F) := do
  debugAssert dbg (pcoeffShare.length * pp.l == dom.size)
  let px ← pp.fft1InPlace pcoeffShare dom.groupGen
  let out := addMask px mask.inMask
  let received ← clientSendOrKingReceiveSer n me out sid pp.t
  let kingAnswer ← kingDo (fun rs : ReceivedShares (List F) =>
    (pp.fft2King dbg out.length px.length 1 dom.groupGen rearrange rs.shares rs.parties rng).map fun v =>
      v.mapIdx fun p row => shiftRow (d p) row) received
  let outShare ← clientReceiveOrKingSendSer n me kingAnswer sid
  pure (addMask outShare mask.outMask)

/-- `circom_h` (`groth16/src/ext_wit.rs:104-181`) with a king who adds `da` to the result of the fourth transform and `db` to that of the
fifth, and who does in the last step what the code of a release build does. -/
def circomHShift [FftField F] [FixedWire F] (pp : PSS F) (dbg : Bool) (n me : Nat) (da db : Nat → Nat → F) (q : PackedQAPShare F)
    (mask : Nat → FftMask F) (degredMask : DegRedMask F) (rng : Nat → Nat → Nat → F) : Proc (List F) := do
  let domain := q.domain
  let domainDouble ← unwrap (Domain.new (F := F) (2 * domain.size))
  let root := domainDouble.element 1
  tryJoin3 (pp.dIfft dbg n me q.a (mask 0) true domain root .zero (rng 0))
    (pp.dIfft dbg n me q.b (mask 1) true domain root .one (rng 1))
    (pp.dIfft dbg n me q.c (mask 2) true domain root .two (rng 2)) fun aCoeff bCoeff cCoeff =>
  tryJoin3 (dFftShift pp dbg n me da aCoeff (mask 3) false domain .zero (rng 3))
    (dFftShift pp dbg n me db bCoeff (mask 4) false domain .one (rng 4))
    (pp.dFft dbg n me cCoeff (mask 5) false domain .two (rng 5)) fun aEval bEval cEval => do
  let hEval := List.zipWith (fun ab c => ab.1 * ab.2 - c) (List.zip aEval bEval) cEval
  pp.degRed false n me hEval degredMask .zero (rng 6)

/-- The secret point `k` of the packed sharing. -/
def secretPoint (pp : PSS F) (k : Nat) : F := pp.secret.offset * (pp.share.groupGen ^ 2) ^ k

/-- What a king adds for party `p` who wants to read the secret in slot `k`: the value at the share point of `p` of the polynomial whose
coefficients of `X^(4l-1), X^(4l-2), …, X^(2l)` are the first `2l` powers of the secret point. -/
def probe (pp : PSS F) (k p : Nat) : F :=
  ∑ j ∈ range (2 * pp.l), secretPoint pp k ^ j * (pp.share.groupGen ^ p) ^ (4 * pp.l - 1 - j)

/-- What a king adds for party `p` who does not want to change any result: the value at the share point of `p` of `X^(2l) - g^(2l)`, which
is zero in every secret point. -/
def quietProbe (pp : PSS F) (p : Nat) : F := (pp.share.groupGen ^ p) ^ (2 * pp.l) - pp.secret.offset ^ (2 * pp.l)

end ZkSaas.Spec
