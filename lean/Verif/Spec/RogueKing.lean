import Verif.Model.Example

/-!
# Specification: a king who answers as it likes

The programs below are those of the code, with another closure for the king. Only the king runs its closure: the program of any other
party does not depend on it.
-/

namespace ZkSaas.Spec

open ZkSaas

/-- A round in which the king answers `K shares` to the shares it has gathered. -/
def roundWith {T U : Type} [Wire T] [Wire U] (n me : Nat) (out : T) (sid : Sid) (threshold : Nat) (K : List T → List U) : Proc U := do
  let received ← clientSendOrKingReceiveSer n me out sid threshold
  let kingAnswer ← kingDo (fun rs : ReceivedShares T => .ok (K rs.shares)) received
  clientReceiveOrKingSendSer n me kingAnswer sid

/-- What a king adds to the results of the five multi-scalar multiplications of a proof: to those for `A`, for `B` in the first and in
the second group, and to the two for `C`. -/
structure Shift (G1 G2 : Type) where
  a : G1
  b1 : G1
  b2 : G2
  w : G1
  u : G1

variable {F : Type} [Field F] [DecidableEq F] {G G1 G2 : Type} [AddCommGroup G] [Module F G] [DecidableEq G] [FixedWire G]
  [AddCommGroup G1] [Module F G1] [DecidableEq G1] [FixedWire G1] [AddCommGroup G2] [Module F G2] [DecidableEq G2] [FixedWire G2]

/-- `d_msm` (`dist-primitives/src/dmsm/mod.rs:59-102`) with a king who adds `Δ` to the answer. -/
def dMsmShift (pp : PSS F) (dbg : Bool) (n me : Nat) (Δ : G) (bases : List G) (scalars : List F) (mask : MsmMask G) (sid : Sid) : Proc G := do
  debugAssert dbg (bases.length == scalars.length)
  let cShare ← msm bases scalars
  let received ← clientSendOrKingReceiveSer n me (cShare + mask.inMask) sid pp.t
  let kingAnswer ← kingDo (fun rs : ReceivedShares G => (pp.msmKing dbg n rs.shares rs.parties).map fun v => v.map (· + Δ)) received
  let output ← clientReceiveOrKingSendSer n me kingAnswer sid
  pure (output + mask.outMask)

/-- `A::compute` and `BInG2::compute` (`groth16/src/prove.rs:26-59`, `:132-161`) with such a king. -/
def proveAShift (pp : PSS F) (dbg : Bool) (n me : Nat) (Δ L N AG : G) (S : List G) (a : List F) (r : F) (mask : MsmMask G) (sid : Sid) : Proc G := do
  let prod ← dMsmShift pp dbg n me Δ S a mask sid
  pure (((L + r • N) + prod) + AG)

/-- `BInG1::compute` (`groth16/src/prove.rs:79-113`) with such a king. -/
def proveBShift (pp : PSS F) (dbg : Bool) (n me : Nat) (Δ Z K BG1 : G) (H : List G) (a : List F) (s r : F) (mask : MsmMask G) (sid : Sid) : Proc G :=
  if r = 0 then .done (.ok 0) else proveAShift pp dbg n me Δ Z K BG1 H a s mask sid

/-- `C::compute` (`groth16/src/prove.rs:193-238`) with such a king. -/
def proveCShift (pp : PSS F) (dbg : Bool) (n me : Nat) (Δ Δ' A B : G) (s r : F) (M : G) (W U : List G) (ax h : List F)
    (mask0 mask1 : MsmMask G) : Proc G :=
  .par (dMsmShift pp dbg n me Δ W ax mask0 .zero) (dMsmShift pp dbg n me Δ' U h mask1 .one) fun w u =>
    .done (.ok (s • A + r • B - (r * s) • M + w + u))

/-- A server of the example (`groth16/examples/sha256.rs:32-129`) with a king who adds `Δ` to the results of the five multiplications. -/
def runShift [FftField F] [FixedWire F] (pp : PSS F) (dbg : Bool) (n me : Nat) (Δ : Shift G1 G2) (x : ServerInput F G1 G2)
    (rng : Nat → Nat → Nat → F) : Proc (G1 × G2 × G1) := do
  let m1 := fun k => x.g1Mask.getD k MsmMask.zero
  let h ← pp.circomH dbg n me x.q (fun k => x.fftMask.getD k (FftMask.zero 0)) x.degredMask rng
  let piA ← proveAShift pp dbg n me Δ.a x.crs.aQuery0 x.crs.deltaG1 x.crs.alphaG1 x.crs.s x.a x.r (m1 0) .zero
  let piB1 ← proveBShift pp dbg n me Δ.b1 x.crs.bG1Query0 x.crs.deltaG1 x.crs.betaG1 x.crs.h x.a x.s x.r (m1 1) .zero
  let piB2 ← proveAShift pp dbg n me Δ.b2 x.crs.bG2Query0 x.crs.deltaG2 x.crs.betaG2 x.crs.v x.a x.s x.g2Mask .zero
  let piC ← proveCShift pp dbg n me Δ.w Δ.u piA piB1 x.s x.r x.crs.deltaG1 x.crs.w x.crs.u x.ax h (m1 2) (m1 3)
  pure (piA, piB2, piC)

end ZkSaas.Spec
