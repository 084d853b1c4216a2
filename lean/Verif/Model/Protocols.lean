import Verif.Model.SerNet
import Verif.Model.Dfft

/-!
# The interactive protocols of `dist-primitives`

`n` is `net.n_parties()`, `me` is `net.party_id()`. Random numbers drawn by the king are given by `rng`
(`ark_std::test_rng()` or `thread_rng()` in the source); parties other than the king draw none.
-/

namespace ZkSaas

variable {F : Type} [Field F] [DecidableEq F]

/-- `received_shares.map(|rs| …)`: only the king, which received something, computes; a panic in the closure is a panic
of the king. -/
def kingDo {T U : Type} (K : ReceivedShares T → Res U) : Option (ReceivedShares T) → Res (Option U)
  | none => .ok none
  | some rs => (K rs).map some

/-- `dist-primitives/src/dfft/mod.rs:240-320` `fft2_with_rearrange`. -/
def PSS.fft2WithRearrange [FixedWire F] (pp : PSS F) (dbg : Bool) (n me : Nat) (px : List F) (mask : FftMask F)
    (rearrange : Bool) (g gen : F) (sid : Sid) (rng : Nat → Nat → F) : Proc (List F) := do
  let mbyl := px.length
  let out := addMask px mask.inMask
  let received ← clientSendOrKingReceiveSer n me out sid pp.t
  let kingAnswer ← kingDo (fun rs : ReceivedShares (List F) =>
    pp.fft2King dbg out.length mbyl g gen rearrange rs.shares rs.parties rng) received
  let outShare ← clientReceiveOrKingSendSer n me kingAnswer sid
  pure (addMask outShare mask.outMask)

/-- `dist-primitives/src/dfft/mod.rs:99-134` `d_fft`. -/
def PSS.dFft [FixedWire F] (pp : PSS F) (dbg : Bool) (n me : Nat) (pcoeffShare : List F) (mask : FftMask F)
    (rearrange : Bool) (dom : Domain F) (sid : Sid) (rng : Nat → Nat → F) : Proc (List F) := do
  debugAssert dbg (pcoeffShare.length * pp.l == dom.size)
  let px ← pp.fft1InPlace pcoeffShare dom.groupGen
  pp.fft2WithRearrange dbg n me px mask rearrange 1 dom.groupGen sid rng

/-- `dist-primitives/src/dfft/mod.rs:137-175` `d_ifft`. -/
def PSS.dIfft [FixedWire F] (pp : PSS F) (dbg : Bool) (n me : Nat) (pevalShare : List F) (mask : FftMask F)
    (rearrange : Bool) (dom : Domain F) (g : F) (sid : Sid) (rng : Nat → Nat → F) : Proc (List F) := do
  debugAssert dbg (pevalShare.length * pp.l == dom.size)
  let pevalShare := pevalShare.map fun x => x * dom.sizeInv
  let px ← pp.fft1InPlace pevalShare dom.groupGenInv
  pp.fft2WithRearrange dbg n me px mask rearrange g dom.groupGenInv sid rng

section degred
variable {T : Type} [AddCommGroup T] [Module F T] [DecidableEq T]

/-- `dist-primitives/src/utils/deg_red.rs:14-22` `struct DegRedMask` (one party's share). -/
structure DegRedMask (T : Type) where
  inMask : List T
  outMask : List T

/-- `dist-primitives/src/utils/deg_red.rs:29-36` `DegRedMask::new`. -/
def DegRedMask.new (dbg : Bool) (inMask outMask : List T) : Res (DegRedMask T) := do
  debugAssert dbg (inMask.length == outMask.length)
  pure ⟨inMask, outMask⟩

/-- `dist-primitives/src/utils/deg_red.rs:40-66` `DegRedMask::sample`. `vals i` is the `i`-th scalar drawn. -/
def DegRedMask.sample (pp : PSS F) (dbg : Bool) (gen : T) (num : Nat) (vals : Nat → F)
    (rngIn rngOut : Nat → Nat → T) : Res (List (DegRedMask T)) := do
  let inMaskValues := (List.range (num * pp.l)).map fun i => vals i • gen
  let outMaskValues := (List.range (num * pp.l)).map fun i => 0 - vals i • gen
  let inShares ← pp.packVec dbg inMaskValues rngIn
  let inMaskShares ← transpose inShares
  let outShares ← pp.packVec dbg outMaskValues rngOut
  let outMaskShares ← transpose outShares
  (List.zip inMaskShares outMaskShares).mapM fun (i, o) => DegRedMask.new dbg i o

/-- `dist-primitives/src/utils/deg_red.rs:70-76` `DegRedMask::zero`. -/
def DegRedMask.zero (num : Nat) : DegRedMask T := ⟨List.replicate num 0, List.replicate num 0⟩

/-- `dist-primitives/src/utils/deg_red.rs:102-110`: what the king does in `deg_red`. -/
def PSS.degRedKing (pp : PSS F) (dbg : Bool) (shares : List (List T)) (parties : List Nat) (rng : Nat → Nat → T) :
    Res (List (List T)) := do
  let xShares ← transpose shares
  let xShares ← (List.range xShares.length).mapM fun c => do
    let xShare ← rd xShares c
    let xi ← pp.unpackMissingShares dbg xShare parties
    pp.pack dbg xi (rng c)
  transpose xShares

/-- `dist-primitives/src/utils/deg_red.rs:80-126` `deg_red`. -/
def PSS.degRed [FixedWire T] (pp : PSS F) (dbg : Bool) (n me : Nat) (xShare : List T) (mask : DegRedMask T)
    (sid : Sid) (rng : Nat → Nat → T) : Proc (List T) := do
  debugAssert dbg (xShare.length == mask.inMask.length)
  debugAssert dbg (xShare.length == mask.outMask.length)
  let xMask := addMask xShare mask.inMask
  let received ← clientSendOrKingReceiveSer n me xMask sid pp.t
  let kingAnswer ← kingDo (fun rs : ReceivedShares (List T) => pp.degRedKing dbg rs.shares rs.parties rng) received
  let xShare ← clientReceiveOrKingSendSer n me kingAnswer sid
  pure (addMask xShare mask.outMask)

end degred

section dmsm
variable {G : Type} [AddCommGroup G] [Module F G] [DecidableEq G]

/-- `dist-primitives/src/dmsm/mod.rs:10-13` `struct MsmMask` (one party's share). -/
structure MsmMask (G : Type) where
  inMask : G
  outMask : G

/-- `dist-primitives/src/dmsm/mod.rs:21-47` `MsmMask::sample`. `gen` is `G::generator()`, `vals i` the `i`-th scalar. -/
def MsmMask.sample (pp : PSS F) (dbg : Bool) (gen : G) (vals : Nat → F) (rngIn rngOut : Nat → G) :
    Res (List (MsmMask G)) := do
  let maskValues := (List.range pp.l).map fun i => vals i • gen
  let outMaskValue := -maskValues.sum
  let inMaskShares ← pp.pack dbg maskValues rngIn
  let outMaskShares ← pp.pack dbg (List.replicate pp.l outMaskValue) rngOut
  pure (List.zipWith MsmMask.mk inMaskShares outMaskShares)

/-- `dist-primitives/src/dmsm/mod.rs:51-56` `MsmMask::zero`. -/
def MsmMask.zero : MsmMask G := ⟨0, 0⟩

/-- `dist-primitives/src/dmsm/mod.rs:82-88`: what the king does in `d_msm`. -/
def PSS.msmKing (pp : PSS F) (dbg : Bool) (n : Nat) (shares : List G) (parties : List Nat) : Res (List G) := do
  let result ← pp.unpackMissingShares dbg shares parties
  let output := result.sum
  pure (List.replicate n output)

/-- `dist-primitives/src/dmsm/mod.rs:59-102` `d_msm`. -/
def PSS.dMsm [FixedWire G] (pp : PSS F) (dbg : Bool) (n me : Nat) (bases : List G) (scalars : List F)
    (mask : MsmMask G) (sid : Sid) : Proc G := do
  debugAssert dbg (bases.length == scalars.length)
  let cShare ← msm bases scalars
  let cShare := cShare + mask.inMask
  let received ← clientSendOrKingReceiveSer n me cShare sid pp.t
  let kingAnswer ← kingDo (fun rs : ReceivedShares G => pp.msmKing dbg n rs.shares rs.parties) received
  let output ← clientReceiveOrKingSendSer n me kingAnswer sid
  pure (output + mask.outMask)

end dmsm

/-- `Field::inverse`: `None` for zero. -/
def fieldInverse (x : F) : Option F := if x = 0 then none else some x⁻¹

/-- `dist-primitives/src/dpp/mod.rs:56-67`: the running products of the first half divided by the second half. -/
def ppProducts (numden : List F) : Res (List F) := do
  let half := numden.length / 2
  let numden ← forUp half (fun i (numden : List F) => do
    let d ← rd numden (i + half)
    let d ← unwrap (fieldInverse d)
    let x ← rd numden i
    wr numden i (x * d)) numden
  let numden := numden.take half
  forUp (numden.length - 1) (fun i' (numden : List F) => do
    let i := i' + 1
    let last ← rd numden (i - 1)
    let x ← rd numden i
    wr numden i (x * last)) numden

/-- `dist-primitives/src/dpp/mod.rs:43-76`: what the king does in `d_pp`. -/
def PSS.ppKing (pp : PSS F) (dbg : Bool) (shares : List (List F)) (parties : List Nat) (rng : Nat → Nat → F) :
    Res (List (List F)) := do
  debugAssert dbg (shares.length == pp.n)
  let numdenShares ← transpose shares
  let chunks ← numdenShares.mapM fun x => pp.unpackMissingShares dbg x parties
  let numden ← ppProducts chunks.flatten
  let ppShares ← pp.packVec dbg numden rng
  transpose ppShares

/-- `dist-primitives/src/dpp/mod.rs:15-87` `d_pp`. -/
def PSS.dPp [FixedWire F] (pp : PSS F) (dbg : Bool) (n me : Nat) (num den : List F) (mask : DegRedMask F)
    (sid : Sid) (rng rng' : Nat → Nat → F) : Proc (List F) := do
  let s : F := 1
  let sinv ← unwrap (fieldInverse s)
  let numRand := num.map fun x => x * s
  let denRand := den.map fun x => x * s
  let numdenRand := numRand ++ denRand
  let received ← clientSendOrKingReceiveSer n me numdenRand sid pp.t
  let kingAnswer ← kingDo (fun rs : ReceivedShares (List F) => pp.ppKing dbg rs.shares rs.parties rng) received
  let ppNumdenRand ← clientReceiveOrKingSendSer n me kingAnswer sid
  let ppNumdenRand := ppNumdenRand.map fun x => x * sinv
  pp.degRed dbg n me ppNumdenRand mask sid rng'

end ZkSaas
