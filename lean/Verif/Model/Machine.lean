import Verif.Model.Example

/-!
# The same functions with the machine integers of the source

Elsewhere in the model `usize` is `Nat`. Here the functions that compute with `usize` are written again with 64-bit integers:
`Cargo.toml` has no profile section, so a build with debug assertions panics on overflow and a release build wraps around.
A function whose name ends in `M` is the function of the same name without the `M` with this arithmetic. What is not repeated computes with
no `usize`, or only inside `std` and arkworks (lengths, iterators, chunks, the domains), or with shifts and masks, which cannot overflow
(`fft_in_place_rearrange`). The casts of party ids between `usize` and `u32` are not modelled.
-/

namespace ZkSaas

/-- The number of values of `usize` on the 64-bit machines the code runs on. -/
abbrev USIZE : Nat := 2 ^ 64

/-- The value of an operation whose exact result is `x`: an overflow panics in a debug build and wraps in a release build. -/
def usize (dbg : Bool) (x : Nat) : Res Nat := if x < USIZE then .ok x else if dbg then panic' else .ok (x % USIZE)

/-- `x + y` on `usize`. -/
def uadd (dbg : Bool) (x y : Nat) : Res Nat := usize dbg (x + y)

/-- `x * y` on `usize`. -/
def umul (dbg : Bool) (x y : Nat) : Res Nat := usize dbg (x * y)

/-- `x - y` on `usize`. -/
def usub (dbg : Bool) (x y : Nat) : Res Nat := if y ≤ x then .ok (x - y) else if dbg then panic' else .ok (x + USIZE - y)

/-- `2usize.pow(i)`. -/
def upow2 (dbg : Bool) (i : Nat) : Res Nat := usize dbg (2 ^ i)

/-- `x / y`: a division by zero panics in every build. -/
def udiv (x y : Nat) : Res Nat := if y = 0 then panic' else .ok (x / y)

variable {F : Type} [Field F] [DecidableEq F]

/-- `secret-sharing/src/pss.rs:39-66` `PackedSharingParams::new`. -/
def PSS.newM [FftField F] (dbg : Bool) (l : Nat) : Res (PSS F) := do
  let n ← umul dbg l 4
  let t := l
  let n' ← umul dbg 2 (← uadd dbg t l)
  debugAssert dbg (n == n')
  let share ← unwrap (Domain.new (F := F) n)
  let lt ← uadd dbg l t
  let secret ← unwrap (Domain.new (F := F) lt)
  let secret ← unwrap (secret.getCoset FftField.GENERATOR)
  let lt2 ← umul dbg 2 lt
  let secret2 ← unwrap (Domain.new (F := F) lt2)
  let secret2 ← unwrap (secret2.getCoset FftField.GENERATOR)
  debugAssert dbg (share.size == n)
  debugAssert dbg (secret.size == lt)
  debugAssert dbg (secret2.size == lt2)
  pure { t, l, n, share, secret, secret2 }

/-- `secret-sharing/src/utils.rs:36-74` `syn_div_in_place`. -/
def synDivInPlaceM (dbg : Bool) (p : List F) (a : Nat) (b : F) : Res (List F) := do
  assert (a != 0)
  assert (b != 0)
  assert (p.length > a)
  if a = 1 then
    pure (synDiv1 b p).1
  else
    let degreeOffset ← usub dbg p.length a
    let p ←
      if b = 1 then
        forDown degreeOffset (fun i p => do wr p i ((← rd p i) + (← rd p (← uadd dbg i a)))) p
      else
        forDown degreeOffset (fun i p => do wr p i ((← rd p i) + (← rd p (← uadd dbg i a)) * b)) p
    let shifted := p.drop a ++ p.drop degreeOffset
    pure (shifted.take degreeOffset ++ List.replicate a 0)

/-- `secret-sharing/src/utils.rs:120-136` `get_zero_roots`. The state of the loop is `(result, n)`. -/
def getZeroRootsM (dbg : Bool) (xs : List F) : Res (List F) := do
  let result := List.replicate (← uadd dbg xs.length 1) (0 : F)
  let n ← usub dbg result.length 1
  let result ← wr result n 1
  let (result, _) ← forUp xs.length (fun i (st : List F × Nat) => do
    let n ← usub dbg st.2 1
    let result ← wr st.1 n 0
    let result ← forUp (xs.length - n) (fun d result => do
      let j := n + d
      wr result j ((← rd result j) - (← rd result (← uadd dbg j 1)) * (← rd xs i))) result
    pure (result, n)) (result, n)
  pure result

section
variable {T : Type} [AddCommGroup T] [Module F T] [DecidableEq T]

/-- `secret-sharing/src/utils.rs:78-116` `lagrange_interpolate`. The `i + 1` of `:109` is at most `result.len()`. -/
def lagrangeInterpolateM (dbg : Bool) (xs : List F) (ys : List T) : Res (List T) := do
  let roots ← getZeroRootsM dbg xs
  let numerators ← xs.mapM fun x => synDivInPlaceM dbg roots 1 x
  let denominators := (numerators.zip xs).map fun (f, x) => eval f x
  let denominators := batchInversion denominators
  let result := List.replicate numerators.length (0 : T)
  let result ← forUp ys.length (fun i result => do
    let ySlice := (← rd denominators i) • (← rd ys i)
    forUp result.length (fun j result => do
      let tmp := (← rd (← rd numerators i) j) • ySlice
      wr result j ((← rd result j) + tmp)) result) result
  pure (truncateZeros result)

/-- `secret-sharing/src/pss.rs:90-122` `pack`. -/
def PSS.packM (pp : PSS F) (dbg : Bool) (secrets : List T) (rng : Nat → T) : Res (List T) := do
  debugAssert dbg (secrets.length == pp.l)
  let randPoints := (List.range pp.t).map rng
  let result := secrets ++ randPoints
  let result := pp.secret.ifft result
  let lt ← uadd dbg pp.l pp.t
  debugAssert dbg ((result.drop lt).all (· = 0))
  pure (pp.share.fft result)

/-- `secret-sharing/src/pss.rs:163` and `:202`: `result[0..2*l].iter().step_by(2)`. -/
def everyOtherM (dbg : Bool) (result : List T) (l : Nat) : Res (List T) := do
  let l2 ← umul dbg 2 l
  if l2 ≤ result.length then .ok (skipStep (result.take l2) 0 2) else panic'

/-- `secret-sharing/src/pss.rs:141-166` `unpack2`. -/
def PSS.unpack2M (pp : PSS F) (dbg : Bool) (shares : List T) : Res (List T) := do
  let result := pp.share.ifft shares
  let k ← usub dbg (← umul dbg 2 (← uadd dbg pp.l pp.t)) 1
  debugAssert dbg ((result.drop k).all (· = 0))
  everyOtherM dbg (pp.secret2.fft result) pp.l

/-- `secret-sharing/src/pss.rs:170-205` `lagrange_unpack`. -/
def PSS.lagrangeUnpackM (pp : PSS F) (dbg : Bool) (shares : List T) (parties : List Nat) : Res (List T) := do
  debugAssert dbg (shares.length == parties.length)
  let k ← umul dbg 2 (← usub dbg (← uadd dbg pp.t pp.l) 1)
  debugAssert dbg (decide (parties.length > k))
  let shareElements := pp.share.elements
  let xs ← parties.mapM fun p => rd shareElements p
  let result ← lagrangeInterpolateM dbg xs shares
  everyOtherM dbg (pp.secret2.fft result) pp.l

/-- `secret-sharing/src/pss.rs:210-221` `unpack_missing_shares`. -/
def PSS.unpackMissingSharesM (pp : PSS F) (dbg : Bool) (shares : List T) (parties : List Nat) : Res (List T) := do
  debugAssert dbg (shares.length == parties.length)
  if shares.length = pp.n then pp.unpack2M dbg shares
  else pp.lagrangeUnpackM dbg shares parties

/-- `dist-primitives/src/utils/pack.rs:8-20` `pack_vec`. -/
def PSS.packVecM (pp : PSS F) (dbg : Bool) (secrets : List T) (rng : Nat → Nat → T) : Res (List (List T)) := do
  debugAssert dbg (secrets.length % pp.l == 0)
  assert (pp.l != 0)
  (List.range (numChunks secrets pp.l)).mapM fun c => pp.packM dbg (chunk secrets pp.l c) (rng c)

/-- `dist-primitives/src/dfft/mod.rs:59-72` and `:286-299`, `groth16/src/qap.rs:101-115`. -/
def PSS.packStridedM (pp : PSS F) (dbg : Bool) (v : List T) (rng : Nat → Nat → T) : Res (List (List T)) := do
  assert (pp.l != 0)
  (List.range (v.length / pp.l)).mapM fun i => pp.packM dbg (skipStep v i (v.length / pp.l)) (rng i)

/-- `dist-primitives/src/utils/deg_red.rs:40-66` `DegRedMask::sample`. -/
def DegRedMask.sampleM (pp : PSS F) (dbg : Bool) (gen : T) (num : Nat) (vals : Nat → F)
    (rngIn rngOut : Nat → Nat → T) : Res (List (DegRedMask T)) := do
  let m ← umul dbg num pp.l
  let inMaskValues := (List.range m).map fun i => vals i • gen
  let outMaskValues := (List.range m).map fun i => 0 - vals i • gen
  let inShares ← pp.packVecM dbg inMaskValues rngIn
  let inMaskShares ← transpose inShares
  let outShares ← pp.packVecM dbg outMaskValues rngOut
  let outMaskShares ← transpose outShares
  (List.zip inMaskShares outMaskShares).mapM fun (i, o) => DegRedMask.new dbg i o

/-- `dist-primitives/src/utils/deg_red.rs:102-110`: what the king does in `deg_red`. -/
def PSS.degRedKingM (pp : PSS F) (dbg : Bool) (shares : List (List T)) (parties : List Nat) (rng : Nat → Nat → T) :
    Res (List (List T)) := do
  let xShares ← transpose shares
  let xShares ← (List.range xShares.length).mapM fun c => do
    let xShare ← rd xShares c
    let xi ← pp.unpackMissingSharesM dbg xShare parties
    pp.packM dbg xi (rng c)
  transpose xShares

/-- `dist-primitives/src/utils/deg_red.rs:80-126` `deg_red`. -/
def PSS.degRedM [FixedWire T] (pp : PSS F) (dbg : Bool) (n me : Nat) (xShare : List T) (mask : DegRedMask T)
    (sid : Sid) (rng : Nat → Nat → T) : Proc (List T) := do
  debugAssert dbg (xShare.length == mask.inMask.length)
  debugAssert dbg (xShare.length == mask.outMask.length)
  let xMask := addMask xShare mask.inMask
  let received ← clientSendOrKingReceiveSer n me xMask sid pp.t
  let kingAnswer ← kingDo (fun rs : ReceivedShares (List T) => pp.degRedKingM dbg rs.shares rs.parties rng) received
  let xShare ← clientReceiveOrKingSendSer n me kingAnswer sid
  pure (addMask xShare mask.outMask)

/-- `dist-primitives/src/dmsm/mod.rs:21-47` `MsmMask::sample`. -/
def MsmMask.sampleM (pp : PSS F) (dbg : Bool) (gen : T) (vals : Nat → F) (rngIn rngOut : Nat → T) : Res (List (MsmMask T)) := do
  let maskValues := (List.range pp.l).map fun i => vals i • gen
  let outMaskValue := -maskValues.sum
  let inMaskShares ← pp.packM dbg maskValues rngIn
  let outMaskShares ← pp.packM dbg (List.replicate pp.l outMaskValue) rngOut
  pure (List.zipWith MsmMask.mk inMaskShares outMaskShares)

/-- `dist-primitives/src/dmsm/mod.rs:82-88`: what the king does in `d_msm`. -/
def PSS.msmKingM (pp : PSS F) (dbg : Bool) (n : Nat) (shares : List T) (parties : List Nat) : Res (List T) := do
  let result ← pp.unpackMissingSharesM dbg shares parties
  let output := result.sum
  pure (List.replicate n output)

/-- `dist-primitives/src/dmsm/mod.rs:59-102` `d_msm`. -/
def PSS.dMsmM [FixedWire T] (pp : PSS F) (dbg : Bool) (n me : Nat) (bases : List T) (scalars : List F)
    (mask : MsmMask T) (sid : Sid) : Proc T := do
  debugAssert dbg (bases.length == scalars.length)
  let cShare ← msm bases scalars
  let cShare := cShare + mask.inMask
  let received ← clientSendOrKingReceiveSer n me cShare sid pp.t
  let kingAnswer ← kingDo (fun rs : ReceivedShares T => pp.msmKingM dbg n rs.shares rs.parties) received
  let output ← clientReceiveOrKingSendSer n me kingAnswer sid
  pure (output + mask.outMask)

end

/-- `dist-primitives/src/dfft/mod.rs:178-208` `fft1_in_place`. -/
def PSS.fft1InPlaceM (pp : PSS F) (dbg : Bool) (px : List F) (gen : F) : Res (List F) := do
  let domSize ← umul dbg px.length pp.l
  forDown (log2 domSize - log2 pp.l) (fun i' px => do
    let i := log2 pp.l + 1 + i'
    let polySize ← udiv domSize (← upow2 dbg i)
    let factorStride := gen ^ (← upow2 dbg (i - 1))
    let (px, _) ← forUp polySize (fun k (st : List F × F) => do
      let js ← udiv (← upow2 dbg (i - 1)) pp.l
      let px ← forUp js (fun j px => do
        let x ← rd px (← uadd dbg (← umul dbg (← umul dbg 2 j) polySize) k)
        let y ← rd px (← uadd dbg (← umul dbg (← uadd dbg (← umul dbg 2 j) 1) polySize) k)
        let y := y * st.2
        let px ← wr px (← uadd dbg (← umul dbg j (← umul dbg 2 polySize)) k) (x + y)
        wr px (← uadd dbg (← uadd dbg (← umul dbg j (← umul dbg 2 polySize)) k) polySize) (x - y)) st.1
      pure (px, st.2 * factorStride)) (px, factorStride)
    pure px) px

/-- `dist-primitives/src/dfft/mod.rs:210-237` `fft2_in_place`. -/
def PSS.fft2InPlaceM (pp : PSS F) (dbg : Bool) (s1 : List F) (gen : F) : Res (List F) := do
  let domSize := s1.length
  let s2 : List F := List.replicate s1.length 0
  let (s1, _) ← forDown (log2 pp.l) (fun i' (st : List F × List F) => do
    let i := i' + 1
    let s1 := st.1
    let polySize ← udiv domSize (← upow2 dbg i)
    let factorStride := gen ^ (← upow2 dbg (i - 1))
    let (s2, _) ← forUp polySize (fun k (st : List F × F) => do
      let js ← upow2 dbg (i - 1)
      let s2 ← forUp js (fun j s2 => do
        let x ← rd s1 (← uadd dbg (← umul dbg k (← upow2 dbg i)) (← umul dbg 2 j))
        let y ← rd s1 (← uadd dbg (← uadd dbg (← umul dbg k (← upow2 dbg i)) (← umul dbg 2 j)) 1)
        let y := y * st.2
        let s2 ← wr s2 (← uadd dbg (← umul dbg k (← upow2 dbg (i - 1))) j) (x + y)
        wr s2 (← uadd dbg (← umul dbg (← uadd dbg k polySize) (← upow2 dbg (i - 1))) j) (x - y)) st.1
      pure (s2, st.2 * factorStride)) (st.2, factorStride)
    pure (s2, s1)) (s1, s2)
  rotateRight1 s1

/-- `dist-primitives/src/dfft/mod.rs:278-303` and `:48-76`. -/
def PSS.fft2FinishM (pp : PSS F) (dbg : Bool) (s1 : List F) (g gen : F) (rearrange : Bool)
    (post : F → F) (rng : Nat → Nat → F) : Res (List (List F)) := do
  let s1 ← pp.fft2InPlaceM dbg s1 gen
  let s1 := if g ≠ 1 then distributePowers s1 g else s1
  let s1 := s1.map post
  if rearrange then do
    let s1 ← fftInPlaceRearrange s1
    let outShares ← pp.packStridedM dbg s1 rng
    transpose outShares
  else do
    let outShares ← pp.packVecM dbg s1 rng
    transpose outShares

/-- `dist-primitives/src/dfft/mod.rs:30-85` `FftMask::sample`. -/
def FftMask.sampleM (pp : PSS F) (dbg rearrange : Bool) (g gen : F) (m : Nat)
    (vals : Nat → F) (rngIn rngOut : Nat → Nat → F) : Res (List (FftMask F)) := do
  let maskValues := (List.range m).map vals
  let inShares ← pp.packVecM dbg maskValues rngIn
  let inMaskShares ← transpose inShares
  let outMaskShares ← pp.fft2FinishM dbg maskValues g gen rearrange (fun x => -x) rngOut
  pure (List.zipWith FftMask.mk inMaskShares outMaskShares)

/-- `dist-primitives/src/dfft/mod.rs:264-304`: what the king does with the received shares. -/
def PSS.fft2KingM (pp : PSS F) (dbg : Bool) (outLen mbyl : Nat) (g gen : F) (rearrange : Bool)
    (shares : List (List F)) (parties : List Nat) (rng : Nat → Nat → F) : Res (List (List F)) := do
  let allShares ← transpose shares
  let s1 : List F := List.replicate (← umul dbg outLen pp.l) 0
  let s1 ← forUp (min mbyl allShares.length) (fun i s1 => do
    let share ← rd allShares i
    let tmp ← pp.unpackMissingSharesM dbg share parties
    forUp pp.l (fun j s1 => do
      let x ← rd tmp j
      wr s1 (← uadd dbg (← umul dbg i pp.l) j) x) s1) s1
  pp.fft2FinishM dbg s1 g gen rearrange id rng

/-- `dist-primitives/src/dfft/mod.rs:240-320` `fft2_with_rearrange`. -/
def PSS.fft2WithRearrangeM [FixedWire F] (pp : PSS F) (dbg : Bool) (n me : Nat) (px : List F) (mask : FftMask F)
    (rearrange : Bool) (g gen : F) (sid : Sid) (rng : Nat → Nat → F) : Proc (List F) := do
  let mbyl := px.length
  let out := addMask px mask.inMask
  let received ← clientSendOrKingReceiveSer n me out sid pp.t
  let kingAnswer ← kingDo (fun rs : ReceivedShares (List F) =>
    pp.fft2KingM dbg out.length mbyl g gen rearrange rs.shares rs.parties rng) received
  let outShare ← clientReceiveOrKingSendSer n me kingAnswer sid
  pure (addMask outShare mask.outMask)

/-- `dist-primitives/src/dfft/mod.rs:99-134` `d_fft`. -/
def PSS.dFftM [FixedWire F] (pp : PSS F) (dbg : Bool) (n me : Nat) (pcoeffShare : List F) (mask : FftMask F)
    (rearrange : Bool) (dom : Domain F) (sid : Sid) (rng : Nat → Nat → F) : Proc (List F) := do
  let m ← umul dbg pcoeffShare.length pp.l
  debugAssert dbg (m == dom.size)
  let px ← pp.fft1InPlaceM dbg pcoeffShare dom.groupGen
  pp.fft2WithRearrangeM dbg n me px mask rearrange 1 dom.groupGen sid rng

/-- `dist-primitives/src/dfft/mod.rs:137-175` `d_ifft`. -/
def PSS.dIfftM [FixedWire F] (pp : PSS F) (dbg : Bool) (n me : Nat) (pevalShare : List F) (mask : FftMask F)
    (rearrange : Bool) (dom : Domain F) (g : F) (sid : Sid) (rng : Nat → Nat → F) : Proc (List F) := do
  let m ← umul dbg pevalShare.length pp.l
  debugAssert dbg (m == dom.size)
  let pevalShare := pevalShare.map fun x => x * dom.sizeInv
  let px ← pp.fft1InPlaceM dbg pevalShare dom.groupGenInv
  pp.fft2WithRearrangeM dbg n me px mask rearrange g dom.groupGenInv sid rng

/-- `dist-primitives/src/dpp/mod.rs:56-67`. -/
def ppProductsM (dbg : Bool) (numden : List F) : Res (List F) := do
  let half := numden.length / 2
  let numden ← forUp half (fun i (numden : List F) => do
    let d ← rd numden (← uadd dbg i half)
    let d ← unwrap (fieldInverse d)
    let x ← rd numden i
    wr numden i (x * d)) numden
  let numden := numden.take half
  forUp (numden.length - 1) (fun i' (numden : List F) => do
    let i := i' + 1
    let last ← rd numden (← usub dbg i 1)
    let x ← rd numden i
    wr numden i (x * last)) numden

/-- `groth16/src/qap.rs:42-89` `qap`. The slices `[..num_constraints]` and `[start..end]` panic out of range; without overflow they are in
range. -/
def qapM [FftField F] (dbg : Bool) (matrices : ConstraintMatrices F) (fullAssignment : List F) : Res (Option (QAP F)) := do
  let numInputs := matrices.numInstanceVariables
  let numConstraints := matrices.numConstraints
  match Domain.new (F := F) (← uadd dbg numConstraints numInputs) with
  | none => .ok none
  | some domain => do
    let domainSize := domain.size
    let a : List F := List.replicate domainSize 0
    let b : List F := List.replicate domainSize 0
    assert (decide (numConstraints ≤ domainSize))
    let (a, b) ← forUp (min numConstraints (min matrices.a.length matrices.b.length)) (fun i (st : List F × List F) => do
      let at_i ← rd matrices.a i
      let bt_i ← rd matrices.b i
      let x ← evaluateConstraint at_i fullAssignment
      let y ← evaluateConstraint bt_i fullAssignment
      let a ← wr st.1 i x
      let b ← wr st.2 i y
      pure (a, b)) (a, b)
    let stop ← uadd dbg numConstraints numInputs
    assert (decide (numConstraints ≤ stop ∧ stop ≤ domainSize))
    let a ← forUp (stop - numConstraints) (fun j (a : List F) => do
      let x ← rd fullAssignment j
      wr a (numConstraints + j) x) a
    let c : List F := List.replicate domainSize 0
    let c ← forUp numConstraints (fun i (c : List F) => do
      let x ← rd a i
      let y ← rd b i
      wr c i (x * y)) c
    pure (some { numInputs, numConstraints, a, b, c, domain })

/-- `groth16/src/qap.rs:101-115`: the closure `pack` of `QAP::pss`. -/
def PSS.packQapVecM (pp : PSS F) (dbg : Bool) (x : List F) (rng : Nat → Nat → F) : Res (List (List F)) := do
  let x ← fftInPlaceRearrange x
  pp.packStridedM dbg x rng

/-- `groth16/src/qap.rs:92-134` `QAP::pss`. -/
def QAP.pssM (q : QAP F) (pp : PSS F) (dbg : Bool) (rngA rngB rngC : Nat → Nat → F) : Res (List (PackedQAPShare F)) := do
  let packedA ← pp.packQapVecM dbg q.a rngA
  let packedB ← pp.packQapVecM dbg q.b rngB
  let packedC ← pp.packQapVecM dbg q.c rngC
  (List.range pp.n).mapM fun i => do
    let a ← column packedA i
    let b ← column packedB i
    let c ← column packedC i
    pure { numInputs := q.numInputs, numConstraints := q.numConstraints, a, b, c, domain := q.domain }

/-- `groth16/src/ext_wit.rs:104-181` `circom_h`. -/
def PSS.circomHM [FftField F] [FixedWire F] (pp : PSS F) (dbg : Bool) (n me : Nat) (q : PackedQAPShare F)
    (mask : Nat → FftMask F) (degredMask : DegRedMask F) (rng : Nat → Nat → Nat → F) : Proc (List F) := do
  let domain := q.domain
  let m ← umul dbg 2 domain.size
  let domainDouble ← unwrap (Domain.new (F := F) m)
  let root := domainDouble.element 1
  tryJoin3 (pp.dIfftM dbg n me q.a (mask 0) true domain root .zero (rng 0))
    (pp.dIfftM dbg n me q.b (mask 1) true domain root .one (rng 1))
    (pp.dIfftM dbg n me q.c (mask 2) true domain root .two (rng 2)) fun aCoeff bCoeff cCoeff =>
  tryJoin3 (pp.dFftM dbg n me aCoeff (mask 3) false domain .zero (rng 3))
    (pp.dFftM dbg n me bCoeff (mask 4) false domain .one (rng 4))
    (pp.dFftM dbg n me cCoeff (mask 5) false domain .two (rng 5)) fun aEval bEval cEval => do
  let hEval := List.zipWith (fun ab c => ab.1 * ab.2 - c) (List.zip aEval bEval) cEval
  pp.degRedM dbg n me hEval degredMask .zero (rng 6)

/-- `groth16/src/ext_wit.rs:14-102` `libsnark_h`. -/
def PSS.libsnarkHM [FftField F] [FixedWire F] (pp : PSS F) (dbg : Bool) (n me : Nat) (q : PackedQAPShare F)
    (mask : Nat → FftMask F) (rng : Nat → Nat → Nat → F) : Proc (List F) := do
  let domain := q.domain
  let cosetDom ← unwrap (domain.getCoset FftField.GENERATOR)
  tryJoin3 (pp.dIfftM dbg n me q.a (mask 0) true domain cosetDom.offset .zero (rng 0))
    (pp.dIfftM dbg n me q.b (mask 1) true domain cosetDom.offset .one (rng 1))
    (pp.dIfftM dbg n me q.c (mask 2) true domain cosetDom.offset .two (rng 2)) fun aCoeff bCoeff cCoeff =>
  tryJoin3 (pp.dFftM dbg n me aCoeff (mask 3) true domain .zero (rng 3))
    (pp.dFftM dbg n me bCoeff (mask 4) true domain .one (rng 4))
    (pp.dFftM dbg n me cCoeff (mask 5) true domain .two (rng 5)) fun aEval bEval cEval => do
  let vanishingInv ← unwrap (fieldInverse (domain.evalVanishing FftField.GENERATOR))
  let hEval := List.zipWith (fun ab c => (ab.1 * ab.2 - c) * vanishingInv) (List.zip aEval bEval) cEval
  pp.dIfftM dbg n me hEval (mask 6) false domain cosetDom.offsetInv .zero (rng 6)

/-- `groth16/examples/sha256.rs:131-156` `pack_from_witness`. -/
def PSS.packFromWitnessM (pp : PSS F) (dbg : Bool) (fullAssignment : List F) (rng : Nat → Nat → F) : Res (List (List F)) := do
  assert (pp.l != 0)
  let packedAssignments ← (List.range (numChunks fullAssignment pp.l)).mapM fun c =>
    let ch := chunk fullAssignment pp.l c
    let secrets := if ch.length < pp.l then resize ch pp.l 0 else ch
    pp.packM dbg secrets (rng c)
  (List.range pp.n).mapM fun i => column packedAssignments i

section groth16
variable {G1 G2 : Type} [AddCommGroup G1] [Module F G1] [DecidableEq G1] [FixedWire G1]
  [AddCommGroup G2] [Module F G2] [DecidableEq G2] [FixedWire G2]

/-- `groth16/src/prove.rs:26-59` `A::compute`. -/
def PSS.proveAM (pp : PSS F) (dbg : Bool) (n me : Nat) (L N AG1 : G1) (S : List G1) (a : List F) (r : F) (mask : MsmMask G1)
    (sid : Sid) : Proc G1 := do
  let v0 := r • N
  let v1 := L + v0
  let prod ← pp.dMsmM dbg n me S a mask sid
  pure ((v1 + prod) + AG1)

/-- `groth16/src/prove.rs:79-113` `BInG1::compute`. -/
def PSS.proveBInG1M (pp : PSS F) (dbg : Bool) (n me : Nat) (Z K BG1 : G1) (H : List G1) (a : List F) (s r : F) (mask : MsmMask G1)
    (sid : Sid) : Proc G1 :=
  if r = 0 then .done (.ok 0) else do
    let v0 := s • K
    let v1 := Z + v0
    let prod ← pp.dMsmM dbg n me H a mask sid
    pure ((v1 + prod) + BG1)

/-- `groth16/src/prove.rs:132-161` `BInG2::compute`. -/
def PSS.proveBInG2M (pp : PSS F) (dbg : Bool) (n me : Nat) (Z K BG2 : G2) (V : List G2) (a : List F) (s : F) (mask : MsmMask G2)
    (sid : Sid) : Proc G2 := do
  let v0 := s • K
  let v1 := Z + v0
  let prod ← pp.dMsmM dbg n me V a mask sid
  pure ((v1 + prod) + BG2)

/-- `groth16/src/prove.rs:193-238` `C::compute`. -/
def PSS.proveCM (pp : PSS F) (dbg : Bool) (n me : Nat) (A B : G1) (s r : F) (M : G1) (W U : List G1) (ax h : List F)
    (mask0 mask1 : MsmMask G1) : Proc G1 :=
  .par (pp.dMsmM dbg n me W ax mask0 .zero) (pp.dMsmM dbg n me U h mask1 .one) fun w u =>
    let rSDeltaG1 := (r * s) • M
    let sGA := s • A
    let rG1B := r • B
    .done (.ok (sGA + rG1B - rSDeltaG1 + w + u))

/-- `groth16/examples/sha256.rs:32-129` `dsha256`. -/
def PSS.dsha256M [FftField F] [FixedWire F] (pp : PSS F) (dbg : Bool) (n me : Nat) (crs : PackedProvingKeyShare G1 G2)
    (q : PackedQAPShare F) (a ax : List F) (r s : F) (fftMask : Nat → FftMask F) (degredMask : DegRedMask F)
    (g1Mask : Nat → MsmMask G1) (g2Mask : MsmMask G2) (rng : Nat → Nat → Nat → F) : Proc (G1 × G2 × G1) := do
  let h ← pp.circomHM dbg n me q fftMask degredMask rng
  let piA ← pp.proveAM dbg n me crs.aQuery0 crs.deltaG1 crs.alphaG1 crs.s a r (g1Mask 0) .zero
  let piB1 ← pp.proveBInG1M dbg n me crs.bG1Query0 crs.deltaG1 crs.betaG1 crs.h a s r (g1Mask 1) .zero
  let piB2 ← pp.proveBInG2M dbg n me crs.bG2Query0 crs.deltaG2 crs.betaG2 crs.v a s g2Mask .zero
  let piC ← pp.proveCM dbg n me piA piB1 s r crs.deltaG1 crs.w crs.u ax h (g1Mask 2) (g1Mask 3)
  pure (piA, piB2, piC)

/-- `groth16/examples/sha256.rs:183-345`: what the client deals. -/
def PSS.dealM [FftField F] (pp : PSS F) (dbg : Bool) (copies : Nat) (mats : ConstraintMatrices F) (fullAssignment : List F)
    (pk : ProvingKey G1 G2) (gen1 : G1) (gen2 : G2) (r s : F) (t : ClientTape F G1 G2) : Res (List (ServerInput F G1 G2)) := do
  let numInputs := mats.numInstanceVariables
  let q ← unwrap (← qapM dbg mats fullAssignment)
  let rShares ← pp.packM dbg (List.replicate copies r) t.r
  let sShares ← pp.packM dbg (List.replicate copies s) t.s
  let qapShares ← q.pssM pp dbg t.qapA t.qapB t.qapC
  let crsShares ← packFromArkworksProvingKey dbg pk pp
  assert (decide (numInputs ≤ fullAssignment.length))
  let axShares ← pp.packFromWitnessM dbg (fullAssignment.drop numInputs) t.ax
  assert (decide (1 ≤ fullAssignment.length))
  let aShares ← pp.packFromWitnessM dbg (fullAssignment.drop 1) t.a
  let domain := (← rd qapShares 0).domain
  let m ← umul dbg 2 domain.size
  let domainDouble ← unwrap (Domain.new (F := F) m)
  let root := domainDouble.element 1
  let m0 ← FftMask.sampleM pp dbg true root domain.groupGenInv domain.size (t.fft 0).vals (t.fft 0).rngIn (t.fft 0).rngOut
  let m1 ← FftMask.sampleM pp dbg true root domain.groupGenInv domain.size (t.fft 1).vals (t.fft 1).rngIn (t.fft 1).rngOut
  let m2 ← FftMask.sampleM pp dbg true root domain.groupGenInv domain.size (t.fft 2).vals (t.fft 2).rngIn (t.fft 2).rngOut
  let m3 ← FftMask.sampleM pp dbg false 1 domain.groupGen domain.size (t.fft 3).vals (t.fft 3).rngIn (t.fft 3).rngOut
  let m4 ← FftMask.sampleM pp dbg false 1 domain.groupGen domain.size (t.fft 4).vals (t.fft 4).rngIn (t.fft 4).rngOut
  let m5 ← FftMask.sampleM pp dbg false 1 domain.groupGen domain.size (t.fft 5).vals (t.fft 5).rngIn (t.fft 5).rngOut
  let degred ← DegRedMask.sampleM pp dbg (1 : F) (domain.size / pp.l) t.degred.vals t.degred.rngIn t.degred.rngOut
  let n0 ← MsmMask.sampleM pp dbg gen1 (t.msm1 0).vals (t.msm1 0).rngIn (t.msm1 0).rngOut
  let n1 ← MsmMask.sampleM pp dbg gen1 (t.msm1 1).vals (t.msm1 1).rngIn (t.msm1 1).rngOut
  let n2 ← MsmMask.sampleM pp dbg gen1 (t.msm1 2).vals (t.msm1 2).rngIn (t.msm1 2).rngOut
  let n3 ← MsmMask.sampleM pp dbg gen1 (t.msm1 3).vals (t.msm1 3).rngIn (t.msm1 3).rngOut
  let k ← MsmMask.sampleM pp dbg gen2 t.msm2.vals t.msm2.rngIn t.msm2.rngOut
  (List.range pp.n).mapM fun idx => do
    let crs ← rd crsShares idx
    let a ← rd aShares idx
    let ax ← rd axShares idx
    let q ← rd qapShares idx
    let r ← rd rShares idx
    let s ← rd sShares idx
    let degredMask ← rd degred idx
    let g2Mask ← rd k idx
    let fftMask ← [m0, m1, m2, m3, m4, m5].mapM fun ms => rd ms idx
    let g1Mask ← [n0, n1, n2, n3].mapM fun ms => rd ms idx
    pure { crs, q, a, ax, r, s, fftMask, degredMask, g1Mask, g2Mask }

/-- `groth16/examples/sha256.rs:347-361`: the task of one server. -/
def ServerInput.runM [FftField F] [FixedWire F] (x : ServerInput F G1 G2) (pp : PSS F) (dbg : Bool) (n me : Nat)
    (rng : Nat → Nat → Nat → F) : Proc (G1 × G2 × G1) :=
  pp.dsha256M dbg n me x.crs x.q x.a x.ax x.r x.s (fun k => x.fftMask.getD k (FftMask.zero 0)) x.degredMask
    (fun k => x.g1Mask.getD k MsmMask.zero) x.g2Mask rng

/-- `groth16/examples/sha256.rs:366-377`: opening the servers' answers. -/
def PSS.openProofM (pp : PSS F) (dbg : Bool) (result : List (G1 × G2 × G1)) : Res (G1 × G2 × G1) := do
  let a ← rd (← pp.unpack2M dbg (result.map fun x => x.1)) 0
  let b ← rd (← pp.unpack2M dbg (result.map fun x => x.2.1)) 0
  let c ← rd (← pp.unpack2M dbg (result.map fun x => x.2.2)) 0
  pure (a, b, c)

end groth16

end ZkSaas
