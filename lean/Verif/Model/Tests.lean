import Verif.Model.Checks
import Verif.Model.LocalNet
import Verif.Model.Bench
import Verif.Model.Gao

/-!
# The tests of `secret-sharing`, `dist-primitives` and `mpc-net`

Every test fixes some sizes and draws its inputs from a random number generator; here both are parameters. A test that runs a
network is split at the call of `simulate_network_round` or `simulate_lossy_network_round`.
-/

namespace ZkSaas

/-- A test that runs a network: what comes before the round, the closure given to it, as run by party `i`, and what follows the
round. -/
structure NetTest (D α R : Type) where
  prepare : Res D
  party : D → Nat → Proc α
  check : R → Res Unit

variable {F : Type} [Field F] [DecidableEq F]

/-! ### `secret-sharing/src/pss.rs` -/

/-- `secret-sharing/src/pss.rs:238-247` `test_initialize`. -/
def testInitialize [FftField F] (dbg : Bool) (l : Nat) : Res Unit := do
  let pp ← PSS.new (F := F) dbg l
  assert (pp.t == l)
  assert (pp.l == l)
  assert (pp.n == l * 4)
  assert (pp.share.size == l * 4)
  assert (pp.secret.size == l + l)
  assert (pp.secret2.size == 2 * (l + l))

/-- `&v[0..n]`. -/
def sliceTo {T : Type} (v : List T) (n : Nat) : Res (List T) := if n ≤ v.length then .ok (v.take n) else panic'

/-- `secret-sharing/src/pss.rs:249-272` `test_packing`. -/
def PSS.testPacking (pp : PSS F) (dbg : Bool) (secrets : List F) (rng : Nat → F) : Res Unit := do
  let expected := secrets
  let shares ← pp.pack dbg secrets rng
  let secrets := pp.unpack shares
  let some' ← sliceTo shares (pp.n - pp.t + 1)
  let lagrangeSecrets ← pp.lagrangeUnpack dbg some' (List.range (pp.n - pp.t + 1))
  assert (expected == secrets)
  assert (expected == lagrangeSecrets)

/-- `secret-sharing/src/pss.rs:274-288` `test_det_packing`. -/
def PSS.testDetPacking (pp : PSS F) (dbg : Bool) (secrets : List F) : Res Unit := do
  let expected := secrets
  let shares ← pp.detPack dbg secrets
  let secrets := pp.unpack shares
  assert (expected == secrets)

/-- `secret-sharing/src/pss.rs:290-311` `test_multiplication`. -/
def PSS.testMultiplication (pp : PSS F) (dbg : Bool) (secrets : List F) (rng : Nat → F) : Res Unit := do
  let expected := secrets.map fun x => x * x
  let shares ← pp.pack dbg secrets rng
  let mulShares := shares.map fun x => x * x
  let mulSecrets ← pp.unpack2 dbg mulShares
  let some' ← sliceTo mulShares (pp.n - 1)
  let lagrangeSecrets ← pp.lagrangeUnpack dbg some' (List.range (pp.n - 1))
  assert (expected == mulSecrets)
  assert (expected == lagrangeSecrets)

/-- `secret-sharing/src/pss.rs:313-323` `test_eval_interpolate`; `degree` is the length of `p`. -/
def testEvalInterpolate (p : List F) : Res Unit := do
  let xs : List F := (List.range' 1 (2 * p.length)).map fun x : Nat => (x : F)
  let ys := xs.map fun x => eval p x
  let shouldBeP ← lagrangeInterpolate xs ys
  assert (shouldBeP == p)

/-! ### `secret-sharing/src/gao.rs` -/

/-- `secret-sharing/src/gao.rs:125-140` `test_error_correction`: the message is encoded with `share.fft`, `err` is added at the
position `i`, and the word is decoded with the given length and dimension. -/
noncomputable def PSS.testErrorCorrection (pp : PSS F) (m : List F) (i : Nat) (err : F) (codelength dimension : Nat) :
    Res Unit := do
  let code := pp.share.fft m
  let x ← rd code i
  let code ← wr code i (x + err)
  let decoded ← pp.decodeToMessage code codelength dimension
  assert (decide (decoded = Spec.toPoly m))

/-! ### `dist-primitives/src/dmsm/mod.rs` -/

section dmsm
variable {G : Type} [AddCommGroup G] [Module F G] [DecidableEq G]

/-- `dist-primitives/src/dmsm/mod.rs:127-137` `pack_unpack_test`. -/
def PSS.packUnpackTest (pp : PSS F) (dbg : Bool) (secrets : List G) (rng : Nat → G) : Res Unit := do
  let shares ← pp.pack dbg secrets rng
  let result := pp.unpack shares
  assert (secrets == result)

/-- `dist-primitives/src/dmsm/mod.rs:139-180` `pack_unpack2_test`. -/
def PSS.packUnpack2Test (pp : PSS F) (dbg : Bool) (gsecrets : List G) (fsecrets : List F) (rngG : Nat → Nat → G)
    (rngF : Nat → Nat → F) : Res Unit := do
  let expected ← unwrap (msm gsecrets fsecrets).toOption
  let gshares ← (List.range (numChunks gsecrets pp.l)).mapM fun c => pp.pack dbg (chunk gsecrets pp.l c) (rngG c)
  let fshares ← (List.range (numChunks fsecrets pp.l)).mapM fun c => pp.pack dbg (chunk fsecrets pp.l c) (rngF c)
  let gshares ← transpose gshares
  let fshares ← transpose fshares
  let result : List G := List.replicate pp.n 0
  let result ← forUp (pp.l * 4) (fun i result => do
    let g ← rd gshares i
    let f ← rd fshares i
    let r ← unwrap (msm g f).toOption
    wr result i r) result
  let opened ← pp.unpack2 dbg result
  let result := opened.sum
  assert (expected == result)

end dmsm

/-! ### `dist-primitives/src/utils/deg_red.rs` -/

/-- `dist-primitives/src/utils/deg_red.rs:141-192` `test_deg_red`, run with `simulate_lossy_network_round`. -/
def PSS.testDegRed [FixedWire F] (pp : PSS F) (dbg : Bool) (secrets : List F) (rng₀ : Nat → F) (vals : Nat → F)
    (rngIn rngOut rng : Nat → Nat → F) : NetTest (List F × List (DegRedMask F)) (List F) (ReceivedShares (List F)) where
  prepare := do
    let shares ← pp.pack dbg secrets rng₀
    let mulShares := shares.map fun x => x * x
    let degredMasks ← DegRedMask.sample pp dbg (1 : F) 1 vals rngIn rngOut
    pure (mulShares, degredMasks)
  party := fun (mulShares, degredMasks) idx => do
    let mulShare ← rd mulShares idx
    let mask ← rd degredMasks idx
    pp.degRed dbg pp.n idx [mulShare] mask .one rng
  check := fun rs => do
    let expected := secrets.map fun x => x * x
    let shares ← transpose rs.shares
    let computed ← if rs.parties.length = pp.n then pure (shares.map pp.unpack)
      else shares.mapM fun x => pp.lagrangeUnpack dbg x rs.parties
    assert (computed.flatten == expected)

/-! ### `dist-primitives/src/dfft/tests.rs` -/

section dfft
variable [FixedWire F]

/-- `dist-primitives/src/dfft/tests.rs:30-40` (and `:90-101`, `:151-161`, `:232-242`): rearrange and pack every `M / l`-th value. -/
def PSS.packTestVec (pp : PSS F) (dbg : Bool) (M : Nat) (x : List F) (rng : Nat → Nat → F) : Res (List (List F)) := do
  let x ← fftInPlaceRearrange x
  (List.range (M / pp.l)).mapM fun i => pp.pack dbg (skipStep x i (M / pp.l)) (rng i)

/-- `dist-primitives/src/dfft/tests.rs:20-78` `d_ifft_works`. -/
def PSS.dIfftWorks (pp : PSS F) (dbg : Bool) (dom : Domain F) (M : Nat) (polyEvals : List F) (rng₀ : Nat → Nat → F)
    (vals : Nat → F) (rngIn rngOut rng : Nat → Nat → F) : NetTest (List (List F) × List (FftMask F)) (List F) (List (List F)) where
  prepare := do
    let packEvals ← pp.packTestVec dbg M polyEvals rng₀
    let ifftMask ← FftMask.sample pp dbg false 1 dom.groupGenInv M vals rngIn rngOut
    pure (packEvals, ifftMask)
  party := fun (packEvals, ifftMask) idx => do
    let packEval ← column packEvals idx
    let mask ← rd ifftMask idx
    pp.dIfft dbg pp.n idx packEval mask false dom 1 .zero rng
  check := fun result => do
    let polyCoeffs := dom.ifft polyEvals
    let computed ← pp.openRows result
    assert (polyCoeffs == computed)

/-- `dist-primitives/src/dfft/tests.rs:80-139` `d_fft_works`. -/
def PSS.dFftWorks (pp : PSS F) (dbg : Bool) (dom : Domain F) (M : Nat) (polyCoeffs : List F) (rng₀ : Nat → Nat → F)
    (vals : Nat → F) (rngIn rngOut rng : Nat → Nat → F) : NetTest (List (List F) × List (FftMask F)) (List F) (List (List F)) where
  prepare := do
    let packCoeffs ← pp.packTestVec dbg M polyCoeffs rng₀
    let fftMask ← FftMask.sample pp dbg false 1 dom.groupGen M vals rngIn rngOut
    pure (packCoeffs, fftMask)
  party := fun (packCoeffs, fftMask) idx => do
    let packCoeff ← column packCoeffs idx
    let mask ← rd fftMask idx
    pp.dFft dbg pp.n idx packCoeff mask false dom .zero rng
  check := fun result => do
    let polyEvals := dom.fft polyCoeffs
    let computed ← pp.openRows result
    assert (polyEvals == computed)

/-- `dist-primitives/src/dfft/tests.rs:141-219` `d_ifftxd_fft_works`. The first index of the tapes tells the masks and the
transforms apart. -/
def PSS.dIfftxdFftWorks (pp : PSS F) (dbg : Bool) (dom : Domain F) (M : Nat) (polyEvals : List F) (rng₀ : Nat → Nat → F)
    (vals : Nat → Nat → F) (rngIn rngOut rng : Nat → Nat → Nat → F) :
    NetTest (List (List F) × List (FftMask F) × List (FftMask F)) (List F) (List (List F)) where
  prepare := do
    let packEvals ← pp.packTestVec dbg M polyEvals rng₀
    let ifftMask ← FftMask.sample pp dbg true 1 dom.groupGenInv M (vals 0) (rngIn 0) (rngOut 0)
    let fftMask ← FftMask.sample pp dbg false 1 dom.groupGen M (vals 1) (rngIn 1) (rngOut 1)
    pure (packEvals, ifftMask, fftMask)
  party := fun (packEvals, ifftMask, fftMask) idx => do
    let packEval ← column packEvals idx
    let mask ← rd ifftMask idx
    let pCoeff ← pp.dIfft dbg pp.n idx packEval mask true dom 1 .zero (rng 0)
    let mask ← rd fftMask idx
    pp.dFft dbg pp.n idx pCoeff mask false dom .zero (rng 1)
  check := fun result => do
    let computed ← pp.openRows result
    assert (polyEvals == computed)

/-- `dist-primitives/src/dfft/tests.rs:221-358` `coset_d_ifftxd_fft_works`. `g` is `F::GENERATOR`. -/
def PSS.cosetWorks (pp : PSS F) (dbg : Bool) (dom : Domain F) (g : F) (M : Nat) (polyEvals : List F) (rng₀ : Nat → Nat → F)
    (vals : Nat → Nat → F) (rngIn rngOut rng : Nat → Nat → Nat → F) :
    NetTest (Domain F × List (List F) × List (FftMask F) × List (FftMask F) × List (FftMask F) × List (FftMask F)) (List F)
      (List (List F)) where
  prepare := do
    let cosetDom ← unwrap (dom.getCoset g)
    let packEvals ← pp.packTestVec dbg M polyEvals rng₀
    let m0 ← FftMask.sample pp dbg true cosetDom.offset dom.groupGenInv M (vals 0) (rngIn 0) (rngOut 0)
    let m1 ← FftMask.sample pp dbg true 1 cosetDom.groupGen M (vals 1) (rngIn 1) (rngOut 1)
    let m2 ← FftMask.sample pp dbg true cosetDom.offsetInv dom.groupGenInv M (vals 2) (rngIn 2) (rngOut 2)
    let m3 ← FftMask.sample pp dbg false 1 cosetDom.groupGen M (vals 3) (rngIn 3) (rngOut 3)
    pure (cosetDom, packEvals, m0, m1, m2, m3)
  party := fun (cosetDom, packEvals, m0, m1, m2, m3) idx => do
    let pevalShare ← column packEvals idx
    let mask ← rd m0 idx
    let pCoeff ← pp.dIfft dbg pp.n idx pevalShare mask true dom cosetDom.offset .zero (rng 0)
    let mask ← rd m1 idx
    let cosetPevalShare ← pp.dFft dbg pp.n idx pCoeff mask true dom .zero (rng 1)
    let mask ← rd m2 idx
    let pCoeff ← pp.dIfft dbg pp.n idx cosetPevalShare mask true dom cosetDom.offsetInv .zero (rng 2)
    let mask ← rd m3 idx
    pp.dFft dbg pp.n idx pCoeff mask false dom .zero (rng 3)
  check := fun result => do
    let computed ← pp.openRows result
    assert (polyEvals == computed)

end dfft

/-! ### `mpc-net/src/multi.rs` -/

/-- The loop of `mpc-net/src/multi.rs:468-481`: the id on all three streams to every peer. -/
def muxSend (me : Nat) : List Nat → Proc Unit
  | [] => pure ()
  | p :: ps => if p = me then muxSend me ps else
    .send p .zero [UInt8.ofNat me] (.send p .one [UInt8.ofNat me] (.send p .two [UInt8.ofNat me] (muxSend me ps)))

/-- The loop of `mpc-net/src/multi.rs:484-497`: one byte from every peer on every stream; `ids` holds what was received on each of
them. -/
def muxRecv (me : Nat) : List Nat → List (List (Fin (2 ^ 32))) → Proc (List (List (Fin (2 ^ 32))))
  | [], ids => pure ids
  | p :: ps, ids => if p = me then muxRecv me ps ids else
    .recv p .zero fun b0 => .recv p .one fun b1 => .recv p .two fun b2 =>
      Proc.bind (.done ([b0, b1, b2].mapM fun b => rd b 0)) fun bs =>
        muxRecv me ps (List.zipWith (fun l (b : UInt8) => l ++ [Fin.ofNat (2 ^ 32) b.toNat]) ids bs)

/-- `mpc-net/src/multi.rs:460-502`: the closure of `test_multiplexing` as run by party `me`. `peers` and `peers'` are the keys of the
hash map `conn.peers`, in the order in which the two loops go through them. A party without peers has no streams in its map. -/
def testMultiplexing (dbg : Bool) (n me : Nat) (peers peers' : List Nat) : Proc Unit := do
  let expectedSum ← sumU32 dbg ((List.range n).map (Fin.ofNat _))
  muxSend me peers
  let ids ← muxRecv me peers' [[], [], []]
  let _ ← ((ids.filter fun l => !l.isEmpty).mapM fun l => do
    let s ← sumU32 dbg l
    let s ← addU32 dbg s (Fin.ofNat _ me)
    assert (expectedSum == s) : Res (List Unit))
  pure ()

end ZkSaas
