import Verif.Model.Refs

/-!
# The example programs of `dist-primitives`

The examples run the protocols and assert that the result is right. Here the vectors, which the examples fix, are parameters.
-/

namespace ZkSaas

variable {F : Type} [Field F] [DecidableEq F]

/-- `dist-primitives/examples/dfft_test.rs:14-80` `d_fft_test` (in the source `x` is `0, 1, …, dom.size() - 1`). `rng₀` is
`test_rng()`: every party draws the same numbers. -/
def PSS.dFftTest [FixedWire F] (pp : PSS F) (dbg : Bool) (n me : Nat) (x : List F) (dom : Domain F)
    (rng₀ rng : Nat → Nat → F) : Proc Unit := do
  let mbyl := dom.size / pp.l
  let shouldBeOutput := dom.fft x
  let x ← fftInPlaceRearrange x
  let pcoeff ← ((List.range mbyl).mapM fun i => pp.pack dbg (skipStep x i mbyl) (rng₀ i) : Res (List (List F)))
  let pcoeffShare ← column pcoeff me
  let fftMask : FftMask F := ⟨List.replicate mbyl 0, List.replicate mbyl 0⟩
  let pevalShare ← pp.dFft dbg n me pcoeffShare fftMask false dom .one rng
  let result ← clientSendOrKingReceiveSer n me pevalShare .one pp.t
  let _ ← kingDo (fun rs : ReceivedShares (List F) => do
    let pevals ← pp.openRows rs.shares
    if me = 0 then assert (shouldBeOutput == pevals) else pure ()) result
  pure ()

/-- `dist-primitives/examples/dpp_test.rs:16-53` `d_pp_test`. -/
def PSS.dPpTest [FixedWire F] (pp : PSS F) (dbg : Bool) (n me : Nat) (pxShare : List F) (mask : DegRedMask F) (dom : Domain F)
    (rng rng' : Nat → Nat → F) : Proc Unit := do
  let ppPxShare ← pp.dPp dbg n me pxShare pxShare mask .one rng rng'
  let result ← clientSendOrKingReceiveSer n me ppPxShare .one pp.t
  let _ ← kingDo (fun rs : ReceivedShares (List F) => do
    let ppPx ← pp.openRows rs.shares
    debugAssert dbg (List.replicate dom.size 1 == ppPx)) result
  pure ()

/-- `dist-primitives/examples/dmsm_test.rs:13-53` `d_msm_test`. -/
def PSS.dMsmTest {G : Type} [AddCommGroup G] [Module F G] [DecidableEq G] [FixedWire G] (pp : PSS F) (dbg : Bool) (n me : Nat)
    (xPub : List G) (yPub : List F) (xShare : List G) (yShare : List F) (mask : MsmMask G) : Proc Unit := do
  let shouldBeOutput ← unwrap (msm xPub yPub).toOption
  let output ← pp.dMsm dbg n me xShare yShare mask .one
  let received ← clientSendOrKingReceiveSer n me output .one pp.t
  let _ ← kingDo (fun rs : ReceivedShares G => do
    let result ← pp.unpackMissingShares dbg rs.shares rs.parties
    let r0 ← rd result 0
    assert (shouldBeOutput == r0)) received
  pure ()

/-- `dist-primitives/examples/dmsm_bench.rs:9-43` `d_msm_test`. `y` and `x` are the values drawn from `test_rng()`; the share
vectors have `dom.size()` entries, not `mbyl`. The source drops the result. -/
def PSS.dMsmBenchRound {G : Type} [AddCommGroup G] [Module F G] [DecidableEq G] [FixedWire G] (pp : PSS F) (dbg : Bool) (n me : Nat)
    (dom : Domain F) (y : Nat → F) (x : Nat → G) : Proc G := do
  let yShare := (List.range dom.size).map y
  let xShare := (List.range dom.size).map x
  let msmMask : MsmMask G := ⟨0, 0⟩
  pp.dMsm dbg n me xShare yShare msmMask .one

/-- `dist-primitives/examples/dmsm_bench.rs:50-60`: what every party does in `main` (there `l` is `2` and the exponents are
`10..14`). Every call of `d_msm_test` starts `test_rng()` anew. -/
def dMsmBench [FftField F] {G : Type} [AddCommGroup G] [Module F G] [DecidableEq G] [FixedWire G] (dbg : Bool) (l n me : Nat)
    (exps : List Nat) (y : Nat → F) (x : Nat → G) : Proc (List G) := do
  let pp ← (PSS.new dbg l : Res (PSS F))
  exps.foldlM (fun outs i => do
    let dom ← (unwrap (Domain.new (1 <<< i)) : Res (Domain F))
    let out ← pp.dMsmBenchRound dbg n me dom y x
    pure (outs ++ [out])) []

/-- `dist-primitives/examples/msm_bench.rs:6-29`: the same without network. -/
def msmBench [FftField F] {G : Type} [AddCommGroup G] [Module F G] (exps : List Nat) (y : Nat → F) (x : Nat → G) : Res (List G) :=
  exps.mapM fun i => do
    let dom ← (unwrap (Domain.new (1 <<< i)) : Res (Domain F))
    unwrap (msm ((List.range dom.size).map x) ((List.range dom.size).map y)).toOption

/-- `dist-primitives/examples/local_dfft_test.rs:35-54`: `fft1` on rows of `l` values. -/
def localFft1 (l : Nat) (dom : Domain F) (s1 : List (List F)) : Res (List (List F)) :=
  forDown (log2 dom.size - log2 l) (fun i' s1 => do
    let i := log2 l + 1 + i'
    let polySize := dom.size / 2 ^ i
    let factorStride := dom.element (2 ^ (i - 1))
    let (s1, _) ← forUp polySize (fun k (st : List (List F) × F) => do
      let s1 ← forUp (2 ^ (i - 1) / l) (fun j s1 =>
        forUp l (fun ii s1 => do
          let row ← rd s1 (2 * j * polySize + k)
          let x ← rd row ii
          let row ← rd s1 ((2 * j + 1) * polySize + k)
          let y ← rd row ii
          let y := y * st.2
          let row ← rd s1 (j * (2 * polySize) + k)
          let row ← wr row ii (x + y)
          let s1 ← wr s1 (j * (2 * polySize) + k) row
          let row ← rd s1 (j * (2 * polySize) + k + polySize)
          let row ← wr row ii (x - y)
          wr s1 (j * (2 * polySize) + k + polySize) row) s1) st.1
      pure (s1, st.2 * factorStride)) (s1, factorStride)
    pure s1) s1

/-- `dist-primitives/examples/local_dfft_test.rs:62-80`: `fft2`; the second buffer starts as a copy of the first. -/
def localFft2 (l : Nat) (dom : Domain F) (sx : List F) : Res (List F) := do
  let (s1, _) ← forDown (log2 l) (fun i' (st : List F × List F) => do
    let i := i' + 1
    let s1 := st.1
    let polySize := dom.size / 2 ^ i
    let factorStride := dom.element (2 ^ (i - 1))
    let (s2, _) ← forUp polySize (fun k (st : List F × F) => do
      let s2 ← forUp (2 ^ (i - 1)) (fun j s2 => do
        let x ← rd s1 (k * 2 ^ i + 2 * j)
        let y ← rd s1 (k * 2 ^ i + 2 * j + 1)
        let y := y * st.2
        let s2 ← wr s2 (k * 2 ^ (i - 1) + j) (x + y)
        wr s2 ((k + polySize) * 2 ^ (i - 1) + j) (x - y)) st.1
      pure (s2, st.2 * factorStride)) (st.2, factorStride)
    pure (s2, s1)) (sx, sx)
  rotateRight1 s1

/-- `dist-primitives/examples/local_dfft_test.rs:10-82` `local_dfft_test` without the final `assert_eq!(output, s1)`: the list
`s1`. In the source `x` is `0, 1, …, dom.size() - 1`. -/
def PSS.localDfft (pp : PSS F) (dom : Domain F) (x : List F) : Res (List F) := do
  let mbyl := dom.size / pp.l
  let x ← fftInPlaceRearrange x
  let s1 ← localFft1 pp.l dom ((List.range mbyl).map fun i => skipStep x i mbyl)
  let sx ← forUp mbyl (fun i (sx : List F) => do
    let row ← rd s1 i
    pure (sx ++ row)) []
  localFft2 pp.l dom sx

end ZkSaas
