import Verif.Model.Pack

/-!
# `dist-primitives/src/dfft/mod.rs`: the local computations

The interactive part (`fft2_with_rearrange`, `d_fft`, `d_ifft`) is in `Verif.Model.Protocols`.
Exponents and indices are natural numbers: `usize` overflow is not modelled.
-/

namespace ZkSaas

variable {F : Type} [Field F] [DecidableEq F]

/-- `dist-primitives/src/dfft/mod.rs:328-333`: the inner `while` and the final `target |= mask`.
`target &= !mask` clears the bits of `mask`, written here as `target ^^^ (target &&& mask)`. -/
def bumpTarget (target mask : Nat) : Nat :=
  if h : target &&& mask ≠ 0 then bumpTarget (target ^^^ (target &&& mask)) (mask >>> 1)
  else target ||| mask
termination_by mask
decreasing_by
  have : mask ≠ 0 := by rintro rfl; simp at h
  rw [Nat.shiftRight_eq_div_pow]; omega

/-- `slice::swap(i, j)`: panics out of bounds. -/
def swap {T : Type} (v : List T) (i j : Nat) : Res (List T) := do
  let x ← rd v i
  let y ← rd v j
  let v ← wr v i y
  wr v j x

/-- `dist-primitives/src/dfft/mod.rs:322-335` `fft_in_place_rearrange`. The state of the loop is `(data, target)`. -/
def fftInPlaceRearrange {T : Type} (data : List T) : Res (List T) := do
  let (data, _) ← forUp data.length (fun pos (st : List T × Nat) => do
    let data ← if st.2 > pos then swap st.1 st.2 pos else .ok st.1
    pure (data, bumpTarget st.2 (data.length >>> 1))) (data, 0)
  pure data

/-- `dist-primitives/src/dfft/mod.rs:178-208` `fft1_in_place`. The outer loop variable `i` runs over
`(log2(l)+1 ..= log2(dom_size)).rev()`; the state of the loop over `k` is `(px, factor)`. -/
def PSS.fft1InPlace (pp : PSS F) (px : List F) (gen : F) : Res (List F) :=
  let domSize := px.length * pp.l
  forDown (log2 domSize - log2 pp.l) (fun i' px => do
    let i := log2 pp.l + 1 + i'
    let polySize := domSize / 2 ^ i
    let factorStride := gen ^ 2 ^ (i - 1)
    let (px, _) ← forUp polySize (fun k (st : List F × F) => do
      let px ← forUp (2 ^ (i - 1) / pp.l) (fun j px => do
        let x ← rd px (2 * j * polySize + k)
        let y ← rd px ((2 * j + 1) * polySize + k)
        let y := y * st.2
        let px ← wr px (j * (2 * polySize) + k) (x + y)
        wr px (j * (2 * polySize) + k + polySize) (x - y)) st.1
      pure (px, st.2 * factorStride)) (px, factorStride)
    pure px) px

/-- `Vec::rotate_right(1)`; panics on an empty vector. -/
def rotateRight1 {T : Type} (v : List T) : Res (List T) :=
  match v.getLast? with
  | none => panic'
  | some x => .ok (x :: v.dropLast)

/-- `dist-primitives/src/dfft/mod.rs:210-237` `fft2_in_place`. The state of the outer loop is `(s1, s2)`, of the loop
over `k` it is `(s2, factor)`. -/
def PSS.fft2InPlace (pp : PSS F) (s1 : List F) (gen : F) : Res (List F) := do
  let domSize := s1.length
  let s2 : List F := List.replicate s1.length 0
  let (s1, _) ← forDown (log2 pp.l) (fun i' (st : List F × List F) => do
    let i := i' + 1
    let s1 := st.1
    let polySize := domSize / 2 ^ i
    let factorStride := gen ^ 2 ^ (i - 1)
    let (s2, _) ← forUp polySize (fun k (st : List F × F) => do
      let s2 ← forUp (2 ^ (i - 1)) (fun j s2 => do
        let x ← rd s1 (k * 2 ^ i + 2 * j)
        let y ← rd s1 (k * 2 ^ i + 2 * j + 1)
        let y := y * st.2
        let s2 ← wr s2 (k * 2 ^ (i - 1) + j) (x + y)
        wr s2 ((k + polySize) * 2 ^ (i - 1) + j) (x - y)) st.1
      pure (s2, st.2 * factorStride)) (st.2, factorStride)
    pure (s2, s1)) (s1, s2)
  rotateRight1 s1

/-- `dist-primitives/src/dfft/mod.rs:278-303` (and, for the masks, `:48-76`): the tail of the king's work once the
secrets are known: `fft2_in_place`, distribute the powers of `g`, optionally rearrange, pack and transpose. `post` is
applied between the scaling and the packing (negation for the masks, nothing for the king). -/
def PSS.fft2Finish (pp : PSS F) (dbg : Bool) (s1 : List F) (g gen : F) (rearrange : Bool)
    (post : F → F) (rng : Nat → Nat → F) : Res (List (List F)) := do
  let s1 ← pp.fft2InPlace s1 gen
  let s1 := if g ≠ 1 then distributePowers s1 g else s1
  let s1 := s1.map post
  if rearrange then do
    let s1 ← fftInPlaceRearrange s1
    let outShares ← pp.packStrided dbg s1 rng
    transpose outShares
  else do
    let outShares ← pp.packVec dbg s1 rng
    transpose outShares

/-- `dist-primitives/src/dfft/mod.rs:16-19` `struct FftMask` (one party's share of the mask). -/
structure FftMask (F : Type) where
  inMask : List F
  outMask : List F

/-- `dist-primitives/src/dfft/mod.rs:30-85` `FftMask::sample`. `vals i` is the `i`-th mask value drawn, `rngIn` and
`rngOut` the randomness of the packings. -/
def FftMask.sample (pp : PSS F) (dbg rearrange : Bool) (g gen : F) (m : Nat)
    (vals : Nat → F) (rngIn rngOut : Nat → Nat → F) : Res (List (FftMask F)) := do
  let maskValues := (List.range m).map vals
  let inShares ← pp.packVec dbg maskValues rngIn
  let inMaskShares ← transpose inShares
  let outMaskShares ← pp.fft2Finish dbg maskValues g gen rearrange (fun x => -x) rngOut
  pure (List.zipWith FftMask.mk inMaskShares outMaskShares)

/-- `dist-primitives/src/dfft/mod.rs:89-94` `FftMask::zero`. -/
def FftMask.zero (mbyl : Nat) : FftMask F :=
  { inMask := List.replicate mbyl 0, outMask := List.replicate mbyl 0 }

/-- `dist-primitives/src/dfft/mod.rs:254-258` (and `:313-317`): `iter().zip(mask).map(x + m)`. -/
def addMask {T : Type} [Add T] (x mask : List T) : List T := List.zipWith (· + ·) x mask

/-- `dist-primitives/src/dfft/mod.rs:264-304`: what the king does with the received shares. `outLen` is `out.len()`
(the length after zipping with the mask), `mbyl` is `px.len()`. -/
def PSS.fft2King (pp : PSS F) (dbg : Bool) (outLen mbyl : Nat) (g gen : F) (rearrange : Bool)
    (shares : List (List F)) (parties : List Nat) (rng : Nat → Nat → F) : Res (List (List F)) := do
  let allShares ← transpose shares
  let s1 : List F := List.replicate (outLen * pp.l) 0
  let s1 ← forUp (min mbyl allShares.length) (fun i s1 => do
    let share ← rd allShares i
    let tmp ← pp.unpackMissingShares dbg share parties
    forUp pp.l (fun j s1 => do
      let x ← rd tmp j
      wr s1 (i * pp.l + j) x) s1) s1
  pp.fft2Finish dbg s1 g gen rearrange id rng

end ZkSaas
