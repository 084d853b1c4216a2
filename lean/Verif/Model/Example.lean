import Verif.Model.Prove

/-!
# `main` of `groth16/examples/sha256.rs`: what the client deals to the servers and how it opens their answers

The circuit, its witness and the keys come from ark-circom and ark-groth16; here the matrices, the full assignment and the proving
key are arguments. The randomness of the client is an argument too, one tape per use.
-/

namespace ZkSaas

variable {F : Type} [Field F] [DecidableEq F] {G1 G2 : Type} [AddCommGroup G1] [Module F G1] [DecidableEq G1] [FixedWire G1]
  [AddCommGroup G2] [Module F G2] [DecidableEq G2] [FixedWire G2]

/-- The randomness of one `MsmMask::sample`. -/
structure MsmTape (F G : Type) where
  vals : Nat → F
  rngIn : Nat → G
  rngOut : Nat → G

/-- The randomness of one `FftMask::sample` or `DegRedMask::sample` (of field elements). -/
structure VecTape (F : Type) where
  vals : Nat → F
  rngIn : Nat → Nat → F
  rngOut : Nat → Nat → F

/-- The randomness of the client in `main`. -/
structure ClientTape (F G1 G2 : Type) where
  r : Nat → F
  s : Nat → F
  qapA : Nat → Nat → F
  qapB : Nat → Nat → F
  qapC : Nat → Nat → F
  a : Nat → Nat → F
  ax : Nat → Nat → F
  fft : Nat → VecTape F
  degred : VecTape F
  msm1 : Nat → MsmTape F G1
  msm2 : MsmTape F G2

/-- `groth16/examples/sha256.rs:322-345`: what one server is given. -/
structure ServerInput (F G1 G2 : Type) where
  crs : PackedProvingKeyShare G1 G2
  q : PackedQAPShare F
  a : List F
  ax : List F
  r : F
  s : F
  fftMask : List (FftMask F)
  degredMask : DegRedMask F
  g1Mask : List (MsmMask G1)
  g2Mask : MsmMask G2

/-- `groth16/examples/sha256.rs:183-345`: the inputs of the `n` servers. `copies` is the number of copies of `r` and of `s` handed
to `pack`, `pp.n` in the code (`:203-204`). The generators of the groups are arguments. The lookups `[idx]` of `:322-345` happen in
the servers' tasks; here they are part of the dealing. -/
def PSS.deal [FftField F] (pp : PSS F) (dbg : Bool) (copies : Nat) (mats : ConstraintMatrices F) (fullAssignment : List F)
    (pk : ProvingKey G1 G2) (gen1 : G1) (gen2 : G2) (r s : F) (t : ClientTape F G1 G2) : Res (List (ServerInput F G1 G2)) := do
  let numInputs := mats.numInstanceVariables
  let q ← unwrap (← qap mats fullAssignment)
  let rShares ← pp.pack dbg (List.replicate copies r) t.r
  let sShares ← pp.pack dbg (List.replicate copies s) t.s
  let qapShares ← q.pss pp dbg t.qapA t.qapB t.qapC
  let crsShares ← packFromArkworksProvingKey dbg pk pp
  assert (decide (numInputs ≤ fullAssignment.length))
  let axShares ← pp.packFromWitness dbg (fullAssignment.drop numInputs) t.ax
  assert (decide (1 ≤ fullAssignment.length))
  let aShares ← pp.packFromWitness dbg (fullAssignment.drop 1) t.a
  let domain := (← rd qapShares 0).domain
  let domainDouble ← unwrap (Domain.new (F := F) (2 * domain.size))
  let root := domainDouble.element 1
  let m0 ← FftMask.sample pp dbg true root domain.groupGenInv domain.size (t.fft 0).vals (t.fft 0).rngIn (t.fft 0).rngOut
  let m1 ← FftMask.sample pp dbg true root domain.groupGenInv domain.size (t.fft 1).vals (t.fft 1).rngIn (t.fft 1).rngOut
  let m2 ← FftMask.sample pp dbg true root domain.groupGenInv domain.size (t.fft 2).vals (t.fft 2).rngIn (t.fft 2).rngOut
  let m3 ← FftMask.sample pp dbg false 1 domain.groupGen domain.size (t.fft 3).vals (t.fft 3).rngIn (t.fft 3).rngOut
  let m4 ← FftMask.sample pp dbg false 1 domain.groupGen domain.size (t.fft 4).vals (t.fft 4).rngIn (t.fft 4).rngOut
  let m5 ← FftMask.sample pp dbg false 1 domain.groupGen domain.size (t.fft 5).vals (t.fft 5).rngIn (t.fft 5).rngOut
  let degred ← DegRedMask.sample pp dbg (1 : F) (domain.size / pp.l) t.degred.vals t.degred.rngIn t.degred.rngOut
  let n0 ← MsmMask.sample pp dbg gen1 (t.msm1 0).vals (t.msm1 0).rngIn (t.msm1 0).rngOut
  let n1 ← MsmMask.sample pp dbg gen1 (t.msm1 1).vals (t.msm1 1).rngIn (t.msm1 1).rngOut
  let n2 ← MsmMask.sample pp dbg gen1 (t.msm1 2).vals (t.msm1 2).rngIn (t.msm1 2).rngOut
  let n3 ← MsmMask.sample pp dbg gen1 (t.msm1 3).vals (t.msm1 3).rngIn (t.msm1 3).rngOut
  let k ← MsmMask.sample pp dbg gen2 t.msm2.vals t.msm2.rngIn t.msm2.rngOut
  (List.range pp.n).mapM fun idx => do
    let crs ← rd crsShares idx
    let a ← rd aShares idx
    let ax ← rd axShares idx
    let q ← rd qapShares idx
    let r ← rd rShares idx
    let s ← rd sShares idx
    let degredMask ← rd degred idx
    let g2Mask ← rd k idx
    let fftMask ← [m0, m1, m2, m3, m4, m5].mapM fun ms => rd ms idx
    let g1Mask ← [n0, n1, n2, n3].mapM fun ms => rd ms idx
    pure { crs, q, a, ax, r, s, fftMask, degredMask, g1Mask, g2Mask }

/-- `groth16/examples/sha256.rs:347-361`: the task of one server. The masks are arrays of fixed length in the code, the lookups
cannot fail. -/
def ServerInput.run [FftField F] [FixedWire F] (x : ServerInput F G1 G2) (pp : PSS F) (dbg : Bool) (n me : Nat)
    (rng : Nat → Nat → Nat → F) : Proc (G1 × G2 × G1) :=
  pp.dsha256 dbg n me x.crs x.q x.a x.ax x.r x.s (fun k => x.fftMask.getD k (FftMask.zero 0)) x.degredMask
    (fun k => x.g1Mask.getD k MsmMask.zero) x.g2Mask rng

/-- `groth16/examples/sha256.rs:366-377`: opening the servers' answers. -/
def PSS.openProof (pp : PSS F) (dbg : Bool) (result : List (G1 × G2 × G1)) : Res (G1 × G2 × G1) := do
  let a ← rd (← pp.unpack2 dbg (result.map fun x => x.1)) 0
  let b ← rd (← pp.unpack2 dbg (result.map fun x => x.2.1)) 0
  let c ← rd (← pp.unpack2 dbg (result.map fun x => x.2.2)) 0
  pure (a, b, c)

end ZkSaas
