import Verif.Model.ProvingKey

/-!
# `groth16/src/prove.rs` and the server of `groth16/examples/sha256.rs`

The structs `A`, `BInG1`, `BInG2`, `C` only hold the arguments of their method `compute`; here they are arguments.
-/

namespace ZkSaas

variable {F : Type} [Field F] [DecidableEq F] {G1 G2 : Type} [AddCommGroup G1] [Module F G1] [DecidableEq G1] [FixedWire G1]
  [AddCommGroup G2] [Module F G2] [DecidableEq G2] [FixedWire G2]

/-- `groth16/src/prove.rs:26-59` `A::compute`. -/
def PSS.proveA (pp : PSS F) (dbg : Bool) (n me : Nat) (L N AG1 : G1) (S : List G1) (a : List F) (r : F) (mask : MsmMask G1)
    (sid : Sid) : Proc G1 := do
  let v0 := r • N
  let v1 := L + v0
  let prod ← pp.dMsm dbg n me S a mask sid
  pure ((v1 + prod) + AG1)

/-- `groth16/src/prove.rs:79-113` `BInG1::compute`. The check at `:99-101` is on this party's *share* of `r`. -/
def PSS.proveBInG1 (pp : PSS F) (dbg : Bool) (n me : Nat) (Z K BG1 : G1) (H : List G1) (a : List F) (s r : F) (mask : MsmMask G1)
    (sid : Sid) : Proc G1 :=
  if r = 0 then .done (.ok 0) else do
    let v0 := s • K
    let v1 := Z + v0
    let prod ← pp.dMsm dbg n me H a mask sid
    pure ((v1 + prod) + BG1)

/-- `groth16/src/prove.rs:132-161` `BInG2::compute`. -/
def PSS.proveBInG2 (pp : PSS F) (dbg : Bool) (n me : Nat) (Z K BG2 : G2) (V : List G2) (a : List F) (s : F) (mask : MsmMask G2)
    (sid : Sid) : Proc G2 := do
  let v0 := s • K
  let v1 := Z + v0
  let prod ← pp.dMsm dbg n me V a mask sid
  pure ((v1 + prod) + BG2)

/-- `groth16/src/prove.rs:193-238` `C::compute` (the fields `H` and `a` of the struct are not used). -/
def PSS.proveC (pp : PSS F) (dbg : Bool) (n me : Nat) (A B : G1) (s r : F) (M : G1) (W U : List G1) (ax h : List F)
    (mask0 mask1 : MsmMask G1) : Proc G1 :=
  .par (pp.dMsm dbg n me W ax mask0 .zero) (pp.dMsm dbg n me U h mask1 .one) fun w u =>
    let rSDeltaG1 := (r * s) • M
    let sGA := s • A
    let rG1B := r • B
    .done (.ok (sGA + rG1B - rSDeltaG1 + w + u))

/-- `groth16/examples/sha256.rs:32-129` `dsha256`: what a server does. `.await.unwrap()` turns an `Err` into a panic of the
task; here the error itself ends the party (either way it sends nothing more). -/
def PSS.dsha256 [FftField F] [FixedWire F] (pp : PSS F) (dbg : Bool) (n me : Nat) (crs : PackedProvingKeyShare G1 G2)
    (q : PackedQAPShare F) (a ax : List F) (r s : F) (fftMask : Nat → FftMask F) (degredMask : DegRedMask F)
    (g1Mask : Nat → MsmMask G1) (g2Mask : MsmMask G2) (rng : Nat → Nat → Nat → F) : Proc (G1 × G2 × G1) := do
  let h ← pp.circomH dbg n me q fftMask degredMask rng
  let piA ← pp.proveA dbg n me crs.aQuery0 crs.deltaG1 crs.alphaG1 crs.s a r (g1Mask 0) .zero
  let piB1 ← pp.proveBInG1 dbg n me crs.bG1Query0 crs.deltaG1 crs.betaG1 crs.h a s r (g1Mask 1) .zero
  let piB2 ← pp.proveBInG2 dbg n me crs.bG2Query0 crs.deltaG2 crs.betaG2 crs.v a s g2Mask .zero
  let piC ← pp.proveC dbg n me piA piB1 s r crs.deltaG1 crs.w crs.u ax h (g1Mask 2) (g1Mask 3)
  pure (piA, piB2, piC)

/-- `groth16/examples/sha256.rs:131-156` `pack_from_witness`. -/
def PSS.packFromWitness (pp : PSS F) (dbg : Bool) (fullAssignment : List F) (rng : Nat → Nat → F) : Res (List (List F)) := do
  assert (pp.l != 0)
  let packedAssignments ← (List.range (numChunks fullAssignment pp.l)).mapM fun c =>
    let ch := chunk fullAssignment pp.l c
    let secrets := if ch.length < pp.l then resize ch pp.l 0 else ch
    pp.pack dbg secrets (rng c)
  (List.range pp.n).mapM fun i => column packedAssignments i

end ZkSaas
