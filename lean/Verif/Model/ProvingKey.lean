import Verif.Model.Qap

/-!
# `groth16/src/proving_key.rs`, `groth16/src/lib.rs`

`G1`, `G2` are the groups of the pairing as modules over the scalar field; the conversions between affine and projective
coordinates (`into()`) are identities here.
-/

namespace ZkSaas

/-- `ark_groth16::VerifyingKey<E>`. -/
structure VerifyingKey (G1 G2 : Type) where
  alphaG1 : G1
  betaG2 : G2
  gammaG2 : G2
  deltaG2 : G2
  gammaAbcG1 : List G1

/-- `ark_groth16::ProvingKey<E>`. -/
structure ProvingKey (G1 G2 : Type) where
  vk : VerifyingKey G1 G2
  betaG1 : G1
  deltaG1 : G1
  aQuery : List G1
  bG1Query : List G1
  bG2Query : List G2
  hQuery : List G1
  lQuery : List G1

/-- `groth16/src/proving_key.rs:17-37` `struct PackedProvingKeyShare`. -/
structure PackedProvingKeyShare (G1 G2 : Type) where
  s : List G1
  u : List G1
  w : List G1
  h : List G1
  v : List G2
  aQuery0 : G1
  bG1Query0 : G1
  bG2Query0 : G2
  deltaG1 : G1
  deltaG2 : G2
  alphaG1 : G1
  betaG1 : G1
  betaG2 : G2

variable {F : Type} [Field F] [DecidableEq F]

/-- `groth16/src/proving_key.rs:73-75` (and `:76-87`): `cfg_chunks!(v, pp.l).map(|chunk| pp.det_pack(chunk.to_vec()))`;
`chunks(0)` panics. -/
def PSS.detPackChunks {T : Type} [AddCommGroup T] [Module F T] (pp : PSS F) (dbg : Bool) (v : List T) : Res (List (List T)) := do
  assert (pp.l != 0)
  (List.range (numChunks v pp.l)).mapM fun c => pp.detPack dbg (chunk v pp.l c)

/-- `groth16/src/proving_key.rs:47-123` `PackedProvingKeyShare::pack_from_arkworks_proving_key`. -/
def packFromArkworksProvingKey {G1 G2 : Type} [AddCommGroup G1] [Module F G1] [AddCommGroup G2] [Module F G2] (dbg : Bool)
    (pk : ProvingKey G1 G2) (pp : PSS F) : Res (List (PackedProvingKeyShare G1 G2)) := do
  let packedS ← pp.detPackChunks dbg (pk.aQuery.drop 1)
  let packedU ← pp.detPackChunks dbg pk.hQuery
  let packedW ← pp.detPackChunks dbg pk.lQuery
  let packedH ← pp.detPackChunks dbg (pk.bG1Query.drop 1)
  let packedV ← pp.detPackChunks dbg (pk.bG2Query.drop 1)
  (List.range pp.n).mapM fun i => do
    let s ← column packedS i
    let u ← column packedU i
    let v ← column packedV i
    let w ← column packedW i
    let h ← column packedH i
    let aQuery0 ← rd pk.aQuery 0
    let bG1Query0 ← rd pk.bG1Query 0
    let bG2Query0 ← rd pk.bG2Query 0
    pure { s, u, w, h, v, aQuery0, bG1Query0, bG2Query0, deltaG1 := pk.deltaG1, deltaG2 := pk.vk.deltaG2,
           alphaG1 := pk.vk.alphaG1, betaG1 := pk.betaG1, betaG2 := pk.vk.betaG2 }

/-- `groth16/src/lib.rs:10-18` `struct ConstraintDomain`. -/
structure ConstraintDomain (F : Type) where
  m : Nat
  constraint : Domain F
  constraint2 : Domain F

/-- `groth16/src/lib.rs:22-34` `ConstraintDomain::new`. -/
def ConstraintDomain.new [FftField F] (dbg : Bool) (m : Nat) : Res (ConstraintDomain F) := do
  let constraint ← unwrap (Domain.new (F := F) m)
  let constraint2 ← unwrap (Domain.new (F := F) (2 * m))
  debugAssert dbg (constraint.size == m)
  debugAssert dbg (constraint2.size == 2 * m)
  pure { m, constraint, constraint2 }

end ZkSaas
