import Verif.Model.Pss

/-!
# `dist-primitives/src/utils/pack.rs`
-/

namespace ZkSaas

variable {F : Type} [Field F] [DecidableEq F]

/-- `dist-primitives/src/utils/pack.rs:22-35` `transpose`. Rows longer than the first are cut; a shorter row
makes `row[c]` panic. -/
def transpose {T : Type} (matrix : List (List T)) : Res (List (List T)) := do
  assert (!matrix.isEmpty)
  let row0 ← rd matrix 0
  let cols := row0.length
  let rows := matrix.length
  let x ← rd row0 0
  let result := List.replicate cols (List.replicate rows x)
  forUp cols (fun c result =>
    forUp rows (fun r result => do
      let row ← rd matrix r
      let y ← rd row c
      let column ← rd result c
      let column ← wr column r y
      wr result c column) result) result

/-- `dist-primitives/src/utils/pack.rs:17`: `cfg_chunks!(v, l)`, chunk `c`. -/
def chunk {T : Type} (v : List T) (l c : Nat) : List T := (v.drop (c * l)).take l

/-- Number of chunks of `v.chunks(l)` (the last one may be short). -/
def numChunks {T : Type} (v : List T) (l : Nat) : Nat := (v.length + l - 1) / l

section
variable {T : Type} [AddCommGroup T] [Module F T] [DecidableEq T]

/-- `dist-primitives/src/utils/pack.rs:8-20` `pack_vec`. `rng c i` is the `i`-th random element drawn for
chunk `c`; the chunks are independent, so the order in which a parallel build handles them does not matter. -/
def PSS.packVec (pp : PSS F) (dbg : Bool) (secrets : List T) (rng : Nat → Nat → T) :
    Res (List (List T)) := do
  debugAssert dbg (secrets.length % pp.l == 0)
  assert (pp.l != 0)
  (List.range (numChunks secrets pp.l)).mapM fun c => pp.pack dbg (chunk secrets pp.l c) (rng c)

/-- `dist-primitives/src/dfft/mod.rs:59-72` and `:286-299`, `groth16/src/qap.rs` `pss`: for every
`i < v.len()/l` pack the elements `v.iter().skip(i).step_by(v.len()/l)`. -/
def PSS.packStrided (pp : PSS F) (dbg : Bool) (v : List T) (rng : Nat → Nat → T) :
    Res (List (List T)) := do
  assert (pp.l != 0)
  (List.range (v.length / pp.l)).mapM fun i =>
    pp.pack dbg (skipStep v i (v.length / pp.l)) (rng i)

end

end ZkSaas
