import Verif.Model.Dfft
import Verif.Spec.Cost

/-!
# The two halves of the distributed transform with a counter for multiplications

The same code as in `Model/Dfft.lean`; every `*` and `*=` on field elements in `dist-primitives/src/dfft/mod.rs:97-237` adds one to the counter. Not
counted: additions, and the one `pow` per turn of the outer loop.
-/

namespace ZkSaas

open Spec

variable {F : Type} [Field F]

/-- A multiplication of two field elements. -/
def mulC (x y : F) : Counted F := fun c => .ok (x * y, c + 1)

/-- `for i in 0..n { s = body(i, s) }` with the counter. -/
def forUpC {σ : Type} (n : Nat) (body : Nat → σ → Counted σ) (s : σ) : Counted σ :=
  (List.range n).foldlM (fun s i => body i s) s

/-- `for i in (0..n).rev() { s = body(i, s) }` with the counter. -/
def forDownC {σ : Type} (n : Nat) (body : Nat → σ → Counted σ) (s : σ) : Counted σ :=
  (List.range n).reverse.foldlM (fun s i => body i s) s

/-- `dist-primitives/src/dfft/mod.rs:178-208` `fft1_in_place`, see `PSS.fft1InPlace`. -/
def PSS.fft1InPlaceC (pp : PSS F) (px : List F) (gen : F) : Counted (List F) :=
  let domSize := px.length * pp.l
  forDownC (log2 domSize - log2 pp.l) (fun i' px => do
    let i := log2 pp.l + 1 + i'
    let polySize := domSize / 2 ^ i
    let factorStride := gen ^ 2 ^ (i - 1)
    let (px, _) ← forUpC polySize (fun k (st : List F × F) => do
      let px ← forUpC (2 ^ (i - 1) / pp.l) (fun j px => do
        let x ← (rd px (2 * j * polySize + k) : Res F)
        let y ← (rd px ((2 * j + 1) * polySize + k) : Res F)
        let y ← mulC y st.2
        let px ← (wr px (j * (2 * polySize) + k) (x + y) : Res (List F))
        (wr px (j * (2 * polySize) + k + polySize) (x - y) : Res (List F))) st.1
      let factor ← mulC st.2 factorStride
      pure (px, factor)) (px, factorStride)
    pure px) px

/-- `dist-primitives/src/dfft/mod.rs:210-237` `fft2_in_place`, see `PSS.fft2InPlace`. -/
def PSS.fft2InPlaceC (pp : PSS F) (s1 : List F) (gen : F) : Counted (List F) := do
  let domSize := s1.length
  let s2 : List F := List.replicate s1.length 0
  let (s1, _) ← forDownC (log2 pp.l) (fun i' (st : List F × List F) => do
    let i := i' + 1
    let s1 := st.1
    let polySize := domSize / 2 ^ i
    let factorStride := gen ^ 2 ^ (i - 1)
    let (s2, _) ← forUpC polySize (fun k (st : List F × F) => do
      let s2 ← forUpC (2 ^ (i - 1)) (fun j s2 => do
        let x ← (rd s1 (k * 2 ^ i + 2 * j) : Res F)
        let y ← (rd s1 (k * 2 ^ i + 2 * j + 1) : Res F)
        let y ← mulC y st.2
        let s2 ← (wr s2 (k * 2 ^ (i - 1) + j) (x + y) : Res (List F))
        (wr s2 ((k + polySize) * 2 ^ (i - 1) + j) (x - y) : Res (List F))) st.1
      let factor ← mulC st.2 factorStride
      pure (s2, factor)) (st.2, factorStride)
    pure (s2, s1)) (s1, s2)
  (rotateRight1 s1 : Res (List F))

/-- `dist-primitives/src/dfft/mod.rs:156`: the shares times the inverse of the size of the domain, at the start of `d_ifft`. -/
def scaleC (px : List F) (c : F) : Counted (List F) := px.mapM fun x => mulC x c

end ZkSaas
