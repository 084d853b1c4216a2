import Verif.Model.ProvingKey
import Verif.Model.LocalNet

/-!
# The benchmark `local_groth_bench`, the random proving key and the example `add_ids`
-/

namespace ZkSaas

variable {F : Type} [Field F]

/-- `groth16/examples/local_groth_bench.rs:26-30` (and `:32-50`): `vec![x; n]`, then `s[i] = s[i - 1] + s[i - 1]` for
`i` from 1. -/
def doublings {G : Type} [AddCommGroup G] (n : Nat) (x : G) : Res (List G) :=
  forUp (n - 1) (fun i s => do
    let y ← rd s i
    wr s (i + 1) (y + y)) (List.replicate n x)

/-- `groth16/examples/local_groth_bench.rs:13-20` `struct ProvingKey`. -/
structure BenchKey (G1 G2 : Type) where
  s : List G1
  u : List G1
  v : List G2
  w : List G1
  h : List G1

/-- `groth16/examples/local_groth_bench.rs:22-53` `local_dummy_crs`; the five drawn points are parameters. -/
def localDummyCrs {G1 G2 : Type} [AddCommGroup G1] [AddCommGroup G2] (domainSize : Nat) (s₀ u₀ w₀ h₀ : G1) (v₀ : G2) :
    Res (BenchKey G1 G2) := do
  let s ← doublings domainSize s₀
  let u ← doublings (domainSize * 2) u₀
  let w ← doublings domainSize w₀
  let h ← doublings domainSize h₀
  let v ← doublings domainSize v₀
  pure { s, u, v, w, h }

/-- What `localgroth_test` computes (and drops). -/
structure BenchResult (F G1 G2 : Type) where
  h : List F
  a : G1
  b : G2
  c : G1

/-- `groth16/examples/local_groth_bench.rs:83-150` `localgroth_test`. In the source `p`, `q` and `w` are all `0, 1, …, m - 1`;
the drawn points and the drawn scalar `a` are parameters. -/
def localGroth {G1 G2 : Type} [AddCommGroup G1] [Module F G1] [AddCommGroup G2] [Module F G2] (cd : ConstraintDomain F)
    (p q w : List F) (s₀ u₀ w₀ h₀ : G1) (v₀ : G2) (a : F) : Res (BenchResult F G1 G2) := do
  let p := cd.constraint.ifft p
  let q := cd.constraint.ifft q
  let w := cd.constraint.ifft w
  let p := cd.constraint2.fft p
  let q := cd.constraint2.fft q
  let w := cd.constraint2.fft w
  let t : List F := List.replicate p.length 1
  let h ← forUp p.length (fun i h => do
    let x ← rd p i
    let y ← rd q i
    let z ← rd w i
    wr h i (x * y - z)) (List.replicate p.length 0)
  let h ← forUp h.length (fun i h => do
    let x ← rd h i
    let y ← rd t i
    wr h i (x * y)) h
  let h := cd.constraint2.ifft h
  let crs ← localDummyCrs cd.m s₀ u₀ w₀ h₀ v₀
  let aShare : List F := List.replicate crs.s.length a
  let piA ← unwrap (msm crs.s aShare).toOption
  let piB ← unwrap (msm crs.v aShare).toOption
  let piC1 ← unwrap (msm crs.h aShare).toOption
  let piC2 ← unwrap (msm crs.w aShare).toOption
  let piC3 ← unwrap (msm crs.u h).toOption
  pure ⟨h, piA, piB, piC1 + piC2 + piC3⟩

/-- `groth16/src/proving_key.rs:133-137` (and `:140-162`): `vec![T::rand(rng); n]`, then a fresh point for every `i` from 1.
`rng` is the number of draws so far; `g k` is the point made from draw `k`. -/
def randVec {G : Type} (g : Nat → G) (n rng : Nat) : Res (List G × Nat) :=
  forUp (n - 1) (fun i (st : List G × Nat) => do
    let s ← wr st.1 (i + 1) (g st.2)
    pure (s, st.2 + 1)) (List.replicate n (g rng), rng + 1)

/-- `groth16/src/proving_key.rs:127-180` `PackedProvingKeyShare::rand`; `g1 k` and `g2 k` are the points made from draw `k`. -/
def PackedProvingKeyShare.rand {G1 G2 : Type} (g1 : Nat → G1) (g2 : Nat → G2) (rng domainSize l : Nat) :
    Res (PackedProvingKeyShare G1 G2) := do
  let _ ← assert (l != 0)
  let (s, rng) ← randVec g1 (domainSize / l) rng
  let (u, rng) ← randVec g1 (domainSize * 2 / l) rng
  let (w, rng) ← randVec g1 (domainSize / l) rng
  let (h, rng) ← randVec g1 (domainSize / l) rng
  let (v, rng) ← randVec g2 (domainSize / l) rng
  pure { s, u, v, w, h, aQuery0 := g1 rng, bG1Query0 := g1 (rng + 1), bG2Query0 := g2 (rng + 2), deltaG1 := g1 (rng + 3),
         deltaG2 := g2 (rng + 4), alphaG1 := g1 (rng + 5), betaG1 := g1 (rng + 6), betaG2 := g2 (rng + 7) }

/-- `u32` addition: panics on overflow in debug builds, wraps in release builds. -/
def addU32 (dbg : Bool) (x y : Fin (2 ^ 32)) : Res (Fin (2 ^ 32)) := do
  debugAssert dbg (x.val + y.val < 2 ^ 32)
  pure (x + y)

/-- The sum of numbers in `u32`, in order, starting with 0. -/
def sumU32 (dbg : Bool) (xs : List (Fin (2 ^ 32))) : Res (Fin (2 ^ 32)) := xs.foldlM (addU32 dbg) 0

/-- `mpc-net/examples/add_ids.rs:61-104` `main` after the connections are made; `opts.id` is `me`, `opts.n_parties` is `nParties`, `n` is the number
of parties that the network reports, and `bincode2` writes a `u32` as 4 little-endian bytes. -/
def addIdsOpts (dbg : Bool) (n nParties me : Nat) : Proc Unit := do
  let myId : Fin (2 ^ 32) := Fin.ofNat _ me
  let expected ← sumU32 dbg ((List.range nParties).map (Fin.ofNat _))
  let received ← clientSendOrKingReceiveSer n me myId .zero 0
  let sum ← match received with
    | some rs => do
      assert (myId == 0)
      let sum ← sumU32 dbg rs.shares
      let _ ← clientReceiveOrKingSend n me (some (List.replicate nParties (Wire.enc sum))) .zero
      pure sum
    | none => do
      assert (myId != 0)
      let bytes ← clientReceiveOrKingSend n me none .zero
      unwrap (Wire.dec (T := Fin (2 ^ 32)) bytes)
  assert (sum == expected)

/-- The same with the right `--n-parties`. -/
def addIds (dbg : Bool) (n me : Nat) : Proc Unit := addIdsOpts dbg n n me

end ZkSaas
