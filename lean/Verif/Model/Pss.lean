import Verif.Model.Utils

/-!
# `secret-sharing/src/pss.rs`
-/

namespace ZkSaas

/-- `secret-sharing/src/pss.rs:18-35` `struct PackedSharingParams`. -/
structure PSS (F : Type) where
  t : Nat
  l : Nat
  n : Nat
  share : Domain F
  secret : Domain F
  secret2 : Domain F
  deriving DecidableEq

variable {F : Type} [Field F] [DecidableEq F]

/-- `secret-sharing/src/pss.rs:39-66` `PackedSharingParams::new`. -/
def PSS.new [FftField F] (dbg : Bool) (l : Nat) : Res (PSS F) := do
  let n := l * 4
  let t := l
  debugAssert dbg (n == 2 * (t + l))
  let share ← unwrap (Domain.new (F := F) n)
  let secret ← unwrap (Domain.new (F := F) (l + t))
  let secret ← unwrap (secret.getCoset FftField.GENERATOR)
  let secret2 ← unwrap (Domain.new (F := F) (2 * (l + t)))
  let secret2 ← unwrap (secret2.getCoset FftField.GENERATOR)
  debugAssert dbg (share.size == n)
  debugAssert dbg (secret.size == l + t)
  debugAssert dbg (secret2.size == 2 * (l + t))
  pure { t, l, n, share, secret, secret2 }

section
variable {T : Type} [AddCommGroup T] [Module F T] [DecidableEq T]

/-- `secret-sharing/src/pss.rs:69-87` `det_pack`. Note the `resize` to `t` (not `t + l`). -/
def PSS.detPack (pp : PSS F) (dbg : Bool) (secrets : List T) : Res (List T) := do
  debugAssert dbg (secrets.length == pp.l)
  let result := resize secrets pp.t 0
  let result := pp.secret.ifft result
  pure (pp.share.fft result)

/-- `secret-sharing/src/pss.rs:90-122` `pack`. `rng i` is the `i`-th call of `T::rand`. -/
def PSS.pack (pp : PSS F) (dbg : Bool) (secrets : List T) (rng : Nat → T) : Res (List T) := do
  debugAssert dbg (secrets.length == pp.l)
  let randPoints := (List.range pp.t).map rng
  let result := secrets ++ randPoints
  let result := pp.secret.ifft result
  debugAssert dbg ((result.drop (pp.l + pp.t)).all (· = 0))
  pure (pp.share.fft result)

/-- `secret-sharing/src/pss.rs:125-138` `unpack`. -/
def PSS.unpack (pp : PSS F) (shares : List T) : List T :=
  let result := pp.share.ifft shares
  let result := pp.secret.fft result
  result.take pp.l

/-- `secret-sharing/src/pss.rs:163` and `:202`: `result[0..2*l].iter().step_by(2)`; the slice panics when
`2*l` exceeds the length. -/
def everyOther (result : List T) (l : Nat) : Res (List T) :=
  if 2 * l ≤ result.length then .ok (skipStep (result.take (2 * l)) 0 2) else panic'

/-- `secret-sharing/src/pss.rs:141-166` `unpack2`. -/
def PSS.unpack2 (pp : PSS F) (dbg : Bool) (shares : List T) : Res (List T) := do
  let result := pp.share.ifft shares
  debugAssert dbg ((result.drop (2 * (pp.l + pp.t) - 1)).all (· = 0))
  everyOther (pp.secret2.fft result) pp.l

/-- `secret-sharing/src/pss.rs:170-205` `lagrange_unpack`. -/
def PSS.lagrangeUnpack (pp : PSS F) (dbg : Bool) (shares : List T) (parties : List Nat) :
    Res (List T) := do
  debugAssert dbg (shares.length == parties.length)
  debugAssert dbg (decide (parties.length > 2 * (pp.t + pp.l - 1)))
  let shareElements := pp.share.elements
  let xs ← parties.mapM fun p => rd shareElements p
  let result ← lagrangeInterpolate xs shares
  everyOther (pp.secret2.fft result) pp.l

/-- `secret-sharing/src/pss.rs:210-221` `unpack_missing_shares`. -/
def PSS.unpackMissingShares (pp : PSS F) (dbg : Bool) (shares : List T) (parties : List Nat) :
    Res (List T) := do
  debugAssert dbg (shares.length == parties.length)
  if shares.length = pp.n then pp.unpack2 dbg shares
  else pp.lagrangeUnpack dbg shares parties

end

end ZkSaas
