import Mathlib.Data.List.Basic
import Mathlib.Data.Nat.Log
import Mathlib.Logic.Function.Iterate

/-!
# Common vocabulary of the model

Rust values: `usize`, `u32` ↦ `Nat`; `Vec<T>`, `&[T]` ↦ `List T`; `&mut` ↦ returned value;
`Result`/panic ↦ `Res`.
-/

namespace ZkSaas

/-- `mpc-net/src/lib.rs:18-24` `enum MpcNetError`. Error strings are dropped; the party of a `Protocol`
error is kept. -/
inductive MpcNetError where
  | generic
  | protocol (party : Nat)
  | notConnected
  | badInput
  deriving DecidableEq, Repr

/-- How a call can fail: a Rust panic, or an `MpcNetError` returned by `?`. -/
inductive Fault where
  | panic
  | net (e : MpcNetError)
  deriving DecidableEq, Repr

/-- Result of a model function. -/
abbrev Res (α : Type _) := Except Fault α

/-- A Rust panic. -/
def panic' {α : Type _} : Res α := .error .panic

/-- `assert!(b)`: panics in every build. -/
def assert (b : Bool) : Res Unit := if b then .ok () else panic'

/-- `debug_assert!(b)`: panics when the build has debug assertions and `b` is false. -/
def debugAssert (dbg b : Bool) : Res Unit := if dbg && !b then panic' else .ok ()

/-- Checked read `v[i]` (panics out of bounds). -/
def rd {α : Type _} (v : List α) (i : Nat) : Res α :=
  match v[i]? with
  | some x => .ok x
  | none => panic'

/-- Checked write `v[i] = x` (panics out of bounds). -/
def wr {α : Type _} (v : List α) (i : Nat) (x : α) : Res (List α) :=
  if i < v.length then .ok (v.set i x) else panic'

/-- `Option::unwrap` / `expect`. -/
def unwrap {α : Type _} : Option α → Res α
  | some x => .ok x
  | none => panic'

/-- `for i in 0..n { s = body(i, s) }`. -/
def forUp {σ : Type _} (n : Nat) (body : Nat → σ → Res σ) (s : σ) : Res σ :=
  (List.range n).foldlM (fun s i => body i s) s

/-- `for i in (0..n).rev() { s = body(i, s) }`. -/
def forDown {σ : Type _} (n : Nat) (body : Nat → σ → Res σ) (s : σ) : Res σ :=
  (List.range n).reverse.foldlM (fun s i => body i s) s

/-- `Vec::resize(n, z)`: truncates or pads. -/
def resize {α : Type _} (v : List α) (n : Nat) (z : α) : List α :=
  v.take n ++ List.replicate (n - v.length) z

/-- `ark_std::log2`: the ceiling of the base-2 logarithm (0 for 0). -/
def log2 (x : Nat) : Nat := Nat.clog 2 x

/-- `iter().skip(i).step_by(s)` (panics for `s = 0` in Rust; here the empty list, guarded by callers):
the elements at positions `i, i+s, i+2s, …`. -/
def skipStep {α : Type _} (v : List α) (i s : Nat) : List α :=
  (List.range ((v.length - i + s - 1) / s)).filterMap fun k => v[i + k * s]?

end ZkSaas
