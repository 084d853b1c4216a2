import Verif.Model.Prelude
import Mathlib.Logic.Function.Basic

/-!
# `mpc-net/src/lib.rs`: parties, messages and schedules

A party of a protocol is an interaction tree `Proc α`. A network state has one tree per party and one unbounded FIFO
queue per (sender, receiver, stream). `LStep` says what one party can do next, `GStep` lets any party move; a schedule is
any sequence of `GStep`s. The byte-level transport below `send_to`/`recv_from` is the subject of `Verif.Model.Wire`.
-/

namespace ZkSaas

/-- A message (`tokio_util::bytes::Bytes`). -/
abbrev Bytes := List UInt8

/-- `mpc-net/src/lib.rs:43-47` `enum MultiplexedStreamID`. -/
inductive Sid where
  | zero | one | two
  deriving DecidableEq, Repr

/-- The asynchronous program of one party. `done r` has finished with result `r`; `send` and `recv` are
`MpcNet::send_to` and `MpcNet::recv_from` (`mpc-net/src/lib.rs:74-84`); `gather` is the king's concurrent
receive with a time-out (`mpc-net/src/lib.rs:98-114`), `got` being the hash map `results_store` filled so far; `par` is
`tokio::try_join!` of two futures (three: nested), as used in `groth16/src/ext_wit.rs` and `groth16/src/prove.rs`. -/
inductive Proc : Type → Type 1 where
  | done {α : Type} (r : Res α) : Proc α
  | send {α : Type} (dst : Nat) (sid : Sid) (b : Bytes) (k : Proc α) : Proc α
  | recv {α : Type} (frm : Nat) (sid : Sid) (k : Bytes → Proc α) : Proc α
  | gather {α : Type} (sid : Sid) (n : Nat) (own : Bytes) (got : Nat → Option Bytes)
      (k : List (Nat × Bytes) → Proc α) : Proc α
  | par {α β γ : Type} (p : Proc β) (q : Proc γ) (k : β → γ → Proc α) : Proc α

/-- Sequencing with `.await?`: a failure skips the rest. -/
def Proc.bind {α β : Type} : Proc α → (α → Proc β) → Proc β
  | .done (.ok a), f => f a
  | .done (.error e), _ => .done (.error e)
  | .send dst sid b k, f => .send dst sid b (k.bind f)
  | .recv frm sid k, f => .recv frm sid fun b => (k b).bind f
  | .gather sid n own got k, f => .gather sid n own got fun L => (k L).bind f
  | .par p q k, f => .par p q fun r s => (k r s).bind f

instance : Monad Proc where
  pure a := .done (.ok a)
  bind := Proc.bind

/-- A local computation. -/
instance : MonadLift (Except Fault) Proc where
  monadLift r := .done r

/-- Labels of local steps: internal, send, receive, cancellation of a `try_join!` after a failure of one branch,
and faults (time-out of a gather, failure of a send or receive). -/
inductive Act where
  | tau
  | send (dst : Nat) (sid : Sid) (b : Bytes)
  | recv (frm : Nat) (sid : Sid) (b : Bytes)
  | abort
  | fault
  deriving DecidableEq

/-- `L` lists the entries of the hash map `results_store` after the king's own entry was added
(`mpc-net/src/lib.rs:113-114`), in some iteration order. -/
def Enumerates (n : Nat) (own : Bytes) (got : Nat → Option Bytes) (L : List (Nat × Bytes)) : Prop :=
  (L.map Prod.fst).Nodup ∧
  ∀ i b, (i, b) ∈ L ↔ (i = 0 ∧ b = own) ∨ (1 ≤ i ∧ i < n ∧ got i = some b)

/-- What one party can do. -/
inductive LStep : {α : Type} → Proc α → Act → Proc α → Prop where
  | send {α : Type} (dst : Nat) (sid : Sid) (b : Bytes) (k : Proc α) :
      LStep (.send dst sid b k) (.send dst sid b) k
  | recv {α : Type} (frm : Nat) (sid : Sid) (b : Bytes) (k : Bytes → Proc α) :
      LStep (.recv frm sid k) (.recv frm sid b) (k b)
  /-- one of the futures in `FuturesOrdered` completes (`mpc-net/src/lib.rs:101-106`) -/
  | gatherRecv {α : Type} (sid : Sid) (n : Nat) (own : Bytes) (got : Nat → Option Bytes)
      (k : List (Nat × Bytes) → Proc α) (i : Nat) (b : Bytes) (h1 : 1 ≤ i) (h2 : i < n) (h3 : got i = none) :
      LStep (.gather sid n own got k) (.recv i sid b) (.gather sid n own (Function.update got i (some b)) k)
  /-- all of them have completed (`mpc-net/src/lib.rs:109-114`) -/
  | gatherDone {α : Type} (sid : Sid) (n : Nat) (own : Bytes) (got : Nat → Option Bytes)
      (k : List (Nat × Bytes) → Proc α) (L : List (Nat × Bytes))
      (hfull : ∀ i, 1 ≤ i → i < n → got i ≠ none) (hL : Enumerates n own got L) :
      LStep (.gather sid n own got k) .tau (k L)
  /-- the time-out fires, or every missing receive has failed (`mpc-net/src/lib.rs:112-114`) -/
  | gatherExpire {α : Type} (sid : Sid) (n : Nat) (own : Bytes) (got : Nat → Option Bytes)
      (k : List (Nat × Bytes) → Proc α) (L : List (Nat × Bytes)) (hL : Enumerates n own got L) :
      LStep (.gather sid n own got k) .fault (k L)
  /-- `send_to` fails -/
  | sendFail {α : Type} (dst : Nat) (sid : Sid) (b : Bytes) (k : Proc α) (e : MpcNetError) :
      LStep (.send dst sid b k) .fault (.done (.error (.net e)))
  /-- `recv_from` fails -/
  | recvFail {α : Type} (frm : Nat) (sid : Sid) (k : Bytes → Proc α) (e : MpcNetError) :
      LStep (.recv frm sid k) .fault (.done (.error (.net e)))
  | parL {α β γ : Type} (p p' : Proc β) (q : Proc γ) (k : β → γ → Proc α) (a : Act) (h : LStep p a p') :
      LStep (.par p q k) a (.par p' q k)
  | parR {α β γ : Type} (p : Proc β) (q q' : Proc γ) (k : β → γ → Proc α) (a : Act) (h : LStep q a q') :
      LStep (.par p q k) a (.par p q' k)
  | join {α β γ : Type} (r : β) (s : γ) (k : β → γ → Proc α) :
      LStep (.par (.done (.ok r)) (.done (.ok s)) k) .tau (k r s)
  | abortL {α β γ : Type} (e : Fault) (q : Proc γ) (k : β → γ → Proc α) :
      LStep (.par (.done (.error e) : Proc β) q k) .abort (.done (.error e))
  | abortR {α β γ : Type} (e : Fault) (p : Proc β) (k : β → γ → Proc α) :
      LStep (.par p (.done (.error e) : Proc γ) k) .abort (.done (.error e))

/-- The queues: messages sent from a party to a party on a stream and not yet received, oldest first. -/
abbrev Queues := Nat × Nat × Sid → List Bytes

/-- A network state of `n` parties. -/
structure Net (n : Nat) (α : Type) where
  procs : Fin n → Proc α
  queues : Queues

/-- Effect on the queues of party `i` doing `a`; `none` when it is not possible. -/
def qstep (i : Nat) : Act → Queues → Option Queues
  | .send dst sid b, Q => some (Function.update Q (i, dst, sid) (Q (i, dst, sid) ++ [b]))
  | .recv frm sid b, Q =>
    match Q (frm, i, sid) with
    | [] => none
    | x :: rest => if x = b then some (Function.update Q (frm, i, sid) rest) else none
  | _, Q => some Q

/-- One step of the network: some party `i` does `a`. -/
inductive GStep {n : Nat} {α : Type} (ok : Act → Prop) : Net n α → Net n α → Prop where
  | mk (procs : Fin n → Proc α) (Q Q' : Queues) (i : Fin n) (a : Act) (p' : Proc α) (ha : ok a)
      (hstep : LStep (procs i) a p') (hq : qstep i a Q = some Q') :
      GStep ok ⟨procs, Q⟩ ⟨Function.update procs i p', Q'⟩

/-- `k` steps of the network. -/
inductive GSteps {n : Nat} {α : Type} (ok : Act → Prop) : Nat → Net n α → Net n α → Prop where
  | refl (c : Net n α) : GSteps ok 0 c c
  | step {k : Nat} {c c' c'' : Net n α} (h : GStep ok c c') (hs : GSteps ok k c' c'') : GSteps ok (k + 1) c c''

/-- Steps of a reliable network without time-outs. -/
def Reliable (a : Act) : Prop := a ≠ .fault

/-- Steps of an arbitrary network. -/
def Any (_ : Act) : Prop := True

/-- The start of a protocol: nothing in transit. -/
def Net.init {n : Nat} {α : Type} (procs : Fin n → Proc α) : Net n α := ⟨procs, fun _ => []⟩

end ZkSaas
