import Verif.Spec.Trace

/-!
# Specification: what can be seen of an execution without reading any message
-/

namespace ZkSaas.Spec

/-- The messages that party `i` has sent to party `j` on stream `sid`, in order. -/
def sentOn (tr : List (Nat × Act)) (i j : Nat) (sid : Sid) : List Bytes :=
  tr.filterMap fun e => if e.1 = i then
    (match e.2 with | .send d x b => if d = j ∧ x = sid then some b else none | _ => none) else none

/-- What a step looks like to somebody who reads no message: whom a message goes to or comes from, on which stream, and its length. -/
inductive Glimpse where
  | send (dst : Nat) (sid : Sid) (len : Nat)
  | recv (frm : Nat) (sid : Sid) (len : Nat)
  | silent
  deriving DecidableEq, Repr

/-- What a step looks like. -/
def glimpse : Act → Glimpse
  | .send d x b => .send d x b.length
  | .recv f x b => .recv f x b.length
  | _ => .silent

/-- What an execution looks like: who did what, in order. -/
def traffic (tr : List (Nat × Act)) : List (Nat × Glimpse) := tr.map fun e => (e.1, glimpse e.2)

/-- Whatever execution of `c` on a reliable network is watched, it could be one of `d`: there is an execution of `d` that looks
exactly the same and in which the same parties have finished. -/
def LooksLike {n : Nat} {α β : Type} (c : Net n α) (d : Net n β) : Prop :=
  ∀ tr c', Trace tr c c' → (∀ e ∈ tr, e.2 ≠ .fault) → ∃ tr' d', Trace tr' d d' ∧ (∀ e ∈ tr', e.2 ≠ .fault) ∧ traffic tr' = traffic tr ∧
    ∀ i, (∃ v, c'.procs i = .done (.ok v)) ↔ ∃ v, d'.procs i = .done (.ok v)

/-- Whoever reads no message cannot tell the two protocols apart. -/
def SameTraffic {n : Nat} {α β : Type} (c : Net n α) (d : Net n β) : Prop := LooksLike c d ∧ LooksLike d c

/-- Whatever the schedule of a reliable network, the messages from `i` to `j` on stream `sid` have, one after the other, the lengths
`lens i j sid`: exactly these when all have finished, and at any time the first ones of them. -/
def SendsLengths {n : Nat} {α : Type} (c : Net n α) (lens : Nat → Nat → Sid → List Nat) : Prop :=
  ∀ tr c', Trace tr c c' → (∀ e ∈ tr, e.2 ≠ .fault) → ∀ i j sid, (sentOn tr i j sid).map List.length <+: lens i j sid ∧
    ((∀ i, ∃ v, c'.procs i = .done (.ok v)) → (sentOn tr i j sid).map List.length = lens i j sid)

/-- Every client sends messages of the lengths `up sid` to the king (party `0`) on stream `sid`, and the king messages of the lengths
`down sid` to every client. -/
def starLengths (n : Nat) (up down : Sid → List Nat) (i j : Nat) (sid : Sid) : List Nat :=
  if i = 0 ∧ 1 ≤ j ∧ j < n then down sid else if j = 0 ∧ 1 ≤ i ∧ i < n then up sid else []

end ZkSaas.Spec
