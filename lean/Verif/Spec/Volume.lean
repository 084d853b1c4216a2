import Verif.Spec.Trace

/-!
# Specification: how many bytes are exchanged in an execution
-/

namespace ZkSaas.Spec

/-- The bytes of the message, if the action is a send to `dst`. -/
def bytesTo (dst : Nat) : Act → Nat
  | .send d _ b => if d = dst then b.length else 0
  | _ => 0

/-- The bytes of the message, if the action is a receive from `frm`. -/
def bytesFrom (frm : Nat) : Act → Nat
  | .recv d _ b => if d = frm then b.length else 0
  | _ => 0

/-- The bytes of the messages that party `i` has sent to party `j`. -/
def sentBytes (tr : List (Nat × Act)) (i j : Nat) : Nat := (tr.map fun e => if e.1 = i then bytesTo j e.2 else 0).sum

/-- The bytes of the messages of party `j` that party `i` has taken. -/
def takenBytes (tr : List (Nat × Act)) (i j : Nat) : Nat := (tr.map fun e => if e.1 = i then bytesFrom j e.2 else 0).sum

/-- The bytes of all the messages sent. -/
def allBytes (tr : List (Nat × Act)) : Nat := (tr.map fun e => match e.2 with | .send _ _ b => b.length | _ => 0).sum

/-- What passes from `i` to `j` if every client sends `up` bytes to the king (party `0`) and the king `down` bytes to every client. -/
def starBytes (n up down i j : Nat) : Nat :=
  if i = 0 ∧ 1 ≤ j ∧ j < n then down else if j = 0 ∧ 1 ≤ i ∧ i < n then up else 0

/-- Whatever the schedule of a reliable network, until all parties have finished every client has sent exactly `up` bytes of messages
to the king, the king exactly `down` bytes to every client, all of them have been taken, and nothing has passed between two clients:
`(n - 1) (up + down)` bytes altogether. At no time has more than that been sent. -/
def Exchanges {n : Nat} {α : Type} (c : Net n α) (up down : Nat) : Prop :=
  ∀ tr c', Trace tr c c' → (∀ e ∈ tr, e.2 ≠ .fault) →
    (∀ i j, sentBytes tr i j ≤ starBytes n up down i j) ∧
    ((∀ i, ∃ v, c'.procs i = .done (.ok v)) →
      (∀ i j, sentBytes tr i j = starBytes n up down i j ∧ takenBytes tr j i = starBytes n up down i j) ∧
      allBytes tr = (n - 1) * (up + down))

end ZkSaas.Spec
