import Verif.Model.Net

/-!
# Specification: executions with their history, and how much is said in them
-/

namespace ZkSaas.Spec

/-- An execution on an arbitrary network together with its history: which party did what, in order. -/
inductive Trace {n : Nat} {α : Type} : List (Nat × Act) → Net n α → Net n α → Prop where
  | refl (c : Net n α) : Trace [] c c
  | step {procs : Fin n → Proc α} {Q Q' : Queues} {i : Fin n} {a : Act} {p' : Proc α} {tr : List (Nat × Act)} {c : Net n α}
      (hstep : LStep (procs i) a p') (hq : qstep i a Q = some Q') (hs : Trace tr ⟨Function.update procs i p', Q'⟩ c) :
      Trace ((i.val, a) :: tr) ⟨procs, Q⟩ c

/-- The action is a send to `dst` on stream `sid`. -/
def isSend (dst : Nat) (sid : Sid) : Act → Bool
  | .send d x _ => d == dst && x == sid
  | _ => false

/-- The action is a receive from `frm` on stream `sid`. -/
def isRecv (frm : Nat) (sid : Sid) : Act → Bool
  | .recv d x _ => d == frm && x == sid
  | _ => false

/-- The number of messages that party `i` has sent to party `j` on stream `sid`. -/
def sent (tr : List (Nat × Act)) (i j : Nat) (sid : Sid) : Nat := tr.countP fun e => e.1 == i && isSend j sid e.2

/-- The number of messages of party `j` that party `i` has taken from stream `sid`. -/
def taken (tr : List (Nat × Act)) (i j : Nat) (sid : Sid) : Nat := tr.countP fun e => e.1 == i && isRecv j sid e.2

/-- The number of all messages sent. -/
def messages (tr : List (Nat × Act)) : Nat := tr.countP fun e => match e.2 with | .send _ _ _ => true | _ => false

/-- Party `i` of `n`, running `p`, takes part in `R sid` star rounds on each stream `sid`, whatever the network does and whatever
programs the other parties run. A client that succeeds has sent exactly that many messages to the king and has taken exactly
that many from it; a king that succeeds has sent exactly that many to every client and has taken at most that many from each.
Nobody ever exchanges more than that, or anything with anybody else. -/
def TakesRounds {α : Type} (n i : Nat) (p : Proc α) (R : Sid → Nat) : Prop :=
  ∀ (procs : Fin n → Proc α) (hi : i < n), procs ⟨i, hi⟩ = p → ∀ tr c, Trace tr (Net.init procs) c →
    (∀ j sid, sent tr i j sid ≤ (if (i = 0 ∧ 1 ≤ j ∧ j < n) ∨ (i ≠ 0 ∧ j = 0) then R sid else 0) ∧
      taken tr i j sid ≤ (if (i = 0 ∧ 1 ≤ j ∧ j < n) ∨ (i ≠ 0 ∧ j = 0) then R sid else 0)) ∧
    ∀ v, c.procs ⟨i, hi⟩ = .done (.ok v) → ∀ sid,
      (i = 0 → ∀ j, 1 ≤ j → j < n → sent tr 0 j sid = R sid) ∧
      (i ≠ 0 → sent tr i 0 sid = R sid ∧ taken tr i 0 sid = R sid)

end ZkSaas.Spec
