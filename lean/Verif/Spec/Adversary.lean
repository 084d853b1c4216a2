import Verif.Spec.Net

/-!
# Specification: protocols in which some parties do not follow their programs
-/

namespace ZkSaas.Spec

/-- Failures of a program that do not cut off an honest party too early: a send or receive fails, or the time-out of the king's
receive fires when all parties not in `bad` have been heard. -/
inductive Timely (bad : Nat → Prop) : {α : Type} → Proc α → Proc α → Prop where
  | sendFail {α : Type} (dst : Nat) (sid : Sid) (b : Bytes) (k : Proc α) (e : MpcNetError) :
      Timely bad (.send dst sid b k) (.done (.error (.net e)))
  | recvFail {α : Type} (frm : Nat) (sid : Sid) (k : Bytes → Proc α) (e : MpcNetError) :
      Timely bad (.recv frm sid k) (.done (.error (.net e)))
  | expire {α : Type} (sid : Sid) (n : Nat) (own : Bytes) (got : Nat → Option Bytes) (k : List (Nat × Bytes) → Proc α)
      (L : List (Nat × Bytes)) (h : ∀ i, 1 ≤ i → i < n → ¬ bad i → got i ≠ none) (hL : Enumerates n own got L) :
      Timely bad (.gather sid n own got k) (k L)
  | parL {α β γ : Type} (p p' : Proc β) (q : Proc γ) (k : β → γ → Proc α) (h : Timely bad p p') :
      Timely bad (.par p q k) (.par p' q k)
  | parR {α β γ : Type} (p : Proc β) (q q' : Proc γ) (k : β → γ → Proc α) (h : Timely bad q q') :
      Timely bad (.par p q k) (.par p q' k)

/-- A step of a network on which sends and receives may fail at any time, but the king waits for all parties not in `bad`. -/
inductive TStep {n : Nat} {α : Type} (bad : Nat → Prop) : Net n α → Net n α → Prop where
  | mk (procs : Fin n → Proc α) (Q Q' : Queues) (i : Fin n) (a : Act) (p' : Proc α) (hstep : LStep (procs i) a p')
      (ha : a = .fault → bad i ∨ Timely bad (procs i) p') (hq : qstep i a Q = some Q') :
      TStep bad ⟨procs, Q⟩ ⟨Function.update procs i p', Q'⟩

/-- Executions on such a network. -/
inductive TReach {n : Nat} {α : Type} (bad : Nat → Prop) : Net n α → Net n α → Prop where
  | refl (c : Net n α) : TReach bad c c
  | step {c c' c'' : Net n α} (h : TStep bad c c') (hs : TReach bad c' c'') : TReach bad c c''

/-- Whatever programs the parties in `bad` run instead of theirs, whenever another party finishes successfully it has the result
`rs i`. -/
def SafeAgainst {n : Nat} {α : Type} (bad : Nat → Prop) (ps : Fin n → Proc α) (rs : Fin n → α) : Prop :=
  ∀ procs : Fin n → Proc α, (∀ i : Fin n, ¬ bad i → procs i = ps i) → ∀ c, TReach bad (Net.init procs) c →
    ∀ i : Fin n, ¬ bad i → ∀ v, c.procs i = .done (.ok v) → v = rs i

end ZkSaas.Spec
