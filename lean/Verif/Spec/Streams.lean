import Verif.Spec.Net

/-!
# Specification: load and locking of the streams

A stream between two parties is one `Framed` connection behind one `TokioMutex` at each end, shared by both directions.
-/

namespace ZkSaas.Spec

/-- Whatever the schedule of a reliable network, at most one message is in transit on any stream between two parties, both
directions taken together. -/
def OneInFlight {n : Nat} {α : Type} (c : Net n α) : Prop :=
  ∀ k c', GSteps Reliable k c c' → ∀ i j x, (c'.queues (i, j, x)).length + (c'.queues (j, i, x)).length ≤ 1

/-- The program is about to use stream `x` to party `d`: a send or receive is pending, so it holds or awaits the lock of that
stream. -/
inductive Pending (d : Nat) (x : Sid) : {α : Type} → Proc α → Prop where
  | send {α : Type} (b : Bytes) (k : Proc α) : Pending d x (.send d x b k)
  | recv {α : Type} (k : Bytes → Proc α) : Pending d x (.recv d x k)
  | gather {α : Type} {n : Nat} {own : Bytes} {got : Nat → Option Bytes} (k : List (Nat × Bytes) → Proc α) (h1 : 1 ≤ d)
      (h2 : d < n) (h3 : got d = none) : Pending d x (.gather x n own got k)
  | parL {α β γ : Type} {p : Proc β} (q : Proc γ) (k : β → γ → Proc α) (h : Pending d x p) : Pending d x (.par p q k)
  | parR {α β γ : Type} (p : Proc β) {q : Proc γ} (k : β → γ → Proc α) (h : Pending d x q) : Pending d x (.par p q k)

/-- Two concurrent branches of the program are about to use the same stream to the same party, so one of them has to wait for
the lock that the other holds. -/
inductive Contended : {α : Type} → Proc α → Prop where
  | here {α β γ : Type} {p : Proc β} {q : Proc γ} (k : β → γ → Proc α) (d : Nat) (x : Sid) (hp : Pending d x p)
      (hq : Pending d x q) : Contended (.par p q k)
  | parL {α β γ : Type} {p : Proc β} (q : Proc γ) (k : β → γ → Proc α) (h : Contended p) : Contended (.par p q k)
  | parR {α β γ : Type} (p : Proc β) {q : Proc γ} (k : β → γ → Proc α) (h : Contended q) : Contended (.par p q k)

/-- On no network, under no schedule and with whatever time-outs and failures, do two tasks of one party ever compete for a
stream. -/
def NeverContended {n : Nat} {α : Type} (c : Net n α) : Prop :=
  ∀ k c', GSteps Any k c c' → ∀ i, ¬ Contended (c'.procs i)

/-- One step of a reliable network whose streams hold at most `cap` messages in each direction: a send to a full stream has
to wait. -/
inductive BStep {n : Nat} {α : Type} (cap : Nat) : Net n α → Net n α → Prop where
  | mk (procs : Fin n → Proc α) (Q Q' : Queues) (i : Fin n) (a : Act) (p' : Proc α) (ha : Reliable a)
      (hroom : ∀ dst x b, a = .send dst x b → (Q (i, dst, x)).length < cap) (hstep : LStep (procs i) a p')
      (hq : qstep i a Q = some Q') : BStep cap ⟨procs, Q⟩ ⟨Function.update procs i p', Q'⟩

/-- `k` of these steps. -/
inductive BSteps {n : Nat} {α : Type} (cap : Nat) : Nat → Net n α → Net n α → Prop where
  | refl (c : Net n α) : BSteps cap 0 c c
  | step {k : Nat} {c c' c'' : Net n α} (h : BStep cap c c') (hs : BSteps cap k c' c'') : BSteps cap (k + 1) c c''

/-- `AlwaysYields` on a network whose streams hold at most `cap` messages in each direction. -/
def AlwaysYieldsBuffered {n : Nat} {α : Type} (cap : Nat) (c : Net n α) (rs : Fin n → α) : Prop :=
  (∃ m, ∀ k c', BSteps cap k c c' → k ≤ m) ∧
  ∀ k c', BSteps cap k c c' → (¬ ∃ c'', BStep cap c' c'') → ∀ i, c'.procs i = .done (.ok (rs i))

end ZkSaas.Spec
