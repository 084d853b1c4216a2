import Verif.Spec.Net
import Mathlib.Data.Finset.Card

/-!
# Specification: some parties fall silent
-/

namespace ZkSaas.Spec

/-- Party `i` has stopped without a result and nothing that it sent to the king on stream `sid` is still in transit. -/
def Gone {n : Nat} {α : Type} (c : Net n α) (sid : Sid) (i : Nat) : Prop :=
  ∃ h : i < n, (∃ e, c.procs ⟨i, h⟩ = .done (.error e)) ∧ c.queues (i, 0, sid) = []

/-- The time-out of the king's receive on stream `sid` fires when everybody that is not `gone` has been heard. -/
inductive GivesUp (gone : Nat → Prop) (sid : Sid) : {α : Type} → Proc α → Proc α → Prop where
  | expire {α : Type} (n : Nat) (own : Bytes) (got : Nat → Option Bytes) (k : List (Nat × Bytes) → Proc α)
      (L : List (Nat × Bytes)) (h : ∀ i, 1 ≤ i → i < n → ¬ gone i → got i ≠ none) (hL : Enumerates n own got L) :
      GivesUp gone sid (.gather sid n own got k) (k L)
  | parL {α β γ : Type} (x x' : Proc β) (y : Proc γ) (k : β → γ → Proc α) (h : GivesUp gone sid x x') :
      GivesUp gone sid (.par x y k) (.par x' y k)
  | parR {α β γ : Type} (x : Proc β) (y y' : Proc γ) (k : β → γ → Proc α) (h : GivesUp gone sid y y') :
      GivesUp gone sid (.par x y k) (.par x y' k)

/-- What happens by itself on a network that loses nothing: the parties run, and the king stops waiting on a stream once
everybody that it has not heard is gone. -/
inductive Move {n : Nat} {α : Type} : Net n α → Net n α → Prop where
  | run {c c' : Net n α} (h : GStep Reliable c c') : Move c c'
  | giveUp (c : Net n α) (sid : Sid) (king : Fin n) (hking : king.val = 0) (x' : Proc α)
      (h : GivesUp (Gone c sid) sid (c.procs king) x') : Move c ⟨Function.update c.procs king x', c.queues⟩

/-- The same, and in addition the parties in `S` may stop for ever at any moment; what they have sent is still delivered. -/
inductive SilentStep {n : Nat} {α : Type} (S : Nat → Prop) : Net n α → Net n α → Prop where
  | move {c c' : Net n α} (h : Move c c') : SilentStep S c c'
  | stop (c : Net n α) (i : Fin n) (hi : S i) (e : Fault) (h : ∀ r, c.procs i ≠ .done r) :
      SilentStep S c ⟨Function.update c.procs i (.done (.error e)), c.queues⟩

/-- `k` such steps. -/
inductive SilentSteps {n : Nat} {α : Type} (S : Nat → Prop) : Nat → Net n α → Net n α → Prop where
  | refl (c : Net n α) : SilentSteps S 0 c c
  | step {k : Nat} {c c' c'' : Net n α} (h : SilentStep S c c') (hs : SilentSteps S k c' c'') : SilentSteps S (k + 1) c c''

/-- Whatever the schedule, and whichever of the parties in `S` fall silent and when, the protocol ends, and when nothing moves any
more every other party has finished successfully with `rs i`. -/
def SurvivesSilence {n : Nat} {α : Type} (S : Nat → Prop) (c : Net n α) (rs : Fin n → α) : Prop :=
  (∃ m, ∀ k c', SilentSteps S k c c' → k ≤ m) ∧
  ∀ k c', SilentSteps S k c c' → (¬ ∃ c'', Move c' c'') → ∀ i : Fin n, ¬ S i → c'.procs i = .done (.ok (rs i))

/-- The same for every set of at most `m` parties without the king. -/
def SurvivesUpTo {n : Nat} {α : Type} (m : Nat) (c : Net n α) (rs : Fin n → α) : Prop :=
  ∀ silent : Finset Nat, 0 ∉ silent → silent.card ≤ m → SurvivesSilence (· ∈ silent) c rs

end ZkSaas.Spec
