import Verif.Model.Net

/-!
# Specification: outcome under every schedule
-/

namespace ZkSaas

/-- Programs that use only the streams in `S`, whose concurrent branches use disjoint streams, and whose king does not depend on
the iteration order of a complete hash map. All programs of the model are of this kind. -/
inductive Proc.WF : {α : Type} → (Sid → Prop) → Proc α → Prop where
  | done {α : Type} (S : Sid → Prop) (r : Res α) : Proc.WF S (.done r)
  | send {α : Type} {S : Sid → Prop} {dst : Nat} {sid : Sid} {b : Bytes} {k : Proc α} (hs : S sid)
      (h : Proc.WF S k) : Proc.WF S (.send dst sid b k)
  | recv {α : Type} {S : Sid → Prop} {frm : Nat} {sid : Sid} {k : Bytes → Proc α} (hs : S sid)
      (h : ∀ b, Proc.WF S (k b)) : Proc.WF S (.recv frm sid k)
  | gather {α : Type} {S : Sid → Prop} {sid : Sid} {n : Nat} {own : Bytes} {got : Nat → Option Bytes}
      {k : List (Nat × Bytes) → Proc α} (hs : S sid) (h : ∀ L, Proc.WF S (k L))
      (hk : ∀ got' L L', (∀ i, 1 ≤ i → i < n → got' i ≠ none) → Enumerates n own got' L → Enumerates n own got' L' →
        k L = k L') : Proc.WF S (.gather sid n own got k)
  | par {α β γ : Type} {S S1 S2 : Sid → Prop} {p : Proc β} {q : Proc γ} {k : β → γ → Proc α}
      (hdis : ∀ x, S1 x → S2 x → False) (h1 : ∀ x, S1 x → S x) (h2 : ∀ x, S2 x → S x)
      (hp : Proc.WF S1 p) (hq : Proc.WF S2 q) (hk : ∀ r s, Proc.WF S (k r s)) : Proc.WF S (.par p q k)

end ZkSaas

namespace ZkSaas.Spec

/-- Whatever the schedule of a reliable network, every message that a party ever is about to send satisfies `P`. -/
def SendsOnly {n : Nat} {α : Type} (P : Bytes → Prop) (c : Net n α) : Prop :=
  ∀ k c', GSteps Reliable k c c' → ∀ i dst sid b p', LStep (c'.procs i) (.send dst sid b) p' → P b

/-- Whatever the schedule of a reliable network, the protocol ends (no infinite execution) and when nothing can move any more
every party `i` has finished successfully with `rs i` (so there is no deadlock either). -/
def AlwaysYields {n : Nat} {α : Type} (c : Net n α) (rs : Fin n → α) : Prop :=
  (∃ m, ∀ k c', GSteps Reliable k c c' → k ≤ m) ∧
  ∀ k c', GSteps Reliable k c c' → (¬ ∃ c'', GStep Reliable c' c'') →
    ∀ i, c'.procs i = .done (.ok (rs i))

/-- Steps of a network that transports no message of more than `lim` bytes (a send of a longer message can only fail). -/
def Within (lim : Nat) (a : Act) : Prop := ∀ dst sid b, a = .send dst sid b → b.length ≤ lim

/-- `AlwaysYields` on a network that is reliable, except that it transports no message of more than `lim` bytes. -/
def AlwaysYieldsWithin {n : Nat} {α : Type} (lim : Nat) (c : Net n α) (rs : Fin n → α) : Prop :=
  (∃ m, ∀ k c', GSteps (fun a => Reliable a ∧ Within lim a) k c c' → k ≤ m) ∧
  ∀ k c', GSteps (fun a => Reliable a ∧ Within lim a) k c c' →
    (¬ ∃ c'', GStep (fun a => Reliable a ∧ Within lim a) c' c'') → ∀ i, c'.procs i = .done (.ok (rs i))

/-- On a network that transports no message of more than `lim` bytes party `i` never finishes successfully, whatever the
schedule and whatever else fails. -/
def NeverFinishes {n : Nat} {α : Type} (lim : Nat) (c : Net n α) (i : Fin n) : Prop :=
  ∀ k c', GSteps (Within lim) k c c' → ∀ v, c'.procs i ≠ .done (.ok v)

/-- Whatever the schedule of a reliable network, the protocol comes to a halt with the king (party `0`) failed with `e` and
every other party waiting for a message that never comes. -/
def AlwaysKingFails {n : Nat} {α : Type} (c : Net n α) (e : Fault) : Prop :=
  (∃ m, ∀ k c', GSteps Reliable k c c' → k ≤ m) ∧
  ∀ k c', GSteps Reliable k c c' → (¬ ∃ c'', GStep Reliable c' c'') →
    ∀ i, (i.val = 0 → c'.procs i = .done (.error e)) ∧
      (i.val ≠ 0 → ∃ sid k, c'.procs i = .recv 0 sid k ∧ c'.queues (0, i, sid) = [])

/-- Whatever the schedule of a reliable network, the protocol comes to a halt, and the state in which nothing can move any more
satisfies `P`. -/
def AlwaysHalts {n : Nat} {α : Type} (c : Net n α) (P : Net n α → Prop) : Prop :=
  (∃ m, ∀ k c', GSteps Reliable k c c' → k ≤ m) ∧
  ∀ k c', GSteps Reliable k c c' → (¬ ∃ c'', GStep Reliable c' c'') → P c'

/-- Client `i` has sent its only message to the king and the message is not in transit any more, so the king has taken it. -/
def Delivered {n : Nat} {β : Type} (c : Net n (Option β)) (sid : Sid) (i : Nat) : Prop :=
  ∃ h : i < n, i ≠ 0 ∧ c.procs ⟨i, h⟩ = .done (.ok none) ∧ c.queues (i, 0, sid) = []

end ZkSaas.Spec
