import Verif.Model.ByteNet

/-!
# Specification: outcome on bytes
-/

namespace ZkSaas.Spec

/-- On bytes, whatever the schedule and whatever the pieces in which they are read: the protocol ends, and when nothing can move any more every
party `i` has finished successfully with `rs i`. -/
def BytesAlwaysYield {n : Nat} {α : Type} (T : Transport) (c : ByteNet n α) (rs : Fin n → α) : Prop :=
  (∃ m, ∀ k c', BSteps T k c c' → k ≤ m) ∧
  ∀ k c', BSteps T k c c' → (¬ ∃ c'', BStep T c' c'') → ∀ i, c'.procs i = .done (.ok (rs i))

/-- On bytes party `i` never finishes successfully, whatever the schedule and the pieces. -/
def BytesNeverFinish {n : Nat} {α : Type} (T : Transport) (c : ByteNet n α) (i : Fin n) : Prop :=
  ∀ k c', BSteps T k c c' → ∀ v, c'.procs i ≠ .done (.ok v)

/-- The wire format `wrap` carries every message of at most `lim` bytes: `send` writes its length in four bytes and then `wrap b`, and `recv`
gives `b` back. Longer messages are refused. -/
structure Carries (T : Transport) (lim : Nat) (wrap : Bytes → Bytes) : Prop where
  fits : ∀ b, b.length ≤ lim → (wrap b).length ≤ 8 * 1024 * 1024
  send : ∀ b out, b.length ≤ lim → T.send out b = .ok (out ++ (beBytes 4 (wrap b).length ++ wrap b))
  recv : ∀ b, b.length ≤ lim → T.recv (.frame (wrap b)) = .ok b
  refuse : ∀ b out, lim < b.length → ∃ e, T.send out b = .error e

end ZkSaas.Spec
