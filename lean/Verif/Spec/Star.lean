import Verif.Model.Net

/-!
# Specification: protocols of a king and its clients
-/

namespace ZkSaas.Spec

/-- Whom party `me` of `n` has a connection to: the king to every other party, every other party to the king. -/
def Linked (n me x : Nat) : Prop := (me = 0 ∧ 1 ≤ x ∧ x < n) ∨ (me ≠ 0 ∧ x = 0)

/-- Programs of party `me` of `n` that only send to and receive from the parties it has a connection to, whatever they receive. -/
inductive Star (n me : Nat) : {α : Type} → Proc α → Prop where
  | done {α : Type} (r : Res α) : Star n me (.done r)
  | send {α : Type} {dst : Nat} {sid : Sid} {b : Bytes} {k : Proc α} (hl : Linked n me dst) (h : Star n me k) :
      Star n me (.send dst sid b k)
  | recv {α : Type} {frm : Nat} {sid : Sid} {k : Bytes → Proc α} (hl : Linked n me frm) (h : ∀ b, Star n me (k b)) :
      Star n me (.recv frm sid k)
  | gather {α : Type} {sid : Sid} {own : Bytes} {got : Nat → Option Bytes} {k : List (Nat × Bytes) → Proc α} (hking : me = 0)
      (h : ∀ L, Star n me (k L)) : Star n me (.gather sid n own got k)
  | par {α β γ : Type} {p : Proc β} {q : Proc γ} {k : β → γ → Proc α} (hp : Star n me p) (hq : Star n me q)
      (h : ∀ r s, Star n me (k r s)) : Star n me (.par p q k)

end ZkSaas.Spec
