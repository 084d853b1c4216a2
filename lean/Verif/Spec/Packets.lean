import Verif.Model.Net

/-!
# Specification: programs at their beginning
-/

namespace ZkSaas

/-- Programs as they are written: no concurrent receive has got anything yet. -/
inductive Proc.Fresh : {α : Type} → Proc α → Prop where
  | done {α : Type} (r : Res α) : Proc.Fresh (.done r)
  | send {α : Type} {dst : Nat} {sid : Sid} {b : Bytes} {k : Proc α} (h : k.Fresh) : Proc.Fresh (.send dst sid b k)
  | recv {α : Type} {frm : Nat} {sid : Sid} {k : Bytes → Proc α} (h : ∀ b, (k b).Fresh) : Proc.Fresh (.recv frm sid k)
  | gather {α : Type} {sid : Sid} {n : Nat} {own : Bytes} {k : List (Nat × Bytes) → Proc α} (h : ∀ L, (k L).Fresh) :
      Proc.Fresh (.gather sid n own (fun _ => none) k)
  | par {α β γ : Type} {p : Proc β} {q : Proc γ} {k : β → γ → Proc α} (hp : p.Fresh) (hq : q.Fresh) (hk : ∀ r s, (k r s).Fresh) :
      Proc.Fresh (.par p q k)

end ZkSaas
