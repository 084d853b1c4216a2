import Verif.Model.Net

/-!
# Specification: what the parties see
-/

namespace ZkSaas

/-- What a party has taken off the network: senders and messages. -/
abbrev Transcript := List (Nat × Bytes)

/-- The entries of `L` in the order of the senders `0, …, n-1`. -/
def bySender (n : Nat) (L : Transcript) : Transcript := (List.range n).flatMap fun i => L.filter fun x => x.1 == i

/-- The same program, which also returns the messages it took off the network, in the order of the program: for a `recv` the
message, for the king's `gather` all the messages it ended with (its own first), in the order of the senders; for a `try_join!` those
of the first branch, then those of the second. -/
def Proc.recorded {α : Type} : Proc α → Proc (α × Transcript)
  | .done r => .done (r.map fun a => (a, []))
  | .send dst sid b k => .send dst sid b k.recorded
  | .recv frm sid k => .recv frm sid fun b => (k b).recorded.bind fun x => .done (.ok (x.1, (frm, b) :: x.2))
  | .gather sid n own got k => .gather sid n own got fun L =>
      (k L).recorded.bind fun x => .done (.ok (x.1, bySender n L ++ x.2))
  | .par p q k => .par p.recorded q.recorded fun x y =>
      (k x.1 y.1).recorded.bind fun z => .done (.ok (z.1, x.2 ++ (y.2 ++ z.2)))

end ZkSaas

namespace ZkSaas.Spec

/-- What a program contributes to the king in its first round: the bytes a client sends to party `0`, or the king's own bytes. -/
def toKing {α : Type} : Proc α → Option Bytes
  | .send 0 _ b _ => some b
  | .gather _ _ own _ _ => some own
  | _ => none

/-- A finite list of values as a sequence, zero afterwards. -/
def ext {V : Type} [Zero V] {m : Nat} (v : Fin m → V) (i : Nat) : V := if h : i < m then v ⟨i, h⟩ else 0

/-- The same for a table. -/
def ext2 {V : Type} [Zero V] {m k : Nat} (v : Fin m → Fin k → V) (i j : Nat) : V := if h : i < m then ext (v ⟨i, h⟩) j else 0

/-- Everything drawn at random for the in-masks of `N` packed positions: `l` mask values per position and the `l` random values
`pack` adds to each. -/
abbrev MaskTape (V T : Type) (N l : Nat) := (Fin (N * l) → V) × (Fin N → Fin l → T)

/-- What party `p` tells the king when it runs `prog p` with its own one of the sampled masks `ms`. -/
def kingMsg {M α : Type} (ms : Res (List M)) (prog : Nat → M → Proc α) (p : Nat) : Option Bytes :=
  match ms with
  | .ok ms => ms[p]?.bind fun m => toKing (prog p m)
  | .error _ => none

end ZkSaas.Spec
