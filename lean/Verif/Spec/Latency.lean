import Verif.Spec.Net

/-!
# Specification: how long a protocol takes

Time is counted in message delays: a message arrives one unit after it was sent, a party that has to wait for several messages goes on
when the last one is there, and everything that a party computes by itself takes no time.
-/

namespace ZkSaas.Spec

/-- The message `b` with the time of its arrival written in front. -/
def stamp (t : Nat) (b : Bytes) : Bytes := List.replicate t 1 ++ 0 :: b

/-- The time of arrival of a stamped message. -/
def arrival (b : Bytes) : Nat := (b.takeWhile (· == 1)).length

/-- A stamped message without its stamp. -/
def unstamp (b : Bytes) : Bytes := b.drop (arrival b + 1)

end ZkSaas.Spec

namespace ZkSaas

open Spec

/-- The same program with a clock, which shows `t` at the start: every message is sent with its time of arrival, a receiver sets its
clock to the time of arrival if that is later, the king's `gather` waits for the last message, both branches of a `try_join!` start
with the clock of the party, and the later one of the two decides when the party goes on. The time at the end is returned too. -/
def Proc.timed {α : Type} : Proc α → Nat → Proc (α × Nat)
  | .done r, t => .done (r.map fun a => (a, t))
  | .send dst sid b k, t => .send dst sid (stamp (t + 1) b) (k.timed t)
  | .recv frm sid k, t => .recv frm sid fun b => (k (unstamp b)).timed (max t (arrival b))
  | .gather sid n own got k, t => .gather sid n (stamp t own) (fun i => (got i).map (stamp t)) fun L =>
      (k (L.map fun e => (e.1, unstamp e.2))).timed ((L.map fun e => arrival e.2).foldr max t)
  | .par p q k, t => .par (p.timed t) (q.timed t) fun x y => (k x.1 y.1).timed (max x.2 y.2)

end ZkSaas

namespace ZkSaas.Spec

/-- Whatever the schedule of a reliable network, the protocol ends with the results `rs`, after `R` round trips to the king: the king
has finished after `2 R - 1` message delays, everybody else after `2 R`. -/
def TakesRoundTrips {n : Nat} {α : Type} (R : Nat) (ps : Fin n → Proc α) (rs : Fin n → α) : Prop :=
  AlwaysYields (Net.init fun i => (ps i).timed 0) fun i => (rs i, if i.val = 0 then 2 * R - 1 else 2 * R)

end ZkSaas.Spec
