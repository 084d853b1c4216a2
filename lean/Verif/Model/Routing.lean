import Verif.Model.ProdNet
import Verif.Model.SerNet

/-!
# `mpc-net/src/prod.rs`: protocols over the production network

`ProdNet::send_to` and `recv_from` look the id up in the table of peers made by set-up and use the connection stored there. As in
`Verif.Model.ProdNet` party `0` is the node that accepts and party `j + 1` is whoever is at the other end of its connection
`ios[j]`; a protocol that addresses ids is turned into one that addresses connections.

Simplifications: the messages in the queues are the payloads (the packets around them are the subject of `Verif.Model.Wire` and
`Verif.Model.ByteNet`). The results of the king's concurrent receive are listed in the order of the ids; another order of the hash map
could be seen only after a time-out. A receive inside the concurrent receive whose id is not in the table is not modelled as failing at
once: it waits (C49 is about such tables); when the table is complete there is none.
-/

namespace ZkSaas

/-- The other end of connection `j`: party `j + 1` for the node that accepts, the accepting node for all others. -/
def farEnd (me j : Nat) : Nat := if me = 0 then j + 1 else 0

/-- `mpc-net/src/prod.rs:318-322`, `:339-343` and the `streams` of `:357`, `:369`: who is reached under this id; an id without entry
is `MpcNetError::Generic`, an entry without streams is `MpcNetError::NotConnected`. -/
def route (me : Nat) (peers : List Peer) (id : Nat) : Res Nat :=
  match getPeer peers id with
  | none => .error (.net .generic)
  | some p =>
    match p.streams with
    | none => .error (.net .notConnected)
    | some j => .ok (farEnd me j)

/-- The id below `n` under which `q` is reached (`0`, the id of the king itself, if there is none). -/
def idReached (rt : Nat → Res Nat) (n q : Nat) : Nat :=
  ((List.range n).find? fun id => match rt id with | .ok x => x == q | .error _ => false).getD 0

/-- The entry stored under `id`: what came over its connection, or the king's own message. -/
def entryFor (rt : Nat → Res Nat) (L : List (Nat × Bytes)) (id : Nat) : Option (Nat × Bytes) :=
  if id = 0 then (L.lookup 0).map fun b => (0, b)
  else match rt id with
    | .ok x => (L.lookup x).map fun b => (id, b)
    | .error _ => none

/-- The results of the concurrent receive by id. -/
def byId (rt : Nat → Res Nat) (n : Nat) (L : List (Nat × Bytes)) : List (Nat × Bytes) := (List.range n).filterMap (entryFor rt L)

/-- A protocol run through `ProdNet::send_to` (`mpc-net/src/prod.rs:333-350`) and `ProdNet::recv_from` (`:313-331`). In the king's
concurrent receive (`mpc-net/src/lib.rs:98-114`) `recv_from(id, sid)` is called for every id, and its result is stored under `id`. -/
def Proc.over {α : Type} (rt : Nat → Res Nat) : Proc α → Proc α
  | .done r => .done r
  | .send dst sid b k =>
    match rt dst with
    | .ok x => .send x sid b (k.over rt)
    | .error e => .done (.error e)
  | .recv frm sid k =>
    match rt frm with
    | .ok x => .recv x sid fun b => (k b).over rt
    | .error e => .done (.error e)
  | .gather sid n own got k =>
    .gather sid n own (fun q => got (idReached rt n q)) fun L => (k (byId rt n L)).over rt
  | .par p q k => .par (p.over rt) (q.over rt) fun r s => (k r s).over rt

/-- A node of the production network: set-up with `conns` connections, then the protocol `p` over what set-up has made, as in
`mpc-net/src/prod.rs:608-668` (the tests) and `groth16/examples`. -/
def prodNode {α : Type} (order : List Peer → List Peer) (id conns : Nat) (p : Proc α) : Proc α := do
  let peers ← prodNew order id conns
  p.over (route id peers)

end ZkSaas
