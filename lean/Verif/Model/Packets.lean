import Verif.Model.Routing

/-!
# `mpc-net/src/prod.rs`: protocols as packets

`Verif.Model.Routing` lets the payloads travel. Here `ProdNet` puts every payload into a `ProtocolPacket::Packet` and takes it out again, so that
the packets of the protocol and those of the handshake of set-up travel over the same streams, as frames (`Verif.Model.ByteNet`, `localTransport`).

Simplifications: the announced id and the openings of the streams, which come before the first frame of a connection, are frames too.
The results of the king's concurrent receive are listed in the order of the ids, as in `Verif.Model.Routing`.
-/

namespace ZkSaas

/-- `mpc-net/src/lib.rs:101-106` with `mpc-net/src/prod.rs:323-330`: the entry stored under `id` once its receive has completed with the frame in
`L`; the king's own message is not packed, and a frame that is no `Packet` makes the receive fail, so that there is no entry. -/
def unpackedEntry (L : List (Nat × Bytes)) (id : Nat) : Option (Nat × Bytes) :=
  match L.lookup id with
  | none => none
  | some f =>
    if id = 0 then some (0, f)
    else match prodRecv (.frame f) with
      | .ok b => some (id, b)
      | .error _ => none

/-- The results of the concurrent receive, unpacked. -/
def unpackedAll (n : Nat) (L : List (Nat × Bytes)) : List (Nat × Bytes) := (List.range n).filterMap (unpackedEntry L)

/-- `mpc-net/src/prod.rs:313-331` `recv_from` and `:333-350` `send_to`: the protocol with all payloads packed. -/
def Proc.packets {α : Type} : Proc α → Proc α
  | .done r => .done r
  | .send dst sid b k => .send dst sid (ProtocolPacket.packet b).enc k.packets
  | .recv frm sid k => .recv frm sid fun f =>
    match prodRecv (.frame f) with
    | .ok b => (k b).packets
    | .error e => .done (.error e)
  | .gather sid n own got k =>
    .gather sid n own (fun i => (got i).map fun b => (ProtocolPacket.packet b).enc) fun L => (k (unpackedAll n L)).packets
  | .par p q k => .par p.packets q.packets fun r s => (k r s).packets

end ZkSaas
