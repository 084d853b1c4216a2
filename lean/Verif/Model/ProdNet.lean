import Verif.Model.Wire

/-!
# `mpc-net/src/prod.rs`: set-up of the production network

Set-up is a star of connections. In the network model of this file party `0` is the node that accepts and party `j + 1` is
whoever is at the other end of its connection `ios[j]`; which id that party announces is up to it. The announced `u32`, the opening
of the multiplexed streams and the packets of stream zero travel in this order over one connection, so they share a queue.
-/

namespace ZkSaas

/-- `mpc-net/src/multi.rs:35-39` `struct Peer`; `streams` names the connection whose streams were stored. -/
structure Peer where
  id : Nat
  streams : Option Nat
  deriving DecidableEq, Repr

/-- `HashMap::insert` of `connections.peers`, keyed by the id. -/
def insertPeer (peers : List Peer) (p : Peer) : List Peer := peers.filter (fun q => q.id ≠ p.id) ++ [p]

/-- `connections.peers.get(&id)`. -/
def getPeer (peers : List Peer) (id : Nat) : Option Peer := peers.find? fun q => q.id = id

/-- The message that opens a multiplexed stream (async-smux). -/
def openStream : Bytes := []

/-- `mpc-net/src/prod.rs:209-224`: for each connection read the id, accept the multiplexed streams
(`mpc-net/src/multi.rs:65-99`, three of them) and enter the peer. -/
def acceptPeers : List Nat → List Peer → Proc (List Peer)
  | [], peers => pure peers
  | j :: js, peers =>
    .recv (j + 1) .zero fun b =>
      .recv (j + 1) .zero fun _ => .recv (j + 1) .zero fun _ => .recv (j + 1) .zero fun _ =>
        acceptPeers js (insertPeer peers ⟨ofBeBytes b, some j⟩)

/-- `mpc-net/src/prod.rs:249-256`: a Syn to every peer, in the iteration order of the hash map. -/
def sendSyns : List Peer → Proc Unit
  | [] => pure ()
  | p :: ps =>
    match p.streams with
    | none => .done (.error (.net .notConnected))
    | some j => .send (j + 1) .zero ProtocolPacket.syn.enc (sendSyns ps)

/-- `mpc-net/src/prod.rs:259-271`: a SynAck from every peer. -/
def recvAcks : List Peer → Proc Unit
  | [] => pure ()
  | p :: ps =>
    match p.streams with
    | none => .done (.error (.net .notConnected))
    | some j => .recv (j + 1) .zero fun b =>
      match recvPacket (.frame b) with
      | .error e => .done (.error e)
      | .ok q => if q ≠ .synAck then .done (.error (.net (.protocol p.id))) else recvAcks ps

/-- `mpc-net/src/prod.rs:190-243` `new_from_pre_existing_connection` and `:246-296` `synchronize` of the king with `conns`
connections; `order` is the iteration order of the hash map of peers. -/
def kingSetup (order : List Peer → List Peer) (conns : Nat) : Proc (List Peer) := do
  let peers ← acceptPeers (List.range conns) []
  sendSyns (order peers)
  recvAcks (order peers)
  pure peers

/-- The same for a peer; `reply` is what it sends in answer to the Syn. -/
def peerHandshake (id : Nat) (reply : Bytes) : Proc (List Peer) :=
  .send 0 .zero (beBytes 4 id) <|
    .send 0 .zero openStream <| .send 0 .zero openStream <| .send 0 .zero openStream <|
      .recv 0 .zero fun b =>
        match recvPacket (.frame b) with
        | .error e => .done (.error e)
        | .ok q =>
          if q ≠ .syn then .done (.error (.net (.protocol 0)))
          else .send 0 .zero reply (.done (.ok [⟨0, some 0⟩]))

/-- `mpc-net/src/prod.rs:190-296`: `new_from_pre_existing_connection(id, n_parties, ios)` with `conns = ios.len()`. -/
def prodNew (order : List Peer → List Peer) (id conns : Nat) : Proc (List Peer) :=
  if id ≠ 0 ∧ conns ≠ 1 then .done (.error (.net .badInput))
  else if id = 0 then kingSetup order conns
  else peerHandshake id ProtocolPacket.synAck.enc

/-- `mpc-net/src/multi.rs:390-392` `is_init`. -/
def isInit (peers : List Peer) : Bool := peers.all fun p => p.streams.isSome

end ZkSaas
