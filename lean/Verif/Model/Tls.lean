import Verif.Model.Routing

/-!
# `mpc-net/src/prod.rs`: how the king gets its connections

TLS itself is not modelled, only its contract: `tls_acceptor.accept` succeeds for a peer that holds the key of one of the certificates in
the king's store (`AllowAnyAuthenticatedClient`, `mpc-net/src/prod.rs:41-60`) and fails otherwise.
-/

namespace ZkSaas

/-- A connection that arrives at the king's port: the certificate whose key its peer holds, if any. -/
structure Incoming where
  cert : Option Nat
  deriving DecidableEq, Repr

/-- `mpc-net/src/prod.rs:151`: `tls_acceptor.accept(stream).await` succeeds. `roots` is `root_cert_store.roots`. -/
def Incoming.authenticated (roots : List Nat) (c : Incoming) : Bool :=
  match c.cert with
  | none => false
  | some x => roots.contains x

/-- The king's wait for connections: still waiting, failed, or the connections. -/
inductive Accepting where
  | waiting
  | failed (e : Fault)
  | accepted (conns : List Incoming)
  deriving DecidableEq, Repr

/-- `mpc-net/src/prod.rs:149-153`: `for _ in 0..n_peers`, `incoming` being what arrives at the port, in order, and `conns` what is in
`tls_conns` so far. An error of `accept` leaves the function through `?`. -/
def acceptLoop (roots : List Nat) : Nat → List Incoming → List Incoming → Accepting
  | 0, _, conns => .accepted conns
  | _ + 1, [], _ => .waiting
  | k + 1, c :: incoming, conns =>
    if c.authenticated roots then acceptLoop roots k incoming (conns ++ [c]) else .failed (.net .generic)

/-- `mpc-net/src/prod.rs:134-158` `new_king_tls` up to the call of `new_from_pre_existing_connection`; `n_peers` is the number of
certificates in the store. -/
def kingAccepts (roots : List Nat) (incoming : List Incoming) : Accepting := acceptLoop roots roots.length incoming []

/-- `mpc-net/src/prod.rs:134-158` `new_king_tls` and then the protocol `p`; `none` while the king waits for connections. -/
def kingTls {α : Type} (order : List Peer → List Peer) (roots : List Nat) (incoming : List Incoming) (p : Nat → Proc α) :
    Option (Proc α) :=
  match kingAccepts roots incoming with
  | .waiting => none
  | .failed e => some (.done (.error e))
  | .accepted conns => some (prodNode order 0 conns.length (p (roots.length + 1)))

end ZkSaas
