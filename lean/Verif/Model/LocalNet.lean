import Verif.Model.ProdNet

/-!
# `mpc-net/src/multi.rs`: the local test network

`new_local_testnet` connects every pair of `n` nodes by TCP. Its dial/accept phase is a transition system (`Mesh`): the client task
of node `i` dials `i + 1, …, n - 1` one after the other, the server task of node `j` accepts `j` connections from its listener. Any
pending connection may be the next to be accepted, and the tasks of all nodes are interleaved in any way.
-/

namespace ZkSaas

/-- Where the client task is with the current connection (`mpc-net/src/multi.rs:154-184`). -/
inductive Dialling where
  | idle
  | connected
  | written
  deriving DecidableEq, Repr

/-- What the dialling side writes on a connection: its id, then (async-smux) the openings of the streams. -/
inductive Item where
  | id (x : Nat)
  | opened
  deriving DecidableEq, Repr

/-- All nodes during `connect_to_all`. A connection is named by (dialling node, accepting node). -/
structure Mesh where
  /-- `conns_made` of the client task -/
  made : Nat → Nat
  stage : Nat → Dialling
  /-- how many connections the server task has finished -/
  taken : Nat → Nat
  /-- the connection the server task is busy with: the dialling node and, once read, `peer_id` -/
  cur : Nat → Option (Nat × Option Nat)
  /-- connections waiting in the listener -/
  backlog : Nat → List Nat
  /-- `peers[k].streams` of node `i` -/
  peers : Nat → Nat → Option (Nat × Nat)
  /-- what was written on a connection and not yet read -/
  wire : Nat → Nat → List Item

/-- `mpc-net/src/multi.rs:244-276`: the listeners are bound and no node has streams to any other. -/
def Mesh.init : Mesh where
  made _ := 0
  stage _ := .idle
  taken _ := 0
  cur _ := none
  backlog _ := []
  peers _ _ := none
  wire _ _ := []

/-- `next_peer_to_connect_to` (`mpc-net/src/multi.rs:161`). -/
def Mesh.target (s : Mesh) (i : Nat) : Nat := i + s.made i + 1

/-- `f` with another value at `(i, j)`. -/
def update2 {α : Type} (f : Nat → Nat → α) (i j : Nat) (x : α) : Nat → Nat → α :=
  Function.update f i (Function.update (f i) j x)

/-- The steps of the two tasks of `connect_to_all`, `mpc-net/src/multi.rs:110-192`, of `n` nodes. -/
inductive Mesh.Step (n : Nat) : Mesh → Mesh → Prop where
  /-- client task: `TcpStream::connect` (`:156-169`) -/
  | dial (s : Mesh) (i : Nat) (hi : i < n) (hm : s.made i < n - 1 - i) (hs : s.stage i = .idle) :
      Mesh.Step n s { s with
        stage := Function.update s.stage i .connected
        backlog := Function.update s.backlog (s.target i) (s.backlog (s.target i) ++ [i]) }
  /-- client task: `stream.write_u32(my_id)` (`:170`) -/
  | write (s : Mesh) (i : Nat) (hi : i < n) (hs : s.stage i = .connected) :
      Mesh.Step n s { s with
        stage := Function.update s.stage i .written
        wire := update2 s.wire i (s.target i) (s.wire i (s.target i) ++ [.id i]) }
  /-- client task: `multiplex_stream` and storing the streams (`:172-183`) -/
  | store (s : Mesh) (i : Nat) (hi : i < n) (hs : s.stage i = .written) (ht : s.target i < n) :
      Mesh.Step n s { s with
        stage := Function.update s.stage i .idle
        made := Function.update s.made i (s.made i + 1)
        peers := update2 s.peers i (s.target i) (some (i, s.target i))
        wire := update2 s.wire i (s.target i) (s.wire i (s.target i) ++ [.opened]) }
  /-- server task: `listener.accept()` (`:136-142`) -/
  | accept (s : Mesh) (j i : Nat) (hj : j < n) (ht : s.taken j < j) (hc : s.cur j = none) (pre post : List Nat)
      (hb : s.backlog j = pre ++ i :: post) :
      Mesh.Step n s { s with
        cur := Function.update s.cur j (some (i, none))
        backlog := Function.update s.backlog j (pre ++ post) }
  /-- server task: `stream.read_u32()` (`:144`) -/
  | read (s : Mesh) (j i : Nat) (hj : j < n) (hc : s.cur j = some (i, none)) (x : Nat) (rest : List Item)
      (hw : s.wire i j = .id x :: rest) :
      Mesh.Step n s { s with
        cur := Function.update s.cur j (some (i, some x))
        wire := update2 s.wire i j rest }
  /-- server task: `multiplex_stream` and storing the streams (`:146-149`); the `unwrap` needs an entry for `x` -/
  | keep (s : Mesh) (j i : Nat) (hj : j < n) (x : Nat) (hc : s.cur j = some (i, some x)) (rest : List Item)
      (hw : s.wire i j = .opened :: rest) (hx : x < n) :
      Mesh.Step n s { s with
        taken := Function.update s.taken j (s.taken j + 1)
        cur := Function.update s.cur j none
        peers := update2 s.peers j x (some (i, j))
        wire := update2 s.wire i j rest }

/-- `k` steps. -/
inductive Mesh.Steps (n : Nat) : Nat → Mesh → Mesh → Prop where
  | refl (s : Mesh) : Mesh.Steps n 0 s s
  | step {k : Nat} {s s' s'' : Mesh} (hs : Mesh.Steps n k s s') (h : Mesh.Step n s' s'') : Mesh.Steps n (k + 1) s s''

/-- The peers of node `i` as entries of the hash map (`mpc-net/src/multi.rs:262-274`); a stored stream is named by the other node. -/
def Mesh.peerMap (s : Mesh) (n i : Nat) : List Peer := (List.range n).map fun k => ⟨k, (s.peers i k).map fun _ => k⟩

/-- `mpc-net/src/multi.rs:219-230`: the check at the end of `connect_to_all`. -/
def checkPeers (me : Nat) (peers : List Peer) : Res Unit :=
  if peers.all (fun p => p.id = me || p.streams.isSome) then .ok () else .error (.net .generic)

/-- ark-serialize of `u32`. -/
instance : FixedWire (Fin (2 ^ 32)) where
  enc x := leBytes 4 x.val
  read b := if h : b.length < 4 then none else some (Fin.ofNat (2 ^ 32) (ofLeBytes (b.take 4)), b.drop 4)
  width := 4
  enc_length x := by
    show (leBytes 4 x.val).length = 4
    simp [leBytes]
  read_enc x rest := by
    have hb : ∀ k y, (leBytes k y).length = k := by
      intro k
      induction k with
      | zero => intro y; rfl
      | succ k ih => intro y; simp [leBytes, ih]
    have hl : (leBytes 4 x.val).length = 4 := hb 4 _
    have hv : ∀ k y, y < 256 ^ k → ofLeBytes (leBytes k y) = y := by
      intro k
      induction k with
      | zero => intro y hy; simp at hy; simp [leBytes, ofLeBytes, hy]
      | succ k ih =>
        intro y hy
        rw [leBytes, ofLeBytes, ih (y / 256) (by rw [Nat.pow_succ] at hy; omega)]
        have : (UInt8.ofNat (y % 256)).toNat = y % 256 := by
          rw [UInt8.toNat_ofNat']; omega
        rw [this]; omega
    have h1 : (leBytes 4 x.val ++ rest).take 4 = leBytes 4 x.val := List.take_left' hl
    have h2 : (leBytes 4 x.val ++ rest).drop 4 = rest := List.drop_left' hl
    have h3 : ¬ (leBytes 4 x.val ++ rest).length < 4 := by rw [List.length_append, hl]; omega
    show (if h : (leBytes 4 x.val ++ rest).length < 4 then none else
      some (Fin.ofNat (2 ^ 32) (ofLeBytes ((leBytes 4 x.val ++ rest).take 4)), (leBytes 4 x.val ++ rest).drop 4)) = some (x, rest)
    rw [dif_neg h3, h1, h2, hv 4 x.val (Nat.lt_of_lt_of_le x.isLt (by decide))]
    simp [Fin.ofNat, Nat.mod_eq_of_lt x.isLt]
  read_short b h := by
    show (if h : b.length < 4 then none else _) = none
    rw [dif_pos h]

/-- `mpc-net/src/multi.rs:196-217`: the round with the king at the end of `connect_to_all`; the threshold is zero. -/
def genesis (n : Nat) (me : Nat) : Proc Unit := do
  let fromAll ← clientSendOrKingReceiveSer n me (Fin.ofNat (2 ^ 32) me) .zero 0
  match fromAll with
  | some rs => do
    let _ ← clientReceiveOrKingSendSer n me (some rs.shares) .zero
    pure ()
  | none => do
    let _ ← clientReceiveOrKingSendSer n me (none : Option (List (Fin (2 ^ 32)))) .zero
    pure ()

/-- futures-util `FuturesOrdered`: outputs that are ready but not next wait in a heap, here a list in ascending order of the index. -/
def queueOutput {K : Type} (i : Nat) (v : K) : List (Nat × K) → List (Nat × K)
  | [] => [(i, v)]
  | (j, w) :: q => if i ≤ j then (i, v) :: (j, w) :: q else (j, w) :: queueOutput i v q

/-- `FuturesOrdered::poll_next` as long as the top of the heap has the index `next_outgoing_index`: the outputs, the new index and
the new heap. -/
def popOutputs {K : Type} : Nat → List (Nat × K) → List K × Nat × List (Nat × K)
  | next, [] => ([], next, [])
  | next, (i, v) :: q =>
    if i = next then
      let r := popOutputs (next + 1) q
      (v :: r.1, r.2)
    else ([], next, (i, v) :: q)

/-- `FuturesOrdered::collect`, given the order in which the futures complete. A panic inside a future (`handle.await.unwrap()` of a
task that panicked) is a panic of the collecting task. -/
def collectOrdered {K : Type} : Nat → List (Nat × K) → List (Nat × Res K) → Res (List K)
  | next, q, [] => .ok (popOutputs next q).1
  | next, q, (i, x) :: events =>
    let r := popOutputs next q
    match x with
    | .error _ => panic'
    | .ok v =>
      if i = r.2.1 then do
        let vs ← collectOrdered (r.2.1 + 1) r.2.2 events
        .ok (r.1 ++ v :: vs)
      else do
        let vs ← collectOrdered r.2.1 (queueOutput i v r.2.2) events
        .ok (r.1 ++ vs)

/-- `mpc-net/src/multi.rs:301-328` `simulate_network_round`. `nodes` is the hash map in its order of iteration, `task` what the
closure returns on a connection, `order` the order in which the tasks complete, given by their positions. -/
def simulateNetworkRound {C K : Type} (nodes : List (Nat × C)) (task : C → Res K) (order : List Nat) : Res (List K) :=
  let sorted := nodes.mergeSort fun a b => a.1 ≤ b.1
  collectOrdered 0 [] (order.filterMap fun k => (sorted[k]?).map fun nd => (k, task nd.2))

/-- `mpc-net/src/multi.rs:330-363` `simulate_lossy_network_round`. -/
def simulateLossyNetworkRound {C K : Type} (nodes : List (Nat × C)) (task : C → Res K) (order : List Nat) :
    Res (ReceivedShares K) := do
  let nParties := (nodes.mergeSort fun a b => a.1 ≤ b.1).length
  let result ← simulateNetworkRound nodes task order
  assert (1 ≤ nParties ∧ nParties - 1 ≤ result.length)
  .ok ⟨result.take (nParties - 1), List.range (nParties - 1)⟩

end ZkSaas
