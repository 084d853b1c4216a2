import Verif.Lemmas.ProdNet
import Verif.Properties.Wire
import Mathlib.Data.List.NodupEquivFin

/-!
# C48, C49: set-up of the production network
-/

namespace ZkSaas.Properties

open ZkSaas Spec

/-- The production network at the start: party `0` is the king with `c` connections, party `j + 1` is the peer at the other end of
connection `j`, configured with the id `ids j`. -/
def prodNetwork (order : List Peer → List Peer) (c : Nat) (ids : Nat → Nat) : Net (c + 1) (List Peer) :=
  Net.init fun i => if i.val = 0 then prodNew order 0 c else prodNew order (ids (i.val - 1)) 1

/-- The same with peers that announce arbitrary ids (also zero) and answer the Syn with arbitrary packets. -/
def roguePeers (order : List Peer → List Peer) (c : Nat) (ids : Nat → Nat) (reply : Nat → ProtocolPacket) : Net (c + 1) (List Peer) :=
  Net.init fun i => if i.val = 0 then prodNew order 0 c else peerHandshake (ids (i.val - 1)) (reply (i.val - 1)).enc

theorem recvPacket_ok (p : ProtocolPacket) (hp : ∀ b, p = .packet b → b.length < 2 ^ 64) : recvPacket (.frame p.enc) = .ok p := by
  have := C47_decode_encode p hp []
  rw [List.append_nil] at this
  simp only [recvPacket, this]

theorem rogue_eq (order : List Peer → List Peer) (c : Nat) (ids : Nat → Nat) (reply : Nat → ProtocolPacket) :
    roguePeers order c ids reply = Net.init fun i : Fin (c + 1) =>
      if i = 0 then kingSetup order c else peerHandshake (ids (i.val - 1)) (reply (i.val - 1)).enc := by
  unfold roguePeers
  congr 1
  funext i
  have : (i.val = 0) ↔ i = 0 := ⟨fun h => Fin.ext h, fun h => by rw [h]; rfl⟩
  by_cases h : i = 0
  · rw [if_pos (this.2 h), if_pos h]; simp [prodNew]
  · rw [if_neg (fun h' => h (this.1 h')), if_neg h]

theorem rogue_halts (c : Nat) (ids : Nat → Nat) (hids : ∀ j < c, ids j < 2 ^ 32) (reply : Nat → ProtocolPacket)
    (hreply : ∀ j, recvPacket (.frame (reply j).enc) = .ok (reply j)) (order : List Peer → List Peer)
    (horder : ∀ l, (order l).Perm l) :
    AlwaysHalts (roguePeers order c ids reply) fun t =>
      t.procs 0 = (match firstBad reply (order (accepted ids c)) with
        | none => .done (.ok (accepted ids c))
        | some p => .done (.error (.net (.protocol p.id)))) ∧
      ∀ j (h : j < c), (LastWith ids c j → t.procs (conn j h) = .done (.ok [⟨0, some 0⟩])) ∧
        (¬ LastWith ids c j → t.procs (conn j h) = awaitSyn (reply j).enc ∧ t.queues (0, j + 1, .zero) = []) := by
  rw [rogue_eq]; exact setup_halts c ids hids reply hreply order horder

theorem getPeer_of_mem {peers : List Peer} (hnd : (peers.map Peer.id).Nodup) {p : Peer} (hp : p ∈ peers) :
    getPeer peers p.id = some p := by
  induction peers with
  | nil => simp at hp
  | cons q peers ih =>
    rw [List.map_cons, List.nodup_cons] at hnd
    rcases List.mem_cons.1 hp with rfl | hp
    · rw [getPeer, List.find?_cons_of_pos (by simp)]
    · rw [getPeer, List.find?_cons_of_neg (by simp only [decide_eq_true_eq]; intro e; exact hnd.1 (List.mem_map.2 ⟨p, hp, e.symm⟩))]
      exact ih hnd.2 hp

theorem accepted_nodup (ids : Nat → Nat) (c : Nat) (hnd : ∀ j < c, ∀ j' < c, ids j = ids j' → j = j') :
    accepted ids c = (List.range c).map fun j => ⟨ids j, some j⟩ := by
  induction c with
  | zero => rfl
  | succ c ih =>
    rw [accepted_succ, ih fun j h j' h' => hnd j (by omega) j' (by omega), insertPeer, List.range_succ, List.map_append]
    congr 1
    rw [List.filter_eq_self]
    intro p hp
    obtain ⟨j, hj, rfl⟩ := List.mem_map.1 hp
    have := List.mem_range.1 hj
    simp only [ne_eq, decide_not, Bool.not_eq_true', decide_eq_false_iff_not]
    intro e
    have := hnd j (by omega) c (by omega) e
    omega

theorem firstBad_none (reply : Nat → ProtocolPacket) (L : List Peer) (h : ∀ p ∈ L, ∀ j, p.streams = some j → reply j = .synAck) :
    firstBad reply L = none := by
  rw [firstBad, List.find?_eq_none]
  intro p hp
  split
  · simp
  · rename_i j hj; simp [h p hp j hj]

/-- **C48.** With distinct ids the constructors of the king and of all peers return under every schedule; the king has a stream to
the peer of every id, each peer has one to the king. -/
theorem C48_setup (order : List Peer → List Peer) (horder : ∀ l, (order l).Perm l) (c : Nat) (ids : Nat → Nat)
    (hids : ∀ j < c, 0 < ids j ∧ ids j < 2 ^ 32) (hnd : ∀ j < c, ∀ j' < c, ids j = ids j' → j = j') :
    AlwaysYields (prodNetwork order c ids) fun i =>
      if i.val = 0 then (List.range c).map fun j => ⟨ids j, some j⟩ else [⟨0, some 0⟩] := by
  have e : prodNetwork order c ids = roguePeers order c ids fun _ => .synAck := by
    unfold prodNetwork roguePeers
    congr 1
    funext i
    by_cases h : i.val = 0
    · rw [if_pos h, if_pos h]
    · rw [if_neg h, if_neg h]
      have := (hids (i.val - 1) (by omega)).1
      rw [prodNew, if_neg (by simp), if_neg (by omega)]
  have h := rogue_halts c ids (fun j hj => (hids j hj).2) (fun _ => .synAck) (fun _ => recvPacket_enc _ (.inr rfl)) order horder
  rw [← e] at h
  refine ⟨h.1, fun k c' hs hstuck i => ?_⟩
  obtain ⟨h1, h2⟩ := h.2 k c' hs hstuck
  rw [firstBad_none _ _ (fun _ _ _ _ => rfl), accepted_nodup ids c hnd] at h1
  by_cases hi : i.val = 0
  · obtain rfl : i = 0 := Fin.ext hi
    exact h1
  · dsimp only
    rw [if_neg hi]
    obtain ⟨j, hj, rfl⟩ := conn_of i (fun e => hi (by rw [e]; rfl))
    exact (h2 j hj).1 ⟨hj, fun j' ha hb e => by have := hnd j' hb j hj e; omega⟩

/-- **C48.** If a peer whose connection was kept answers the Syn with anything but a SynAck, the king's constructor fails with a
protocol error that names the id announced by such a peer. -/
theorem C48_wrong_reply (order : List Peer → List Peer) (horder : ∀ l, (order l).Perm l) (c : Nat) (ids : Nat → Nat)
    (hids : ∀ j < c, ids j < 2 ^ 32) (hnd : ∀ j < c, ∀ j' < c, ids j = ids j' → j = j') (reply : Nat → ProtocolPacket)
    (hreply : ∀ j b, reply j = .packet b → b.length < 2 ^ 64) (hbad : ∃ j < c, reply j ≠ .synAck) :
    AlwaysHalts (roguePeers order c ids reply) fun t =>
      ∃ j < c, reply j ≠ .synAck ∧ t.procs 0 = .done (.error (.net (.protocol (ids j)))) := by
  have h := rogue_halts c ids hids reply (fun j => recvPacket_ok _ (hreply j)) order horder
  refine ⟨h.1, fun k c' hs hstuck => ?_⟩
  obtain ⟨h1, -⟩ := h.2 k c' hs hstuck
  obtain ⟨j, hj, hb⟩ := hbad
  cases hf : firstBad reply (order (accepted ids c)) with
  | none =>
    exfalso
    rw [firstBad, List.find?_eq_none] at hf
    have hm : (⟨ids j, some j⟩ : Peer) ∈ order (accepted ids c) := by
      rw [(horder _).mem_iff, mem_accepted]
      exact ⟨j, ⟨hj, fun j' ha hb e => by have := hnd j' hb j hj e; omega⟩, rfl⟩
    have := hf _ hm
    simp at this
    exact hb this
  | some p =>
    rw [hf] at h1
    have hm := List.mem_of_find?_eq_some hf
    have hp := List.find?_some hf
    rw [(horder _).mem_iff, mem_accepted] at hm
    obtain ⟨j', hj', rfl⟩ := hm
    exact ⟨j', hj'.1, by simpa using hp, h1⟩

/-- **C48.** A peer whose first packet from the king is not a Syn fails with a protocol error that names the king; one that cannot
be decoded is a generic error. -/
theorem C48_wrong_syn (order : List Peer → List Peer) (id : Nat) (hid : id ≠ 0) :
    ∃ k, prodNew order id 1 = .send 0 .zero (beBytes 4 id) (.send 0 .zero [] (.send 0 .zero [] (.send 0 .zero [] (.recv 0 .zero k)))) ∧
      (∀ p : ProtocolPacket, (∀ b, p = .packet b → b.length < 2 ^ 64) → p ≠ .syn →
        k p.enc = .done (.error (.net (.protocol 0)))) ∧
      k ProtocolPacket.syn.enc = .send 0 .zero ProtocolPacket.synAck.enc (.done (.ok [⟨0, some 0⟩])) ∧
      (∀ b, ProtocolPacket.dec b = none → k b = .done (.error (.net .generic))) := by
  refine ⟨_, by rw [prodNew, if_neg (by simp), if_neg hid]; rfl, fun p hp hne => ?_, ?_, fun b hb => ?_⟩
  · simp only [recvPacket_ok p hp]; rw [if_pos hne]
  · simp only [recvPacket_enc _ (.inl rfl)]; rfl
  · simp only [recvPacket, hb]

/-- **C48.** A peer must be given exactly one connection. -/
theorem C48_bad_input (order : List Peer → List Peer) (id conns : Nat) (hid : id ≠ 0) (hc : conns ≠ 1) :
    prodNew order id conns = .done (.error (.net .badInput)) := by
  rw [prodNew, if_pos ⟨hid, hc⟩]

example : ∀ j < 3, 0 < j + 1 ∧ j + 1 < 2 ^ 32 := by decide

/-- **C49.** Whatever ids the peers announce - repeated, zero or too large - set-up succeeds at the king, and the king has a peer
with id `p` exactly if somebody announced `p`, over the last connection that did. -/
theorem C49_any_ids (order : List Peer → List Peer) (horder : ∀ l, (order l).Perm l) (c : Nat) (ids : Nat → Nat)
    (hids : ∀ j < c, ids j < 2 ^ 32) :
    AlwaysHalts (roguePeers order c ids fun _ => .synAck) fun t =>
      ∃ peers, t.procs 0 = .done (.ok peers) ∧ isInit peers = true ∧ (peers.map Peer.id).Nodup ∧
        ∀ p, p ∈ peers ↔ ∃ j < c, p = ⟨ids j, some j⟩ ∧ ∀ j', j < j' → j' < c → ids j' ≠ ids j := by
  have h := rogue_halts c ids hids (fun _ => .synAck) (fun _ => recvPacket_enc _ (.inr rfl)) order horder
  refine ⟨h.1, fun k c' hs hstuck => ?_⟩
  obtain ⟨h1, -⟩ := h.2 k c' hs hstuck
  rw [firstBad_none _ _ (fun _ _ _ _ => rfl)] at h1
  refine ⟨accepted ids c, h1, ?_, ?_, fun p => ?_⟩
  · rw [isInit, List.all_eq_true]
    intro p hp
    obtain ⟨j, -, rfl⟩ := (mem_accepted ids c p).1 hp
    rfl
  · clear h1 h hs hstuck
    have : ∀ c, ((accepted ids c).map Peer.id).Nodup := by
      intro c
      induction c with
      | zero => exact List.nodup_nil
      | succ c ih =>
        rw [accepted_succ, insertPeer, List.map_append, List.nodup_append]
        refine ⟨ih.sublist (List.filter_sublist.map _), List.nodup_singleton _, ?_⟩
        rintro a ha b hb rfl
        obtain ⟨p, hp, rfl⟩ := List.mem_map.1 ha
        have := (List.mem_filter.1 hp).2
        simp at this hb
        exact this hb
    exact this c
  · rw [mem_accepted]
    constructor
    · rintro ⟨j, ⟨h1, h2⟩, e⟩; exact ⟨j, h1, e, h2⟩
    · rintro ⟨j, h1, e, h2⟩; exact ⟨j, ⟨h1, h2⟩, e⟩

/-- **C49.** With a connection for every party of `n`, the king knows every party `1 .. n-1` exactly if the announced ids are these
in some order: one repeated or foreign id, and a party is missing. -/
theorem C49_complete_iff (order : List Peer → List Peer) (horder : ∀ l, (order l).Perm l) (n : Nat) (hn : 0 < n) (ids : Nat → Nat)
    (hids : ∀ j < n - 1, ids j < 2 ^ 32) :
    AlwaysHalts (roguePeers order (n - 1) ids fun _ => .synAck) fun t =>
      ∃ peers, t.procs 0 = .done (.ok peers) ∧
        ((∀ p, 1 ≤ p → p < n → (getPeer peers p).isSome) ↔
          ((List.range (n - 1)).map ids).Perm ((List.range (n - 1)).map (· + 1))) := by
  have h := C49_any_ids order horder (n - 1) ids hids
  refine ⟨h.1, fun k c' hs hstuck => ?_⟩
  obtain ⟨peers, h1, -, -, h2⟩ := h.2 k c' hs hstuck
  refine ⟨peers, h1, ?_⟩
  have hget : ∀ p, (getPeer peers p).isSome ↔ p ∈ (List.range (n - 1)).map ids := by
    intro p
    rw [getPeer, List.find?_isSome]
    constructor
    · rintro ⟨q, hq, e⟩
      obtain ⟨j, hj, rfl, -⟩ := (h2 q).1 hq
      simp only [decide_eq_true_eq] at e
      exact List.mem_map.2 ⟨j, List.mem_range.2 hj, e⟩
    · intro hp
      -- the last connection with this id
      obtain ⟨j, hj, rfl⟩ := List.mem_map.1 hp
      have hj := List.mem_range.1 hj
      have hlast : ∀ d j, j < n - 1 → n - 1 - j ≤ d → ∃ j', j' < n - 1 ∧ ids j' = ids j ∧ ∀ j'', j' < j'' → j'' < n - 1 → ids j'' ≠ ids j' := by
        intro d
        induction d with
        | zero => intro j hj h; omega
        | succ d ih =>
          intro j hj h
          by_cases hx : ∃ j'', j < j'' ∧ j'' < n - 1 ∧ ids j'' = ids j
          · obtain ⟨j'', a, b, e⟩ := hx
            obtain ⟨j', x, y, z⟩ := ih j'' b (by omega)
            exact ⟨j', x, y.trans e, z⟩
          · push Not at hx
            exact ⟨j, hj, rfl, hx⟩
      obtain ⟨j', x, y, z⟩ := hlast _ j hj le_rfl
      exact ⟨_, (h2 _).2 ⟨j', x, rfl, z⟩, by simpa using y⟩
  simp only [hget]
  constructor
  · intro hall
    have hsub : (List.range (n - 1)).map (· + 1) ⊆ (List.range (n - 1)).map ids := by
      intro p hp
      obtain ⟨j, hj, rfl⟩ := List.mem_map.1 hp
      have := List.mem_range.1 hj
      exact hall _ (by omega) (by omega)
    have hnd : ((List.range (n - 1)).map (· + 1)).Nodup := List.nodup_range.map (fun a b h => by simpa using h)
    exact ((List.subperm_of_subset hnd hsub).perm_of_length_le (by simp)).symm
  · intro hperm p h1 h2
    rw [hperm.mem_iff, List.mem_map]
    exact ⟨p - 1, List.mem_range.2 (by omega), by omega⟩

/-- **C49.** Ids are not bound to connections: for every assignment `σ` of the ids `1 .. n-1` to the connections there is an
execution (indeed every execution) after which the king sends the messages for party `σ j` over connection `j`. -/
theorem C49_ids_as_announced (order : List Peer → List Peer) (horder : ∀ l, (order l).Perm l) (n : Nat) (hn : n ≤ 2 ^ 32)
    (σ : Nat → Nat) (hσ : ((List.range (n - 1)).map σ).Perm ((List.range (n - 1)).map (· + 1))) :
    AlwaysHalts (roguePeers order (n - 1) σ fun _ => .synAck) fun t =>
      ∃ peers, t.procs 0 = .done (.ok peers) ∧ ∀ j < n - 1, getPeer peers (σ j) = some ⟨σ j, some j⟩ := by
  have hmem : ∀ j < n - 1, σ j < n := fun j hj => by
    have : σ j ∈ (List.range (n - 1)).map (· + 1) := hσ.subset (List.mem_map.2 ⟨j, List.mem_range.2 hj, rfl⟩)
    obtain ⟨x, hx, e⟩ := List.mem_map.1 this
    have := List.mem_range.1 hx
    omega
  have hinj : ∀ j < n - 1, ∀ j' < n - 1, σ j = σ j' → j = j' := by
    have hnd : ((List.range (n - 1)).map σ).Nodup := hσ.nodup_iff.2 (List.nodup_range.map (fun a b h => by simpa using h))
    intro j hj j' hj' e
    exact List.inj_on_of_nodup_map hnd (List.mem_range.2 hj) (List.mem_range.2 hj') e
  have h := C49_any_ids order horder (n - 1) σ fun j hj => lt_of_lt_of_le (hmem j hj) hn
  refine ⟨h.1, fun k c' hs hstuck => ?_⟩
  obtain ⟨peers, h1, -, h2, h3⟩ := h.2 k c' hs hstuck
  refine ⟨peers, h1, fun j hj => ?_⟩
  exact getPeer_of_mem h2 ((h3 ⟨σ j, some j⟩).2 ⟨j, hj, rfl, fun j' ha hb e => by have := hinj j' hb j hj e; omega⟩)

/-- What can happen in a network in which nothing can be sent to or received from party `p`. -/
def Without (p : Nat) (a : Act) : Prop := (∀ sid b, a ≠ .send p sid b) ∧ ∀ sid b, a ≠ .recv p sid b

/-- **C49.** When party `p` is missing at the king, no receive round is ever complete, whatever the schedule, the time-outs, what
is in transit and what the other parties do. -/
theorem C49_round_partial {n : Nat} (p : Nat) (hp : 1 ≤ p) (hpn : p < n) (hn : 0 < n) (procs : Fin n → Proc (Option KingReceived))
    (bytes : Bytes) (sid : Sid) (hking : procs ⟨0, hn⟩ = clientSendOrKingReceive n 0 bytes sid) (Q : Queues) (k : Nat)
    (c' : Net n (Option KingReceived)) (h : GSteps (Without p) k ⟨procs, Q⟩ c') (r : Option KingReceived)
    (hr : c'.procs ⟨0, hn⟩ = .done (.ok r)) : ∃ entries, r = some (.partly entries) ∧ p ∉ entries.map Prod.fst := by
  -- the king gathers without `p`, or has finished without it
  let K : List (Nat × Bytes) → Proc (Option KingReceived) := fun entries => .done ((kingFinish n entries).map some)
  let Inv : Net n (Option KingReceived) → Prop := fun c =>
    (∃ got, got p = none ∧ c.procs ⟨0, hn⟩ = .gather sid n bytes got K) ∨
    ∃ entries, c.procs ⟨0, hn⟩ = .done (.ok (some (.partly entries))) ∧ p ∉ entries.map Prod.fst
  have hfin : ∀ got L, got p = none → Enumerates n bytes got L →
      K L = .done (.ok (some (.partly L))) ∧ p ∉ L.map Prod.fst := by
    intro got L hg hL
    have hnot : p ∉ L.map Prod.fst := by
      intro hmem
      obtain ⟨⟨i, b⟩, hib, rfl⟩ := List.mem_map.1 hmem
      rcases (hL.2 i b).1 hib with ⟨h0, -⟩ | ⟨-, -, h2⟩
      · simp only at hp; omega
      · simp only at hg; rw [hg] at h2; cases h2
    refine ⟨?_, hnot⟩
    have hlen : L.length ≠ n := by
      intro e
      have hsub : L.map Prod.fst ⊆ (List.range n).erase p := by
        intro i hi
        have hne : i ≠ p := fun h => hnot (h ▸ hi)
        obtain ⟨⟨i', b⟩, hib, rfl⟩ := List.mem_map.1 hi
        rw [List.mem_erase_of_ne hne, List.mem_range]
        rcases (hL.2 i' b).1 hib with ⟨h0, -⟩ | ⟨-, h1, -⟩
        · simp only; omega
        · exact h1
      have := (List.subperm_of_subset hL.1 hsub).length_le
      rw [List.length_map, List.length_erase_of_mem (List.mem_range.2 hpn), List.length_range] at this
      omega
    show Proc.done ((kingFinish n L).map some) = _
    rw [kingFinish, if_neg hlen]; rfl
  have hstep : ∀ c d, GStep (Without p) c d → Inv c → Inv d := by
    intro c d hs hI
    cases hs with
    | mk ps Q Q' i a p' ha hst hq =>
      by_cases hi : (⟨0, hn⟩ : Fin n) = i
      · subst hi
        rcases hI with ⟨got, hg, e⟩ | ⟨entries, e, -⟩
        · simp only at e
          rw [e] at hst
          cases hst with
          | gatherRecv _ _ _ _ _ i b h1 h2 h3 =>
            left
            refine ⟨Function.update got i (some b), ?_, by simp only [Function.update_self]⟩
            rw [Function.update_of_ne (by rintro rfl; exact ha.2 sid b rfl)]
            exact hg
          | gatherDone _ _ _ _ _ L hfull hL => exact absurd hg (hfull p hp hpn)
          | gatherExpire _ _ _ _ _ L hL =>
            right
            exact ⟨L, by simp only [Function.update_self]; exact (hfin got L hg hL).1, (hfin got L hg hL).2⟩
        · simp only at e
          rw [e] at hst
          cases hst
      · rcases hI with ⟨got, hg, e⟩ | ⟨entries, e, h2⟩
        · exact .inl ⟨got, hg, by simp only at e ⊢; rw [Function.update_of_ne hi]; exact e⟩
        · exact .inr ⟨entries, by simp only at e ⊢; rw [Function.update_of_ne hi]; exact e, h2⟩
  have hinv : Inv c' := by
    have : Inv ⟨procs, Q⟩ := .inl ⟨fun _ => none, rfl, by simp only; rw [hking]; rfl⟩
    clear hking hr
    generalize (⟨procs, Q⟩ : Net n (Option KingReceived)) = c at h this
    induction h with
    | refl => exact this
    | step h1 _ ih => exact ih (hstep _ _ h1 this)
  rcases hinv with ⟨got, -, e⟩ | ⟨entries, e, h2⟩
  · rw [hr] at e; cases e
  · rw [hr] at e; cases e; exact ⟨entries, rfl, h2⟩

/-- **C49.** When party `p` is missing at the king, the king's sending round never succeeds. -/
theorem C49_send_fails {n : Nat} (p : Nat) (hp : 1 ≤ p) (hpn : p < n) (hn : 0 < n) (procs : Fin n → Proc Bytes)
    (out : List Bytes) (sid : Sid) (hking : procs ⟨0, hn⟩ = clientReceiveOrKingSend n 0 (some out) sid) (Q : Queues) (k : Nat)
    (c' : Net n Bytes) (h : GSteps (Without p) k ⟨procs, Q⟩ c') (b : Bytes) : c'.procs ⟨0, hn⟩ ≠ .done (.ok b) := by
  let Inv : Net n Bytes → Prop := fun c =>
    (∃ e, c.procs ⟨0, hn⟩ = .done (.error e)) ∨
    ∃ m ids, p ∈ ids ∧ c.procs ⟨0, hn⟩ = (kingSendLoop out m sid ids).bind fun _ => .done (rd out 0)
  -- a loop that has still to send to `p`
  have hloop : ∀ m ids a p', p ∈ ids → Without p a → LStep ((kingSendLoop out m sid ids).bind fun _ => .done (rd out 0)) a p' →
      (∃ e, p' = .done (.error e)) ∨ ∃ ids', p ∈ ids' ∧ p' = (kingSendLoop out m sid ids').bind fun _ => .done (rd out 0) := by
    intro m ids a p' hmem ha hst
    obtain _ | ⟨id, ids⟩ := ids
    · simp at hmem
    rw [kingSendLoop] at hst
    cases hrd : rd out id with
    | error e =>
      rw [hrd] at hst
      have e' : (do let b ← (liftM (Except.error e : Res Bytes) : Proc Bytes); if b.length ≠ m then
          Proc.done (.error (.net (.protocol id))) else Proc.send id sid b (kingSendLoop out m sid ids)) = Proc.done (.error e) := rfl
      rw [e'] at hst
      cases hst
    | ok x =>
      rw [hrd] at hst
      have e' : (do let b ← (liftM (Except.ok x : Res Bytes) : Proc Bytes); if b.length ≠ m then
          Proc.done (.error (.net (.protocol id))) else Proc.send id sid b (kingSendLoop out m sid ids)) =
          if x.length ≠ m then Proc.done (.error (.net (.protocol id))) else Proc.send id sid x (kingSendLoop out m sid ids) := rfl
      rw [e'] at hst
      by_cases hx : x.length ≠ m
      · rw [if_pos hx] at hst
        cases hst
      · rw [if_neg hx] at hst
        cases hst with
        | send =>
          refine .inr ⟨ids, ?_, rfl⟩
          rcases List.mem_cons.1 hmem with rfl | hmem
          · exact absurd rfl (ha.1 sid x)
          · exact hmem
        | sendFail _ _ _ _ e => exact .inl ⟨_, rfl⟩
  have hstep : ∀ c d, GStep (Without p) c d → Inv c → Inv d := by
    intro c d hs hI
    cases hs with
    | mk ps Q Q' i a p' ha hst hq =>
      by_cases hi : (⟨0, hn⟩ : Fin n) = i
      · subst hi
        rcases hI with ⟨e, he⟩ | ⟨m, ids, hmem, he⟩
        · simp only at he
          rw [he] at hst
          cases hst
        · simp only at he
          rw [he] at hst
          rcases hloop m ids a p' hmem ha hst with ⟨e, e'⟩ | ⟨ids', h1, h2⟩
          · exact .inl ⟨e, by simp only [Function.update_self]; exact e'⟩
          · exact .inr ⟨m, ids', h1, by simp only [Function.update_self]; exact h2⟩
      · rcases hI with ⟨e, he⟩ | ⟨m, ids, hmem, he⟩
        · exact .inl ⟨e, by simp only at he ⊢; rw [Function.update_of_ne hi]; exact he⟩
        · exact .inr ⟨m, ids, hmem, by simp only at he ⊢; rw [Function.update_of_ne hi]; exact he⟩
  have hinv : Inv c' := by
    have : Inv ⟨procs, Q⟩ := by
      simp only [Inv]
      rw [hking]
      cases hrd : rd out 0 with
      | error e => exact .inl ⟨e, by simp only [clientReceiveOrKingSend, hrd]; rfl⟩
      | ok x =>
        refine .inr ⟨x.length, (List.range n).filter (· ≠ 0), ?_, ?_⟩
        · rw [List.mem_filter]; exact ⟨List.mem_range.2 hpn, by simp; omega⟩
        · simp only [clientReceiveOrKingSend, hrd]; rfl
    clear hking
    generalize (⟨procs, Q⟩ : Net n Bytes) = c at h this
    induction h with
    | refl => exact this
    | step h1 _ ih => exact ih (hstep _ _ h1 this)
  intro hb
  rcases hinv with ⟨e, he⟩ | ⟨m, ids, hmem, he⟩
  · rw [hb] at he; cases he
  · rw [hb] at he
    obtain _ | ⟨id, ids⟩ := ids
    · simp at hmem
    rw [kingSendLoop] at he
    cases hrd : rd out id with
    | error e => rw [hrd] at he; cases he
    | ok x =>
      rw [hrd] at he
      have e' : (do let b ← (liftM (Except.ok x : Res Bytes) : Proc Bytes); if b.length ≠ m then
          Proc.done (.error (.net (.protocol id))) else Proc.send id sid b (kingSendLoop out m sid ids)) =
          if x.length ≠ m then Proc.done (.error (.net (.protocol id))) else Proc.send id sid x (kingSendLoop out m sid ids) := rfl
      rw [e'] at he
      by_cases hx : x.length ≠ m
      · rw [if_pos hx] at he; cases he
      · rw [if_neg hx] at he; cases he

/-- A king with three connections two of which announce the id `1`: the peers `1` and `2` are there, party `3` is missing. -/
example : ¬ ((List.range 3).map fun j => [1, 2, 1].getD j 0).Perm ((List.range 3).map (· + 1)) := by decide

example : ((List.range 3).map fun j => [3, 1, 2].getD j 0).Perm ((List.range 3).map (· + 1)) := by decide

/-- Examples for C48: three peers with the ids 3, 1, 2, the king's hash map in reverse order. -/
example : AlwaysYields (prodNetwork List.reverse 3 fun j => [3, 1, 2].getD j 0) fun i =>
    if i.val = 0 then (List.range 3).map fun j => ⟨[3, 1, 2].getD j 0, some j⟩ else [⟨0, some 0⟩] :=
  C48_setup List.reverse (fun l => l.reverse_perm) 3 _ (by decide) (by decide)

example : AlwaysHalts (roguePeers List.reverse 3 (fun j => [3, 1, 2].getD j 0) fun j => if j = 1 then .packet [7] else .synAck) fun t =>
    ∃ j < 3, (if j = 1 then ProtocolPacket.packet [7] else .synAck) ≠ .synAck ∧
      t.procs 0 = .done (.error (.net (.protocol ([3, 1, 2].getD j 0)))) :=
  C48_wrong_reply List.reverse (fun l => l.reverse_perm) 3 _ (by decide) (by decide) _
    (by intro j b h; split at h
        · cases h; decide
        · cases h) ⟨1, by decide, by decide⟩

example : ∃ k, prodNew id 2 1 = .send 0 .zero [0, 0, 0, 2] (.send 0 .zero [] (.send 0 .zero [] (.send 0 .zero [] (.recv 0 .zero k)))) ∧
    k (ProtocolPacket.packet [7]).enc = .done (.error (.net (.protocol 0))) :=
  let ⟨k, h1, h2, _⟩ := C48_wrong_syn id 2 (by decide)
  ⟨k, h1, h2 _ (by intro b h; cases h; decide) (by decide)⟩

example : prodNew id 2 3 = .done (.error (.net .badInput)) := C48_bad_input id 2 3 (by decide) (by decide)

/-- Examples for C49: the ids 1, 2, 1 leave the king with two peers of three; the ids 3, 1, 2 are taken as announced. -/
example : AlwaysHalts (roguePeers id 3 (fun j => [1, 2, 1].getD j 0) fun _ => .synAck) fun t =>
    ∃ peers, t.procs 0 = .done (.ok peers) ∧ isInit peers = true ∧ (⟨1, some 2⟩ : Peer) ∈ peers ∧ (⟨1, some 0⟩ : Peer) ∉ peers := by
  obtain ⟨h1, h2⟩ := C49_any_ids id (fun l => .refl l) 3 (fun j => [1, 2, 1].getD j 0) (by decide)
  refine ⟨h1, fun k c hc hst => ?_⟩
  obtain ⟨peers, e, hi, -, hp⟩ := h2 k c hc hst
  refine ⟨peers, e, hi, (hp _).2 ⟨2, by decide, rfl, by omega⟩, fun h => ?_⟩
  obtain ⟨j, hj, e, h'⟩ := (hp _).1 h
  injection e with _ e
  injection e with e
  subst e
  exact h' 2 (by decide) (by decide) rfl

example : AlwaysHalts (roguePeers id (4 - 1) (fun j => [1, 2, 1].getD j 0) fun _ => .synAck) fun t =>
    ∃ peers, t.procs 0 = .done (.ok peers) ∧ ¬ ∀ p, 1 ≤ p → p < 4 → (getPeer peers p).isSome := by
  obtain ⟨h1, h2⟩ := C49_complete_iff id (fun l => .refl l) 4 (by decide) (fun j => [1, 2, 1].getD j 0) (by decide)
  refine ⟨h1, fun k c hc hst => ?_⟩
  obtain ⟨peers, e, hp⟩ := h2 k c hc hst
  exact ⟨peers, e, fun h => absurd (hp.1 h) (by decide)⟩

example : AlwaysHalts (roguePeers id (4 - 1) (fun j => [3, 1, 2].getD j 0) fun _ => .synAck) fun t =>
    ∃ peers, t.procs 0 = .done (.ok peers) ∧ ∀ j < 4 - 1, getPeer peers ([3, 1, 2].getD j 0) = some ⟨[3, 1, 2].getD j 0, some j⟩ :=
  C49_ids_as_announced id (fun l => .refl l) 4 (by decide) (fun j => [3, 1, 2].getD j 0) (by decide)

/-- Examples for C49: a round of four parties and the following answer when nobody is connected as party 2. -/
example (k : Nat) (c' : Net 4 (Option KingReceived))
    (h : GSteps (Without 2) k ⟨fun i => clientSendOrKingReceive 4 i [UInt8.ofNat i] .zero, fun _ => []⟩ c') (r : Option KingReceived)
    (hr : c'.procs 0 = .done (.ok r)) : ∃ entries, r = some (.partly entries) ∧ 2 ∉ entries.map Prod.fst :=
  C49_round_partial 2 (by decide) (by decide) (by decide) _ [0] .zero rfl _ k c' h r hr

example (k : Nat) (c' : Net 4 Bytes)
    (h : GSteps (Without 2) k ⟨fun i => clientReceiveOrKingSend 4 i (if i.val = 0 then some [[1], [2], [3], [4]] else none) .zero, fun _ => []⟩ c')
    (b : Bytes) : c'.procs 0 ≠ .done (.ok b) :=
  C49_send_fails 2 (by decide) (by decide) (by decide) _ [[1], [2], [3], [4]] .zero rfl _ k c' h b

end ZkSaas.Properties
