import Verif.Lemmas.LocalNet
import Verif.Lemmas.SimRound
import Verif.Properties.ProdNet

/-!
# C50 - C52: the local test network
-/

namespace ZkSaas.Properties

open ZkSaas Spec

/-- What set-up should leave behind: nobody is dialling or accepting, node `i` has dialled the `n - 1 - i` nodes after it and accepted
the `i` before it, for every two nodes both ends hold the streams of one and the same connection, which no other pair uses, and no
bytes of the set-up are left on any connection. -/
structure FullMesh (n : Nat) (s : Mesh) : Prop where
  finished : ∀ i < n, s.made i = n - 1 - i ∧ s.stage i = .idle ∧ s.taken i = i ∧ s.cur i = none ∧ s.backlog i = []
  joined : ∀ i < n, ∀ k < n, i ≠ k → ∃ c, s.peers i k = some c ∧ s.peers k i = some c
  unshared : ∀ i < n, ∀ k < n, ∀ i' < n, ∀ k' < n, ∀ c, s.peers i k = some c → s.peers i' k' = some c →
    (i = i' ∧ k = k') ∨ (i = k' ∧ k = i')
  own : ∀ i < n, s.peers i i = none
  drained : ∀ i k, i < k → k < n → s.wire i k = []

theorem fullMesh_of_complete {n : Nat} {s : Mesh} (h : s.Complete n) : FullMesh n s := by
  refine ⟨fun i hi => ⟨(h.made i hi).1, (h.made i hi).2, (h.taken i hi).1, (h.taken i hi).2, h.backlog i hi⟩, fun i hi k hk hne => ?_,
    fun i hi k hk i' hi' k' hk' c h1 h2 => ?_, fun i hi => ?_, h.wire⟩
  · exact ⟨(min i k, max i k), by rw [h.peers i hi k hk, if_neg hne],
      by rw [h.peers k hk i hi, if_neg (Ne.symm hne), min_comm, max_comm]⟩
  · rw [h.peers i hi k hk] at h1
    rw [h.peers i' hi' k' hk'] at h2
    split_ifs at h1 h2
    have := h1.trans h2.symm
    simp only [Option.some.injEq, Prod.mk.injEq] at this
    obtain ⟨e1, e2⟩ := this
    omega
  · rw [h.peers i hi i hi, if_pos rfl]

/-- **C50.** However the tasks of the `n` nodes are interleaved and whatever pending connection a listener hands out next: every run
of the dial/accept phase is finite, with at most `3 n (n - 1)` steps; when no task can go on (in particular no task waits for ever
and no `unwrap` has failed) the nodes form a full mesh, after exactly `3 n (n - 1)` steps; and such a state is reached from every
state on the way. -/
theorem C50_mesh (n : Nat) :
    (∀ k s, Mesh.Steps n k Mesh.init s → k ≤ 3 * (n * (n - 1))) ∧
    (∀ k s, Mesh.Steps n k Mesh.init s → (∀ s', ¬ Mesh.Step n s s') → FullMesh n s ∧ k = 3 * (n * (n - 1))) ∧
    (∀ k s, Mesh.Steps n k Mesh.init s → ∃ k' s', Mesh.Steps n k' s s' ∧ FullMesh n s') := by
  refine ⟨fun k s h => h.bound, fun k s h hst => ?_, fun k s h => ?_⟩
  · have hc := h.inv.complete_of_stuck hst
    exact ⟨fullMesh_of_complete hc, hc.steps h⟩
  · obtain ⟨k', s', h1, h2⟩ := h.extend
    exact ⟨k', s', h1, fullMesh_of_complete h2⟩

/-- **C50.** The id a server task reads is that of the node that dialled, and streams are stored at most once per pair: an entry of
the peer table never changes once it is there. -/
theorem C50_ids (n : Nat) (k : Nat) (s : Mesh) (h : Mesh.Steps n k Mesh.init s) :
    (∀ j < n, ∀ i x, s.cur j = some (i, some x) → x = i) ∧
    (∀ s', Mesh.Step n s s' → ∀ i < n, ∀ j < n, ∀ c, s.peers i j = some c → s'.peers i j = some c) := by
  refine ⟨fun j hj i x hc => ?_, fun s' hs i hi j hj c hc => ?_⟩
  · have := (h.inv.cur j hj i _ hc).2.2.2
    simpa using this
  · have hinv := h.inv
    have hinv' := hinv.step hs
    cases hs with
    | dial | write | accept | read => exact hc
    | store a ha hst ht =>
      by_cases e : (i, j) = (a, s.target a)
      · cases e
        have := hinv.high i ha (s.target i) (by unfold Mesh.target; omega)
        rw [hc, highOf, if_neg (by omega)] at this
        cases this
      · simp only [update2_of_ne _ _ e]; exact hc
    | keep b a hb x hcur rest hw hx =>
      by_cases e : (i, j) = (b, x)
      · cases e
        obtain ⟨c1, c2, c3, c4⟩ := hinv.cur _ hi a _ hcur
        obtain rfl : j = a := by simpa using c4
        rw [c3] at hc; cases hc
      · simp only [update2_of_ne _ _ e]; exact hc

/-- A network of three nodes takes 18 steps, and there is a run. -/
example : ∃ k s, Mesh.Steps 3 k Mesh.init s ∧ FullMesh 3 s ∧ k = 18 := by
  obtain ⟨k, s, h1, h2⟩ := Mesh.Steps.extend (n := 3) (.refl Mesh.init)
  exact ⟨k, s, h1, fullMesh_of_complete h2, h2.steps h1⟩

theorem genesis_eq (n me : Nat) :
    genesis n me = (clientSendOrKingReceiveSer n me (Fin.ofNat (2 ^ 32) me) .zero 0).bind fun r =>
      (Proc.done (kingDo (fun rs => .ok rs.shares) r)).bind fun a => (clientReceiveOrKingSendSer n me a .zero).bind fun _ =>
        .done (.ok ()) := by
  unfold genesis
  congr 1
  funext r
  cases r with
  | none => rfl
  | some rs => rfl

/-- **C50.** The round with the king at the end of set-up ends well at all nodes under every schedule. -/
theorem C50_genesis (n : Nat) (hn : 0 < n) : AlwaysYields (Net.init fun i : Fin n => genesis n i) fun _ => () := by
  have h : Runs All (only .zero) (fun i : Fin n => genesis n i) fun _ => () := by
    refine (runs_round hn .zero 0 (fun i => Fin.ofNat (2 ^ 32) i) (fun i _ => Wire.ok_fixed _) (fun _ rs => .ok rs.shares)
      (fun i => Fin.ofNat (2 ^ 32) i) 4 rfl (fun i _ => ⟨Wire.ok_fixed _, FixedWire.enc_length _⟩) (fun _ _ => .done (.ok ())) (.done _)).congr
      (fun i => genesis_eq n i) fun _ => rfl
  refine h.alwaysYields fun i => ?_
  rw [genesis_eq]
  exact round_wf hn _ _ _ _ _ _ fun _ => .done _ _

/-- **C50.** The check after that round accepts exactly the tables in which all other nodes have streams, so it accepts at every
node of a full mesh. -/
theorem C50_check {n k : Nat} {s : Mesh} (h : Mesh.Steps n k Mesh.init s) (hst : ∀ s', ¬ Mesh.Step n s s') {i : Nat} (hi : i < n) :
    checkPeers i (s.peerMap n i) = .ok () ∧ ∀ t : Mesh, checkPeers i (t.peerMap n i) = .ok () ↔ ∀ k < n, k ≠ i → t.peers i k ≠ none := by
  have key : ∀ t : Mesh, checkPeers i (t.peerMap n i) = .ok () ↔ ∀ k < n, k ≠ i → t.peers i k ≠ none := by
    intro t
    unfold checkPeers Mesh.peerMap
    constructor
    · intro h0 k hk hne
      split_ifs at h0 with hall
      rw [List.all_eq_true] at hall
      have := hall _ (List.mem_map.2 ⟨k, List.mem_range.2 hk, rfl⟩)
      simp [hne] at this
      intro e; rw [e] at this; simp at this
    · intro h0
      rw [if_pos]
      rw [List.all_eq_true]
      intro p hp
      obtain ⟨k, hk, rfl⟩ := List.mem_map.1 hp
      by_cases hne : k = i
      · simp [hne]
      · have := h0 k (List.mem_range.1 hk) hne
        simp [hne, Option.isSome_iff_ne_none, this]
  refine ⟨(key s).2 fun k hk hne => ?_, key⟩
  obtain ⟨c, hc, -⟩ := (fullMesh_of_complete (h.inv.complete_of_stuck hst)).joined i hi k hk (Ne.symm hne)
  rw [hc]; simp

/-- The hypotheses hold at the end of a run of four nodes. -/
example : ∃ k s, Mesh.Steps 4 k Mesh.init s ∧ (∀ s', ¬ Mesh.Step 4 s s') ∧ checkPeers 2 (s.peerMap 4 2) = .ok () := by
  obtain ⟨k, s, h1, h2⟩ := Mesh.Steps.extend (n := 4) (.refl Mesh.init)
  have hst : ∀ s', ¬ Mesh.Step 4 s s' := fun s' hs => by
    have h3 := (h1.step hs).bound
    have h4 := h2.steps h1
    omega
  exact ⟨k, s, h1, hst, (C50_check h1 hst (by omega)).1⟩

/-- **C51** (of the code as it is: false). `is_init` of a node of the local test network is false in every state, also after set-up. -/
theorem C51_local_never {n k : Nat} {s : Mesh} (h : Mesh.Steps n k Mesh.init s) {i : Nat} (hi : i < n) :
    isInit (s.peerMap n i) = false := by
  have h1 := h.inv.high i hi i le_rfl
  rw [highOf, if_neg (by omega)] at h1
  unfold isInit Mesh.peerMap
  rw [List.all_eq_false]
  exact ⟨_, List.mem_map.2 ⟨i, List.mem_range.2 hi, rfl⟩, by simp [h1]⟩

/-- **C51.** Without the node's own entry it would be true exactly after set-up. -/
theorem C51_local_others {n k : Nat} {s : Mesh} (h : Mesh.Steps n k Mesh.init s) :
    (∀ i < n, isInit ((s.peerMap n i).filter fun p => p.id ≠ i) = true) ↔ FullMesh n s := by
  have hiff : ∀ i, isInit ((s.peerMap n i).filter fun p => p.id ≠ i) = true ↔ ∀ k < n, k ≠ i → s.peers i k ≠ none := by
    intro i
    unfold isInit Mesh.peerMap
    rw [List.all_eq_true]
    constructor
    · intro h0 k hk hne e
      have := h0 ⟨k, (s.peers i k).map fun _ => k⟩ (List.mem_filter.2 ⟨List.mem_map.2 ⟨k, List.mem_range.2 hk, rfl⟩, by simpa using hne⟩)
      rw [e] at this; simp at this
    · intro h0 p hp
      obtain ⟨hp1, hp2⟩ := List.mem_filter.1 hp
      obtain ⟨k, hk, rfl⟩ := List.mem_map.1 hp1
      have := h0 k (List.mem_range.1 hk) (by simpa using hp2)
      simp [Option.isSome_iff_ne_none, this]
  constructor
  · intro h0
    refine fullMesh_of_complete (h.inv.complete_of_stuck fun s' hst => ?_)
    have hinv := h.inv
    have hall : ∀ i < n, ∀ k < n, k ≠ i → s.peers i k ≠ none := fun i hi => (hiff i).1 (h0 i hi)
    have hT : ∀ i < n, n ≤ s.target i := by
      intro i hi
      by_contra hlt
      have h2 := hinv.high i hi (s.target i) (by unfold Mesh.target; omega)
      rw [highOf, if_neg (by omega)] at h2
      exact hall i hi (s.target i) (by omega) (by unfold Mesh.target; omega) h2
    have hcur : ∀ j < n, s.cur j = none := by
      intro j hj
      rcases hc : s.cur j with _ | ⟨i, o⟩
      · rfl
      · obtain ⟨c1, -, c3, -⟩ := hinv.cur j hj i o hc
        exact absurd c3 (hall j hj i (by omega) (by omega))
    cases hst with
    | dial i hi hm _ => have := hT i hi; unfold Mesh.target at this; omega
    | write i hi hs => have := hinv.stage_lt i hi (by rw [hs]; simp); have := hT i hi; unfold Mesh.target at this; omega
    | store i hi hs ht => have := hT i hi; omega
    | accept j i hj ht hc pre post hb =>
      obtain ⟨b1, -, -, b4⟩ := (hinv.back j hj i).1 (by rw [hb]; simp)
      exact absurd b4 (hall j hj i (by omega) (by omega))
    | read j i hj hc => rw [hcur j hj] at hc; cases hc
    | keep j i hj x hc => rw [hcur j hj] at hc; cases hc
  · intro hm i hi
    refine (hiff i).2 fun k hk hne => ?_
    obtain ⟨c, hc, -⟩ := hm.joined i hi k hk (Ne.symm hne)
    rw [hc]; simp

/-- **C51.** For the production network it is true for every party once the constructors have returned. -/
theorem C51_prod (order : List Peer → List Peer) (horder : ∀ l, (order l).Perm l) (c : Nat) (ids : Nat → Nat)
    (hids : ∀ j < c, 0 < ids j ∧ ids j < 2 ^ 32) (hnd : ∀ j < c, ∀ j' < c, ids j = ids j' → j = j') :
    ∃ tables : Fin (c + 1) → List Peer, AlwaysYields (prodNetwork order c ids) tables ∧ ∀ i, isInit (tables i) = true := by
  refine ⟨_, C48_setup order horder c ids hids hnd, fun i => ?_⟩
  split
  · simp [isInit]
  · simp [isInit]

/-- **C52.** Whatever the order in which the hash map lists the nodes and the tasks complete, the results come in the order of the
parties. -/
theorem C52_order {C K : Type} (n : Nat) (conn : Nat → C) (nodes : List (Nat × C))
    (hnodes : nodes.Perm ((List.range n).map fun i => (i, conn i))) (order : List Nat) (horder : order.Perm (List.range n))
    (task : C → Res K) (out : Nat → K) (hout : ∀ i < n, task (conn i) = .ok (out i)) :
    simulateNetworkRound nodes task order = .ok ((List.range n).map out) := by
  unfold simulateNetworkRound
  dsimp only
  have ho : ∀ k ∈ order, k < n := fun k hk => List.mem_range.1 (horder.mem_iff.1 hk)
  rw [sortNodes conn n nodes hnodes, events_eq conn n task order ho]
  have e : (order.map fun k => (k, task (conn k))) = order.map fun k => (k, .ok (out k)) :=
    List.map_congr_left fun k hk => by rw [hout k (ho k hk)]
  rw [e]
  have := collectOrdered_ok out order [] 0 n List.Pairwise.nil (by rw [List.nil_append, ← List.range_eq_range']; exact horder)
  rw [← List.range_eq_range'] at this
  exact this

/-- **C52.** If the task of any party panics, so does the round, whatever the others do. -/
theorem C52_panic {C K : Type} (n : Nat) (conn : Nat → C) (nodes : List (Nat × C))
    (hnodes : nodes.Perm ((List.range n).map fun i => (i, conn i))) (order : List Nat) (horder : order.Perm (List.range n))
    (task : C → Res K) {i : Nat} (hi : i < n) {f : Fault} (hf : task (conn i) = .error f) :
    simulateNetworkRound nodes task order = panic' ∧ simulateLossyNetworkRound nodes task order = panic' := by
  have h : simulateNetworkRound nodes task order = panic' := by
    unfold simulateNetworkRound
    dsimp only
    have ho : ∀ k ∈ order, k < n := fun k hk => List.mem_range.1 (horder.mem_iff.1 hk)
    rw [sortNodes conn n nodes hnodes, events_eq conn n task order ho]
    exact collectOrdered_panic _ _ _ ⟨(i, task (conn i)), List.mem_map.2 ⟨i, horder.mem_iff.2 (List.mem_range.2 hi), rfl⟩, f, hf⟩
  refine ⟨h, ?_⟩
  unfold simulateLossyNetworkRound
  rw [h]
  rfl

/-- **C52.** The lossy variant leaves out the last party, and only that, and names the others; without parties it panics. -/
theorem C52_lossy {C K : Type} (n : Nat) (conn : Nat → C) (nodes : List (Nat × C))
    (hnodes : nodes.Perm ((List.range n).map fun i => (i, conn i))) (order : List Nat) (horder : order.Perm (List.range n))
    (task : C → Res K) (out : Nat → K) (hout : ∀ i < n, task (conn i) = .ok (out i)) :
    simulateLossyNetworkRound nodes task order =
      if n = 0 then panic' else .ok ⟨(List.range (n - 1)).map out, List.range (n - 1)⟩ := by
  unfold simulateLossyNetworkRound
  rw [C52_order n conn nodes hnodes order horder task out hout, sortNodes conn n nodes hnodes]
  simp only [List.length_map, List.length_range]
  by_cases hn : n = 0
  · subst hn; rfl
  · rw [if_neg hn]
    show (do
      assert (decide (1 ≤ n ∧ n - 1 ≤ ((List.range n).map out).length))
      Except.ok (ReceivedShares.mk (((List.range n).map out).take (n - 1)) (List.range (n - 1)))) = _
    rw [List.length_map, List.length_range, decide_eq_true (by omega), ← List.map_take, List.take_range]
    have : min (n - 1) n = n - 1 := by omega
    rw [this]
    rfl

example : simulateNetworkRound [(2, 20), (0, 0), (1, 10)] (fun c => .ok (c + 5)) [1, 2, 0] = .ok [5, 15, 25] :=
  C52_order 3 (fun i => 10 * i) _ (by decide) _ (by decide) _ (fun i => 10 * i + 5) fun _ _ => rfl

/-- Examples for C50 and C51: three nodes; the set-up takes 18 steps, after which each node lacks only itself. -/
example : ∃ k s, Mesh.Steps 3 k Mesh.init s ∧ FullMesh 3 s ∧ isInit (s.peerMap 3 1) = false ∧
    (∀ i < 3, isInit ((s.peerMap 3 i).filter fun p => p.id ≠ i) = true) ∧ ∀ j < 3, ∀ i x, s.cur j = some (i, some x) → x = i := by
  obtain ⟨k, s, h1, h2⟩ := (C50_mesh 3).2.2 0 Mesh.init (.refl _)
  exact ⟨k, s, h1, h2, C51_local_never h1 (by decide), (C51_local_others h1).2 h2, (C50_ids 3 k s h1).1⟩

example : AlwaysYields (Net.init fun i : Fin 3 => genesis 3 i) fun _ => () := C50_genesis 3 (by decide)

/-- Example for C51: three peers announce the ids 3, 1, 2. -/
example : ∃ tables : Fin (3 + 1) → List Peer, AlwaysYields (prodNetwork List.reverse 3 fun j => [3, 1, 2].getD j 0) tables ∧
    ∀ i, isInit (tables i) = true :=
  C51_prod List.reverse (fun l => l.reverse_perm) 3 _ (by decide) (by decide)

/-- Examples for C52: node 1 fails; and the lossy round forgets node 2. -/
example : simulateNetworkRound [(2, 20), (0, 0), (1, 10)] (fun c => if c = 10 then .error (.net .generic) else .ok (c + 5)) [1, 2, 0] = panic' :=
  (C52_panic 3 (fun i => 10 * i) _ (by decide) _ (by decide) _ (i := 1) (by decide) (f := .net .generic) rfl).1

example : simulateLossyNetworkRound [(2, 20), (0, 0), (1, 10)] (fun c => .ok (c + 5)) [1, 2, 0] = .ok ⟨[5, 15], [0, 1]⟩ :=
  C52_lossy 3 (fun i => 10 * i) _ (by decide) _ (by decide) _ (fun i => 10 * i + 5) fun _ _ => rfl

end ZkSaas.Properties
