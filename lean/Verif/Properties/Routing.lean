import Verif.Lemmas.Packets
import Verif.Lemmas.Rounds
import Verif.Properties.ProdNet
import Verif.Properties.Bench
import Verif.Properties.Proof
import Verif.Properties.Fields

/-!
# C82: protocols over the production network
-/

set_option linter.unusedSectionVars false

namespace ZkSaas.Properties

open Finset Spec Polynomial

/-- The production network with `c` connections, all nodes running set-up and then the protocol `P`: party `0` is the king, party
`j + 1` is at the other end of connection `j`, is configured with the id `σ j` and runs the program of this id. -/
def prodSession {α : Type} (order : List Peer → List Peer) (c : Nat) (σ : Nat → Nat) (P : Nat → Proc α) : Net (c + 1) α :=
  Net.init fun q => if q.val = 0 then prodNode order 0 c (P 0) else prodNode order (σ (q.val - 1)) 1 (P (σ (q.val - 1)))

/-- An execution of a protocol, after set-up. -/
theorem session_reach {α : Type} {B : Bytes → Prop} (order : List Peer → List Peer) (horder : ∀ l, (order l).Perm l) (c : Nat) (hc : c < 2 ^ 32)
    (hB1 : ∀ id, B (beBytes 4 id)) (hB2 : B openStream) (hB3 : B ProtocolPacket.syn.enc) (hB4 : B ProtocolPacket.synAck.enc)
    (σ : Nat → Nat) (hσ : ((List.range c).map σ).Perm ((List.range c).map (· + 1))) (P : Nat → Proc α)
    (hstar : ∀ i < c + 1, Star (c + 1) i (P i)) (hwf : ∀ i < c + 1, (P i).WF fun _ => True) (rs : Nat → α) {Q : Queues}
    (hrun : Reach B (Net.init fun i : Fin (c + 1) => P i) ⟨fun i => .done (.ok (rs i)), Q⟩) :
    (prodSession order c σ P).WF ∧
    ∃ Q, Reach B (prodSession order c σ P) ⟨fun q => .done (.ok (if q.val = 0 then rs 0 else rs (σ (q.val - 1)))), Q⟩ := by
  have hmem : ∀ j < c, 1 ≤ σ j ∧ σ j ≤ c := fun j hj => by
    have : σ j ∈ (List.range c).map (· + 1) := hσ.subset (List.mem_map.2 ⟨j, List.mem_range.2 hj, rfl⟩)
    obtain ⟨x, hx, e⟩ := List.mem_map.1 this
    have := List.mem_range.1 hx
    omega
  have hinj : ∀ j < c, ∀ j' < c, σ j = σ j' → j = j' := by
    have hnd : ((List.range c).map σ).Nodup := hσ.nodup_iff.2 (List.nodup_range.map (fun a b h => by simpa using h))
    intro j hj j' hj' e
    exact List.inj_on_of_nodup_map hnd (List.mem_range.2 hj) (List.mem_range.2 hj') e
  obtain ⟨pos, idf, hN, hpos, hidf⟩ := numbering hσ
  have hidq : ∀ q : Fin (c + 1), idf q = if q.val = 0 then 0 else σ (q.val - 1) := by
    intro q
    by_cases hq : q.val = 0
    · rw [if_pos hq, hq, hN.idf_zero]
    · rw [if_neg hq, ← hidf (q.val - 1) (by omega)]
      congr 1
      omega
  -- the tables
  let peers : Nat → List Peer := fun i => if i = 0 then accepted σ c else [⟨0, some 0⟩]
  have hR : ∀ i : Fin (c + 1), Routes (c + 1) i pos (route i (peers i)) := by
    intro i
    by_cases hi : i.val = 0
    · rw [hi]
      have hacc := accepted_nodup σ c hinj
      have hnd : ((accepted σ c).map Peer.id).Nodup := by
        rw [hacc, List.map_map]
        exact List.nodup_range.map_on fun a ha b hb e => hinj a (List.mem_range.1 ha) b (List.mem_range.1 hb) e
      refine ⟨fun x hx => ?_, fun _ x => ?_⟩
      · rcases hx with ⟨-, h1, h2⟩ | ⟨h, -⟩
        · have hx : x ∈ (List.range c).map σ :=
            hσ.symm.subset (List.mem_map.2 ⟨x - 1, List.mem_range.2 (by omega), by omega⟩)
          obtain ⟨j, hj, rfl⟩ := List.mem_map.1 hx
          have hj := List.mem_range.1 hj
          have hp : (⟨σ j, some j⟩ : Peer) ∈ accepted σ c := by
            rw [hacc]; exact List.mem_map.2 ⟨j, List.mem_range.2 hj, rfl⟩
          have := getPeer_of_mem hnd hp
          simp only [route, peers, if_true]
          rw [this, hpos j hj]
          rfl
        · exact absurd rfl h
      · have : getPeer (accepted σ c) 0 = none := by
          rw [getPeer, List.find?_eq_none]
          intro p hp
          rw [hacc] at hp
          obtain ⟨j, hj, rfl⟩ := List.mem_map.1 hp
          have := hmem j (List.mem_range.1 hj)
          simp only [decide_eq_true_eq]
          omega
        simp only [route, peers, if_true]
        rw [this]
        simp
    · refine ⟨fun x hx => ?_, fun h => absurd h hi⟩
      rcases hx with ⟨h, -⟩ | ⟨-, rfl⟩
      · exact absurd h hi
      · simp only [route, peers, if_neg hi, hN.zero]
        simp [getPeer, farEnd, hi]
  have hpn : ∀ q : Fin (c + 1), (if q.val = 0 then prodNode order 0 c (P 0) else prodNode order (σ (q.val - 1)) 1 (P (σ (q.val - 1)))) =
      (if q = 0 then kingSetup order c else peerHandshake (σ (q.val - 1)) ProtocolPacket.synAck.enc).bind fun peers =>
        (P (idf q)).over (route (idf q) peers) := by
    intro q
    have : (q.val = 0) ↔ q = 0 := ⟨fun h => Fin.ext h, fun h => by rw [h]; rfl⟩
    rw [hidq q]
    by_cases hq : q.val = 0
    · rw [if_pos hq, if_pos (this.1 hq), if_pos hq, prodNode, prodNew, if_neg (by simp), if_pos rfl]
      rfl
    · have h1 := (hmem (q.val - 1) (by omega)).1
      rw [if_neg hq, if_neg fun e => hq (this.2 e), if_neg hq, prodNode, prodNew, if_neg (by simp), if_neg (by omega)]
      rfl
  have hnet : prodSession order c σ P = ⟨fun q => (if q = 0 then kingSetup order c else
      peerHandshake (σ (q.val - 1)) ProtocolPacket.synAck.enc).bind fun peers => (P (idf q)).over (route (idf q) peers), fun _ => []⟩ := by
    unfold prodSession Net.init
    congr 1
    funext q
    exact hpn q
  have hset := (setup_runs c σ (fun j hj => by have := hmem j hj; omega) hinj order horder).sends (P := B) fun i => by
    simp only [Net.init]
    split
    · exact kingSetup_sends hB3 _ _
    · exact peerHandshake_sends (hB1 _) hB2 hB4
  have hset' := hset.bind fun q peers => (P (idf q)).over (route (idf q) peers)
  have hover := hrun.over (Nat.succ_pos c) hN (fun i => route i (peers i)) hR (fun i => hstar i i.2) fun i => ⟨_, hwf i i.2⟩
  have hmid : (fun q : Fin (c + 1) => (if q = 0 then Proc.done (.ok (accepted σ c)) else .done (.ok [⟨0, some 0⟩])).bind fun peers =>
      (P (idf q)).over (route (idf q) peers)) = fun q : Fin (c + 1) => (P (idf q)).over (route (idf q) (peers (idf q))) := by
    funext q
    by_cases hq : q = 0
    · subst hq
      have : idf (0 : Fin (c + 1)) = 0 := hN.idf_zero
      simp only [if_true, Proc.bind, peers, this]
    · have : idf q ≠ 0 := by
        have hq0 : q.val ≠ 0 := fun e => hq (Fin.ext e)
        have := hN.idf_pos' (i := q.val) (by omega)
        omega
      simp only [if_neg hq, Proc.bind, peers, if_neg this]
  obtain ⟨m, hm⟩ := hset'.trans (by
    have := hover
    simp only [Net.init] at this hmid ⊢
    rw [hmid]
    exact this)
  rw [hnet]
  have hres : (fun q : Fin (c + 1) => (Proc.done (.ok (rs (idf q))) : Proc α)) =
      fun q => .done (.ok (if q.val = 0 then rs 0 else rs (σ (q.val - 1)))) := by
    funext q
    rw [hidq q]
    split <;> rfl
  refine ⟨fun q => ⟨fun _ => True, ?_⟩, Queues.at idf Q, m, ?_⟩
  · refine Proc.WF.bind ?_ fun peers => (hwf _ (hN.idf_lt q q.2)).over _
    split
    · exact kingSetup_wf trivial _ _
    · exact peerHandshake_wf trivial _ _
  · rw [← hres]
    exact hm

/-- **C82** A protocol of a king and its clients that always succeeds when every message goes to the party with that id always
succeeds, with the same results, when it is run over a production network set up just before: whatever the order in which the peers
have connected, the order in which the king's hash map is iterated, and the schedule, in which some nodes may still be in set-up
while others already run the protocol. -/
theorem C82_session {α : Type} (order : List Peer → List Peer) (horder : ∀ l, (order l).Perm l) (c : Nat) (hc : c < 2 ^ 32)
    (σ : Nat → Nat) (hσ : ((List.range c).map σ).Perm ((List.range c).map (· + 1))) (P : Nat → Proc α)
    (hstar : ∀ i < c + 1, Star (c + 1) i (P i)) (hwf : ∀ i < c + 1, (P i).WF fun _ => True) (rs : Nat → α)
    (h : AlwaysYields (Net.init fun i : Fin (c + 1) => P i) (fun i => rs i)) :
    AlwaysYields (prodSession order c σ P) (fun q => if q.val = 0 then rs 0 else rs (σ (q.val - 1))) := by
  obtain ⟨Q, hrun⟩ := core_run_of_alwaysYields h
  obtain ⟨hwf', Q', m, hm⟩ := session_reach order horder c hc (fun _ => trivial) trivial trivial trivial σ hσ P hstar hwf rs hrun
  exact alwaysYields_of_run hwf' hm

/-- **C82** Clients are not connected to each other: a send or receive that names anybody but the king fails at once. -/
theorem C82_clients_unconnected {α : Type} (me : Nat) (x : Nat) (hx : x ≠ 0) (sid : Sid) (b : Bytes) (k : Proc α) (k' : Bytes → Proc α) :
    (Proc.send x sid b k).over (route me [⟨0, some 0⟩]) = .done (.error (.net .generic)) ∧
    (Proc.recv x sid k').over (route me [⟨0, some 0⟩]) = .done (.error (.net .generic)) := by
  have : route me [⟨0, some 0⟩] x = .error (.net .generic) := by
    have : getPeer [⟨0, some 0⟩] x = none := by simp [getPeer, Ne.symm hx]
    rw [route, this]
  simp only [Proc.over, this, and_self]

section protocols

variable {F : Type} [Field F] [DecidableEq F] [FftField F] [FixedWire F]

theorem fft2WithRearrange_star {pp : PSS F} (dbg : Bool) (n me : Nat) (px : List F) (mask : FftMask F)
    (rearrange : Bool) (g gen : F) (sid : Sid) (rng : Nat → Nat → F) :
    Star n me (pp.fft2WithRearrange dbg n me px mask rearrange g gen sid rng) :=
  round_star sid _ _ _ _ _ fun _ => .done _

theorem dFft_star {pp : PSS F} (dbg : Bool) (n me : Nat) (px : List F) (mask : FftMask F)
    (rearrange : Bool) (dom : Domain F) (sid : Sid) (rng : Nat → Nat → F) :
    Star n me (pp.dFft dbg n me px mask rearrange dom sid rng) :=
  (Star.done _).bind fun _ => (Star.done _).bind fun _ => fft2WithRearrange_star _ _ _ _ _ _ _ _ _ _

theorem dIfft_star {pp : PSS F} (dbg : Bool) (n me : Nat) (px : List F) (mask : FftMask F)
    (rearrange : Bool) (dom : Domain F) (g : F) (sid : Sid) (rng : Nat → Nat → F) :
    Star n me (pp.dIfft dbg n me px mask rearrange dom g sid rng) :=
  (Star.done _).bind fun _ => (Star.done _).bind fun _ => fft2WithRearrange_star _ _ _ _ _ _ _ _ _ _

theorem degRed_star {T : Type} [AddCommGroup T] [Module F T] [DecidableEq T] [FixedWire T] {pp : PSS F} (dbg : Bool) (n me : Nat)
    (x : List T) (mask : DegRedMask T) (sid : Sid) (rng : Nat → Nat → T) : Star n me (pp.degRed dbg n me x mask sid rng) :=
  (Star.done _).bind fun _ => (Star.done _).bind fun _ => round_star sid _ _ _ _ _ fun _ => .done _

theorem dMsm_star {G : Type} [AddCommGroup G] [Module F G] [DecidableEq G] [FixedWire G] {pp : PSS F} (dbg : Bool) (n me : Nat)
    (bases : List G) (scalars : List F) (mask : MsmMask G) (sid : Sid) : Star n me (pp.dMsm dbg n me bases scalars mask sid) :=
  (Star.done _).bind fun _ => (Star.done _).bind fun _ => round_star sid _ _ _ _ _ fun _ => .done _

theorem dPp_star {pp : PSS F} (dbg : Bool) (n me : Nat) (num den : List F) (mask : DegRedMask F)
    (sid : Sid) (rng rng' : Nat → Nat → F) : Star n me (pp.dPp dbg n me num den mask sid rng rng') :=
  (Star.done _).bind fun _ => round_star sid _ _ _ _ _ fun _ => degRed_star _ _ _ _ _ _ _

theorem tryJoin3_star {α β γ δ : Type} {n me : Nat} {p : Proc α} {q : Proc β} {u : Proc γ} {k : α → β → γ → Proc δ}
    (hp : Star n me p) (hq : Star n me q) (hu : Star n me u) (hk : ∀ a b c, Star n me (k a b c)) :
    Star n me (ZkSaas.tryJoin3 p q u k) :=
  .par (.par hp hq fun _ _ => .done _) hu fun _ _ => hk _ _ _

theorem circomH_star {pp : PSS F} (dbg : Bool) (n me : Nat) (q : PackedQAPShare F)
    (mask : Nat → FftMask F) (dmask : DegRedMask F) (rng : Nat → Nat → Nat → F) :
    Star n me (pp.circomH dbg n me q mask dmask rng) :=
  (Star.done _).bind fun _ => tryJoin3_star (dIfft_star _ _ _ _ _ _ _ _ _ _) (dIfft_star _ _ _ _ _ _ _ _ _ _)
    (dIfft_star _ _ _ _ _ _ _ _ _ _) fun _ _ _ => tryJoin3_star (dFft_star _ _ _ _ _ _ _ _ _) (dFft_star _ _ _ _ _ _ _ _ _)
    (dFft_star _ _ _ _ _ _ _ _ _) fun _ _ _ => degRed_star _ _ _ _ _ _ _

theorem libsnarkH_star {pp : PSS F} (dbg : Bool) (n me : Nat) (q : PackedQAPShare F)
    (mask : Nat → FftMask F) (rng : Nat → Nat → Nat → F) : Star n me (pp.libsnarkH dbg n me q mask rng) :=
  (Star.done _).bind fun _ => tryJoin3_star (dIfft_star _ _ _ _ _ _ _ _ _ _) (dIfft_star _ _ _ _ _ _ _ _ _ _)
    (dIfft_star _ _ _ _ _ _ _ _ _ _) fun _ _ _ => tryJoin3_star (dFft_star _ _ _ _ _ _ _ _ _) (dFft_star _ _ _ _ _ _ _ _ _)
    (dFft_star _ _ _ _ _ _ _ _ _) fun _ _ _ => (Star.done _).bind fun _ => dIfft_star _ _ _ _ _ _ _ _ _ _

variable {G1 G2 GT : Type} [AddCommGroup G1] [Module F G1] [DecidableEq G1] [FixedWire G1] [AddCommGroup G2] [Module F G2]
  [DecidableEq G2] [FixedWire G2] [AddCommGroup GT] [Module F GT]

theorem proveA_star {pp : PSS F} (dbg : Bool) (n me : Nat) (L N AG1 : G1) (S : List G1) (a : List F) (r : F)
    (mask : MsmMask G1) (sid : Sid) : Star n me (pp.proveA dbg n me L N AG1 S a r mask sid) :=
  (dMsm_star _ _ _ _ _ _ _).bind fun _ => .done _

theorem dsha256_star {pp : PSS F} (dbg : Bool) (n me : Nat) (crs : PackedProvingKeyShare G1 G2)
    (q : PackedQAPShare F) (a ax : List F) (r s : F) (fftMask : Nat → FftMask F) (degredMask : DegRedMask F)
    (g1Mask : Nat → MsmMask G1) (g2Mask : MsmMask G2) (rng : Nat → Nat → Nat → F) :
    Star n me (pp.dsha256 dbg n me crs q a ax r s fftMask degredMask g1Mask g2Mask rng) := by
  refine (circomH_star _ _ _ _ _ _ _).bind fun _ => (proveA_star _ _ _ _ _ _ _ _ _ _ _).bind fun _ =>
    Star.bind ?_ fun _ => (proveA_star _ _ _ _ _ _ _ _ _ _ _).bind fun _ => Star.bind ?_ fun _ => .done _
  · by_cases h : r = 0
    · rw [PSS.proveBInG1, if_pos h]; exact .done _
    · rw [proveBInG1_eq_A _ _ _ _ _ _ _ _ _ h]; exact proveA_star _ _ _ _ _ _ _ _ _ _ _
  · exact .par (dMsm_star _ _ _ _ _ _ _) (dMsm_star _ _ _ _ _ _ _) fun _ _ => .done _

theorem addIds_star (dbg : Bool) (n me : Nat) : Star n me (addIds dbg n me) := by
  refine Star.bind (.done _) fun _ => Star.bind (sendReceive_star _ _ _ _ _) fun r => ?_
  cases r with
  | none =>
    exact Star.bind (.done _) fun _ => Star.bind (clientReceiveOrKingSend_star _ _ _ _) fun _ =>
      Star.bind (.done _) fun _ => .done _
  | some rs =>
    exact Star.bind (.done _) fun _ => Star.bind (.done _) fun _ =>
      Star.bind (clientReceiveOrKingSend_star _ _ _ _) fun _ => Star.bind (.done _) fun _ => .done _

theorem addIds_wf (dbg : Bool) {n : Nat} (hn : 0 < n) (me : Nat) : (addIds dbg n me).WF fun _ => True := by
  refine Proc.WF.bind (.done _ _) fun _ => Proc.WF.bind ((sendReceive_wf hn _ _ _ _).mono fun _ _ => trivial) fun r => ?_
  cases r with
  | none =>
    exact Proc.WF.bind (.done _ _) fun _ => Proc.WF.bind ((clientReceiveOrKingSend_wf _ _ _).mono fun _ _ => trivial) fun _ =>
      Proc.WF.bind (.done _ _) fun _ => .done _ _
  | some rs =>
    exact Proc.WF.bind (.done _ _) fun _ => Proc.WF.bind (.done _ _) fun _ =>
      Proc.WF.bind ((clientReceiveOrKingSend_wf _ _ _).mono fun _ _ => trivial) fun _ => Proc.WF.bind (.done _ _) fun _ => .done _ _

/-- **C82** All protocols are of the kind that C82 is about: the parties write to and read from the king, and the king to and from them. -/
theorem C82_protocols (pp : PSS F) (dbg : Bool) {n : Nat} (hn : 0 < n) (me : Nat) (rng rng' : Nat → Nat → F) (rng3 : Nat → Nat → Nat → F) :
    (∀ px mask rearrange dom sid, Star n me (pp.dFft dbg n me px mask rearrange dom sid rng) ∧
      (pp.dFft dbg n me px mask rearrange dom sid rng).WF fun _ => True) ∧
    (∀ px mask rearrange dom g sid, Star n me (pp.dIfft dbg n me px mask rearrange dom g sid rng) ∧
      (pp.dIfft dbg n me px mask rearrange dom g sid rng).WF fun _ => True) ∧
    (∀ (x : List F) mask sid, Star n me (pp.degRed dbg n me x mask sid rng) ∧ (pp.degRed dbg n me x mask sid rng).WF fun _ => True) ∧
    (∀ (bases : List G1) scalars mask sid, Star n me (pp.dMsm dbg n me bases scalars mask sid) ∧
      (pp.dMsm dbg n me bases scalars mask sid).WF fun _ => True) ∧
    (∀ num den mask sid, Star n me (pp.dPp dbg n me num den mask sid rng rng') ∧
      (pp.dPp dbg n me num den mask sid rng rng').WF fun _ => True) ∧
    (∀ q masks mask, Star n me (pp.circomH dbg n me q masks mask rng3) ∧ (pp.circomH dbg n me q masks mask rng3).WF fun _ => True) ∧
    (∀ q masks, Star n me (pp.libsnarkH dbg n me q masks rng3) ∧ (pp.libsnarkH dbg n me q masks rng3).WF fun _ => True) ∧
    (∀ x : ServerInput F G1 G2, Star n me (x.run pp dbg n me rng3) ∧ (x.run pp dbg n me rng3).WF fun _ => True) :=
  ⟨fun _ _ _ _ _ => ⟨dFft_star _ _ _ _ _ _ _ _ _, (PSS.dFft_wf _ hn _ _ _ _ _ _ _).mono fun _ _ => trivial⟩,
    fun _ _ _ _ _ _ => ⟨dIfft_star _ _ _ _ _ _ _ _ _ _, (PSS.dIfft_wf _ hn _ _ _ _ _ _ _ _).mono fun _ _ => trivial⟩,
    fun _ _ _ => ⟨degRed_star _ _ _ _ _ _ _, (PSS.degRed_wf _ hn _ _ _ _ _).mono fun _ _ => trivial⟩,
    fun _ _ _ _ => ⟨dMsm_star _ _ _ _ _ _ _, (PSS.dMsm_wf _ hn _ _ _ _ _).mono fun _ _ => trivial⟩,
    fun _ _ _ _ => ⟨dPp_star _ _ _ _ _ _ _ _ _, (PSS.dPp_wf _ hn _ _ _ _ _ _ _).mono fun _ _ => trivial⟩,
    fun _ _ _ => ⟨circomH_star _ _ _ _ _ _ _, circomH_wf _ hn _ _ _ _ _⟩,
    fun _ _ => ⟨libsnarkH_star _ _ _ _ _ _, libsnarkH_wf _ hn _ _ _ _⟩,
    fun _ => ⟨dsha256_star _ _ _ _ _ _ _ _ _ _ _ _ _ _, dsha256_wf _ hn _ _ _ _ _ _ _ _ _ _ _ _⟩⟩

/-- **C82** The example `add_ids` from the connections on: whatever the order in which the clients connect, all nodes finish, so each of
them holds the sum of the ids. -/
theorem C82_add_ids (order : List Peer → List Peer) (horder : ∀ l, (order l).Perm l) (dbg : Bool) {c : Nat} (hc : c < 2 ^ 32)
    (h : dbg = true → ∑ i ∈ range (c + 1), i < 2 ^ 32) (σ : Nat → Nat)
    (hσ : ((List.range c).map σ).Perm ((List.range c).map (· + 1))) :
    AlwaysYields (prodSession order c σ (addIds dbg (c + 1))) (fun _ => ()) :=
  C82_session order horder c hc σ hσ (addIds dbg (c + 1)) (fun _ _ => addIds_star _ _ _) (fun _ _ => addIds_wf _ (by omega) _)
    (fun _ => ()) (C66_add_ids dbg (by omega) (by omega) h)

/-- **C82** The prover over the production network, from the connections on: whatever the order in which the servers connect to the king, the
release build of the session of the example ends with the proof that verifies; the server that announced id `i` holds the `i`-th share. -/
theorem C82_example {dbg₀ : Bool} {b : Nat} {pp : PSS F} (hpp : PSS.new dbg₀ (2 ^ b) = .ok pp) (a : Nat) (ha : a < 64)
    {mats : ConstraintMatrices F} {z : List F} {dom dom2 : Domain F} (hcirc : Circuit a b mats z dom dom2)
    (hsat : Satisfies mats.numConstraints mats.a mats.b mats.c z) {pa pb pc : Nat → F[X]}
    (hqap : IsQap mats z.length dom.groupGen (2 ^ (a + b)) pa pb pc) {t : Toxic F} {g1 : G1} {g2 : G2} {pk : ProvingKey G1 G2}
    (hk : IsCircomKey t g1 g2 z.length mats.numInstanceVariables (2 ^ (a + b)) dom2.groupGen pa pb pc pk) (hγ : t.gamma ≠ 0)
    (hδ : t.delta ≠ 0) (gen1 : G1) (gen2 : G2) (r s : F) (tape : ClientTape F G1 G2) (rng : Nat → Nat → Nat → F)
    {c : Nat} (hn : c + 1 = 4 * 2 ^ b) (hb : b ≤ 30) (order : List Peer → List Peer) (horder : ∀ l, (order l).Perm l)
    (σ : Nat → Nat) (hσ : ((List.range c).map σ).Perm ((List.range c).map (· + 1))) :
    ∃ (ins : Nat → ServerInput F G1 G2) (outs : Nat → G1 × G2 × G1) (pA : G1) (pB : G2) (pC : G1),
      pp.deal false pp.n mats z pk gen1 gen2 r s tape = .ok ((List.range (c + 1)).map ins) ∧
      AlwaysYields (prodSession order c σ fun i => (ins i).run pp false (c + 1) i rng)
        (fun q => if q.val = 0 then outs 0 else outs (σ (q.val - 1))) ∧
      pp.openProof false ((List.range (c + 1)).map outs) = .ok (pA, pB, pC) ∧
      ∀ e : G1 →ₗ[F] G2 →ₗ[F] GT, Verifies e pk.vk ((z.take mats.numInstanceVariables).drop 1) pA pB pC := by
  obtain ⟨ins, outs, pA, pB, pC, h1, h2, h3, h4⟩ :=
    C35_example_release (GT := GT) hpp a ha hcirc hsat hqap hk hγ hδ gen1 gen2 r s tape rng
  rw [← hn] at h1 h2 h3
  have hc : c < 2 ^ 32 := by
    have : 2 ^ b ≤ 2 ^ 30 := Nat.pow_le_pow_right (by norm_num) hb
    omega
  exact ⟨ins, outs, pA, pB, pC, h1, C82_session order horder c hc σ hσ _ (fun _ _ => dsha256_star _ _ _ _ _ _ _ _ _ _ _ _ _ _)
    (fun _ _ => dsha256_wf _ (by omega) _ _ _ _ _ _ _ _ _ _ _ _) outs h2, h3, h4⟩

end protocols

/-! ### Examples -/

/-- Example for C82: five nodes whose clients connect in the order 3, 1, 4, 2, the king's hash map being iterated backwards. -/
example : AlwaysYields (prodSession List.reverse 4 (fun j => [3, 1, 4, 2].getD j 0) (addIds true (4 + 1))) (fun _ => ()) :=
  C82_add_ids List.reverse List.reverse_perm true (by norm_num) (fun _ => by decide) _ (by decide)

/-- Example for C82: a client that wants to write to client 2. -/
example : (Proc.send 2 .one [7] (.done (.ok ())) : Proc Unit).over (route 1 [⟨0, some 0⟩]) = .done (.error (.net .generic)) :=
  (C82_clients_unconnected 1 2 (by decide) .one [7] _ fun _ => .done (.ok ())).1

/-- Example for C82: eight servers on a production network whose clients connect in the order 7, 2, 5, 1, 6, 4, 3 make the proof of `y = 9`. -/
example (tape : ClientTape (ZMod 17) (ZMod 17) (ZMod 17)) : ∃ (pk : ProvingKey (ZMod 17) (ZMod 17))
    (ins : Nat → ServerInput (ZMod 17) (ZMod 17) (ZMod 17)) (outs : Nat → ZMod 17 × ZMod 17 × ZMod 17) (pA pB pC : ZMod 17),
    AlwaysYields (prodSession List.reverse 7 (fun j => [7, 2, 5, 1, 6, 4, 3].getD j 0) fun i => (ins i).run pp17 false (7 + 1) i fun _ i j => i + j)
      (fun q => if q.val = 0 then outs 0 else outs ([7, 2, 5, 1, 6, 4, 3].getD (q.val - 1) 0)) ∧
    pp17.openProof false ((List.range (7 + 1)).map outs) = .ok (pA, pB, pC) ∧
    Verifies (LinearMap.mul (ZMod 17) (ZMod 17)) pk.vk [9] pA pB pC := by
  obtain ⟨pa, pb, pc, pk, h1, h2⟩ := C35_key_exists circuit17 (⟨2, 3, 4, 5, 6⟩ : Toxic (ZMod 17)) (1 : ZMod 17) (1 : ZMod 17)
  obtain ⟨ins, outs, pA, pB, pC, -, h4, h5, h6⟩ := C82_example (GT := ZMod 17) (pp17_eq true) 1 (by norm_num) circuit17 mats17_sat h1 h2
    (by decide) (by decide) 1 1 5 6 tape (fun _ i j => i + j) (c := 7) rfl (by norm_num) List.reverse List.reverse_perm
    (fun j => [7, 2, 5, 1, 6, 4, 3].getD j 0) (by decide)
  exact ⟨pk, ins, outs, pA, pB, pC, h4, h5, h6 _⟩

end ZkSaas.Properties
