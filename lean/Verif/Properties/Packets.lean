import Verif.Properties.Routing
import Verif.Properties.Bytes
import Verif.Properties.Curves

/-!
# C95: the production network on bytes, from the connections on
-/

set_option linter.unusedSectionVars false

namespace ZkSaas.Properties

open Finset Spec Polynomial

/-- **C95** A protocol that always succeeds, with messages of at most `lim` bytes, always succeeds with the same results when every message is
put into a packet and taken out again; the packets have at most `lim + 12` bytes. -/
theorem C95_packets {α : Type} {n lim : Nat} (hn : 0 < n) (hlim : lim < 2 ^ 64) (P : Nat → Proc α) (hstar : ∀ i < n, Star n i (P i))
    (hwf : ∀ i < n, (P i).WF fun _ => True) (hfresh : ∀ i < n, (P i).Fresh) (rs : Nat → α)
    (h : AlwaysYieldsWithin lim (Net.init fun i : Fin n => P i) (fun i => rs i)) :
    AlwaysYieldsWithin (lim + 12) (Net.init fun i : Fin n => (P i).packets) (fun i => rs i) := by
  obtain ⟨Q, hrun⟩ := core_run_of_alwaysYieldsWithin h
  have := hrun.packed (P' := Upto (lim + 12)) hn (fun b hb => (C47_recv b (lt_of_le_of_lt hb hlim)).1) (fun b hb => by
    have hb : b.length ≤ lim := hb
    show (leBytes 4 2 ++ (leBytes 8 b.length ++ b)).length ≤ _
    simp only [List.length_append, leBytes_length]
    omega) (fun i => hstar i i.2) (fun i => ⟨_, hwf i i.2⟩) (fun i => (hfresh i i.2).got) (fun _ _ h => by cases h)
  exact alwaysYieldsWithin_of_run le_rfl (fun i => ⟨_, (hwf i i.2).packets⟩) this

/-- **C95** The production network on bytes, from the connections on: all nodes announce their ids, exchange the packets of the handshake and then
those of the protocol, as frames whose bytes arrive in any pieces. A protocol whose messages have at most 8 MiB less 12 bytes and that always
succeeds on a network of whole messages always succeeds here, with the same results: whatever the order in which the peers have connected, the order in
which the king's hash map is iterated, the schedule and the pieces. -/
theorem C95_session {α : Type} (order : List Peer → List Peer) (horder : ∀ l, (order l).Perm l) (c : Nat) (hc : c < 2 ^ 32)
    (σ : Nat → Nat) (hσ : ((List.range c).map σ).Perm ((List.range c).map (· + 1))) (P : Nat → Proc α)
    (hstar : ∀ i < c + 1, Star (c + 1) i (P i)) (hwf : ∀ i < c + 1, (P i).WF fun _ => True) (hfresh : ∀ i < c + 1, (P i).Fresh)
    (rs : Nat → α) (h : AlwaysYieldsWithin (8 * 1024 * 1024 - 12) (Net.init fun i : Fin (c + 1) => P i) (fun i => rs i)) :
    BytesAlwaysYield localTransport (ByteNet.init (prodSession order c σ fun i => (P i).packets).procs)
      (fun q => if q.val = 0 then rs 0 else rs (σ (q.val - 1))) := by
  have h1 := C95_packets (Nat.succ_pos c) (by norm_num) P hstar hwf hfresh rs h
  obtain ⟨Q, hrun⟩ := core_run_of_alwaysYieldsWithin h1
  have hl : ∀ id, (beBytes 4 id).length = 4 := fun id => by simp [beBytes, leBytes_length]
  obtain ⟨hwf', Q', hr⟩ := session_reach (B := Upto (8 * 1024 * 1024 - 12 + 12)) order horder c hc
    (fun id => by rw [Upto, hl]; norm_num) (by rw [Upto, openStream]; norm_num) (by rw [Upto]; decide +kernel) (by rw [Upto]; decide +kernel)
    σ hσ (fun i => (P i).packets) (fun i hi => (hstar i hi).packets) (fun i hi => (hwf i hi).packets) rs hrun
  exact C81_local _ _ (alwaysYieldsWithin_of_run (by norm_num) hwf' hr)

/-- **C95** The packets of the handshake and those of the protocol are told apart: a payload read where the handshake is expected is the error of the
handshake, and a packet of the handshake read where a payload is expected is an error as well. -/
theorem C95_confusion {α : Type} (b : Bytes) (hb : b.length < 2 ^ 64) (p : Peer) (ps : List Peer) (j : Nat) (hj : p.streams = some j)
    (frm : Nat) (sid : Sid) (k : Bytes → Proc α) :
    (∃ k', recvAcks (p :: ps) = .recv (j + 1) .zero k' ∧ k' (ProtocolPacket.packet b).enc = .done (.error (.net (.protocol p.id)))) ∧
    ∃ k', (Proc.recv frm sid k).packets = .recv frm sid k' ∧ k' (ProtocolPacket.packet b).enc = (k b).packets ∧
      k' ProtocolPacket.syn.enc = .done (.error (.net .generic)) ∧ k' ProtocolPacket.synAck.enc = .done (.error (.net .generic)) := by
  have h1 : recvPacket (.frame (ProtocolPacket.packet b).enc) = .ok (.packet b) := by
    have h := (C47_recv b hb).1
    have := C47_decode_encode (.packet b) (by rintro _ ⟨⟩; exact hb) []
    rw [List.append_nil] at this
    simp [recvPacket, this]
  obtain ⟨h2, h3, h4, -⟩ := C47_recv b hb
  refine ⟨?_, ?_⟩
  · rw [recvAcks, hj]
    refine ⟨_, rfl, ?_⟩
    simp only [h1]
    rw [if_pos (by simp)]
  · rw [Proc.packets]
    refine ⟨_, rfl, ?_, ?_, ?_⟩
    · simp only [h2]
    · simp only [h3]
    · simp only [h4]

section protocols

variable {F : Type} [Field F] [DecidableEq F] [FftField F] [FixedWire F]

theorem fft2WithRearrange_fresh {pp : PSS F} (dbg : Bool) (n me : Nat) (px : List F) (mask : FftMask F)
    (rearrange : Bool) (g gen : F) (sid : Sid) (rng : Nat → Nat → F) :
    (pp.fft2WithRearrange dbg n me px mask rearrange g gen sid rng).Fresh :=
  round_fresh sid _ _ _ _ _ fun _ => .done _

theorem dFft_fresh {pp : PSS F} (dbg : Bool) (n me : Nat) (px : List F) (mask : FftMask F)
    (rearrange : Bool) (dom : Domain F) (sid : Sid) (rng : Nat → Nat → F) :
    (pp.dFft dbg n me px mask rearrange dom sid rng).Fresh :=
  (Proc.Fresh.done _).bind fun _ => (Proc.Fresh.done _).bind fun _ => fft2WithRearrange_fresh _ _ _ _ _ _ _ _ _ _

theorem dIfft_fresh {pp : PSS F} (dbg : Bool) (n me : Nat) (px : List F) (mask : FftMask F)
    (rearrange : Bool) (dom : Domain F) (g : F) (sid : Sid) (rng : Nat → Nat → F) :
    (pp.dIfft dbg n me px mask rearrange dom g sid rng).Fresh :=
  (Proc.Fresh.done _).bind fun _ => (Proc.Fresh.done _).bind fun _ => fft2WithRearrange_fresh _ _ _ _ _ _ _ _ _ _

theorem degRed_fresh {T : Type} [AddCommGroup T] [Module F T] [DecidableEq T] [FixedWire T] {pp : PSS F} (dbg : Bool) (n me : Nat)
    (x : List T) (mask : DegRedMask T) (sid : Sid) (rng : Nat → Nat → T) : (pp.degRed dbg n me x mask sid rng).Fresh :=
  (Proc.Fresh.done _).bind fun _ => (Proc.Fresh.done _).bind fun _ => round_fresh sid _ _ _ _ _ fun _ => .done _

theorem dMsm_fresh {G : Type} [AddCommGroup G] [Module F G] [DecidableEq G] [FixedWire G] {pp : PSS F} (dbg : Bool) (n me : Nat)
    (bases : List G) (scalars : List F) (mask : MsmMask G) (sid : Sid) : (pp.dMsm dbg n me bases scalars mask sid).Fresh :=
  (Proc.Fresh.done _).bind fun _ => (Proc.Fresh.done _).bind fun _ => round_fresh sid _ _ _ _ _ fun _ => .done _

theorem dPp_fresh {pp : PSS F} (dbg : Bool) (n me : Nat) (num den : List F) (mask : DegRedMask F)
    (sid : Sid) (rng rng' : Nat → Nat → F) : (pp.dPp dbg n me num den mask sid rng rng').Fresh :=
  (Proc.Fresh.done _).bind fun _ => round_fresh sid _ _ _ _ _ fun _ => degRed_fresh _ _ _ _ _ _ _

theorem tryJoin3_fresh {α β γ δ : Type} {p : Proc α} {q : Proc β} {u : Proc γ} {k : α → β → γ → Proc δ}
    (hp : p.Fresh) (hq : q.Fresh) (hu : u.Fresh) (hk : ∀ a b c, (k a b c).Fresh) :
    (ZkSaas.tryJoin3 p q u k).Fresh :=
  .par (.par hp hq fun _ _ => .done _) hu fun _ _ => hk _ _ _

theorem circomH_fresh {pp : PSS F} (dbg : Bool) (n me : Nat) (q : PackedQAPShare F)
    (mask : Nat → FftMask F) (dmask : DegRedMask F) (rng : Nat → Nat → Nat → F) :
    (pp.circomH dbg n me q mask dmask rng).Fresh :=
  (Proc.Fresh.done _).bind fun _ => tryJoin3_fresh (dIfft_fresh _ _ _ _ _ _ _ _ _ _) (dIfft_fresh _ _ _ _ _ _ _ _ _ _)
    (dIfft_fresh _ _ _ _ _ _ _ _ _ _) fun _ _ _ => tryJoin3_fresh (dFft_fresh _ _ _ _ _ _ _ _ _) (dFft_fresh _ _ _ _ _ _ _ _ _)
    (dFft_fresh _ _ _ _ _ _ _ _ _) fun _ _ _ => degRed_fresh _ _ _ _ _ _ _

theorem libsnarkH_fresh {pp : PSS F} (dbg : Bool) (n me : Nat) (q : PackedQAPShare F)
    (mask : Nat → FftMask F) (rng : Nat → Nat → Nat → F) : (pp.libsnarkH dbg n me q mask rng).Fresh :=
  (Proc.Fresh.done _).bind fun _ => tryJoin3_fresh (dIfft_fresh _ _ _ _ _ _ _ _ _ _) (dIfft_fresh _ _ _ _ _ _ _ _ _ _)
    (dIfft_fresh _ _ _ _ _ _ _ _ _ _) fun _ _ _ => tryJoin3_fresh (dFft_fresh _ _ _ _ _ _ _ _ _) (dFft_fresh _ _ _ _ _ _ _ _ _)
    (dFft_fresh _ _ _ _ _ _ _ _ _) fun _ _ _ => (Proc.Fresh.done _).bind fun _ => dIfft_fresh _ _ _ _ _ _ _ _ _ _

variable {G1 G2 GT : Type} [AddCommGroup G1] [Module F G1] [DecidableEq G1] [FixedWire G1] [AddCommGroup G2] [Module F G2]
  [DecidableEq G2] [FixedWire G2] [AddCommGroup GT] [Module F GT]

theorem proveA_fresh {pp : PSS F} (dbg : Bool) (n me : Nat) (L N AG1 : G1) (S : List G1) (a : List F) (r : F)
    (mask : MsmMask G1) (sid : Sid) : (pp.proveA dbg n me L N AG1 S a r mask sid).Fresh :=
  (dMsm_fresh _ _ _ _ _ _ _).bind fun _ => .done _

theorem dsha256_fresh {pp : PSS F} (dbg : Bool) (n me : Nat) (crs : PackedProvingKeyShare G1 G2)
    (q : PackedQAPShare F) (a ax : List F) (r s : F) (fftMask : Nat → FftMask F) (degredMask : DegRedMask F)
    (g1Mask : Nat → MsmMask G1) (g2Mask : MsmMask G2) (rng : Nat → Nat → Nat → F) :
    (pp.dsha256 dbg n me crs q a ax r s fftMask degredMask g1Mask g2Mask rng).Fresh := by
  refine (circomH_fresh _ _ _ _ _ _ _).bind fun _ => (proveA_fresh _ _ _ _ _ _ _ _ _ _ _).bind fun _ =>
    Proc.Fresh.bind ?_ fun _ => (proveA_fresh _ _ _ _ _ _ _ _ _ _ _).bind fun _ => Proc.Fresh.bind ?_ fun _ => .done _
  · by_cases h : r = 0
    · rw [PSS.proveBInG1, if_pos h]; exact .done _
    · rw [proveBInG1_eq_A _ _ _ _ _ _ _ _ _ h]; exact proveA_fresh _ _ _ _ _ _ _ _ _ _ _
  · exact .par (dMsm_fresh _ _ _ _ _ _ _) (dMsm_fresh _ _ _ _ _ _ _) fun _ _ => .done _

theorem addIds_fresh (dbg : Bool) (n me : Nat) : (addIds dbg n me).Fresh := by
  refine Proc.Fresh.bind (.done _) fun _ => Proc.Fresh.bind (sendReceive_fresh _ _ _ _ _) fun r => ?_
  cases r with
  | none =>
    exact Proc.Fresh.bind (.done _) fun _ => Proc.Fresh.bind (clientReceiveOrKingSend_fresh _ _ _ _) fun _ =>
      Proc.Fresh.bind (.done _) fun _ => .done _
  | some rs =>
    exact Proc.Fresh.bind (.done _) fun _ => Proc.Fresh.bind (.done _) fun _ =>
      Proc.Fresh.bind (clientReceiveOrKingSend_fresh _ _ _ _) fun _ => Proc.Fresh.bind (.done _) fun _ => .done _

/-- **C95** All protocols are of the kind that C95 is about. -/
theorem C95_protocols (pp : PSS F) (dbg : Bool) (n me : Nat) (rng rng' : Nat → Nat → F) (rng3 : Nat → Nat → Nat → F) :
    (∀ px mask rearrange dom sid, (pp.dFft dbg n me px mask rearrange dom sid rng).Fresh) ∧
    (∀ px mask rearrange dom g sid, (pp.dIfft dbg n me px mask rearrange dom g sid rng).Fresh) ∧
    (∀ (x : List F) mask sid, (pp.degRed dbg n me x mask sid rng).Fresh) ∧
    (∀ (bases : List G1) scalars mask sid, (pp.dMsm dbg n me bases scalars mask sid).Fresh) ∧
    (∀ num den mask sid, (pp.dPp dbg n me num den mask sid rng rng').Fresh) ∧
    (∀ q masks mask, (pp.circomH dbg n me q masks mask rng3).Fresh) ∧
    (∀ q masks, (pp.libsnarkH dbg n me q masks rng3).Fresh) ∧
    (∀ x : ServerInput F G1 G2, (x.run pp dbg n me rng3).Fresh) :=
  ⟨fun _ _ _ _ _ => dFft_fresh _ _ _ _ _ _ _ _ _, fun _ _ _ _ _ _ => dIfft_fresh _ _ _ _ _ _ _ _ _ _,
    fun _ _ _ => degRed_fresh _ _ _ _ _ _ _, fun _ _ _ _ => dMsm_fresh _ _ _ _ _ _ _, fun _ _ _ _ => dPp_fresh _ _ _ _ _ _ _ _ _,
    fun _ _ _ => circomH_fresh _ _ _ _ _ _ _, fun _ _ => libsnarkH_fresh _ _ _ _ _ _,
    fun _ => dsha256_fresh _ _ _ _ _ _ _ _ _ _ _ _ _ _⟩

/-- **C95** The prover over the production network on bytes, from the connections on: if a vector of shares and the group elements fit into a packet, the
release build of the session of the example ends with the proof that verifies. -/
theorem C95_example {dbg₀ : Bool} {b : Nat} {pp : PSS F} (hpp : PSS.new dbg₀ (2 ^ b) = .ok pp) (a : Nat) (ha : a < 64)
    {mats : ConstraintMatrices F} {z : List F} {dom dom2 : Domain F} (hcirc : Circuit a b mats z dom dom2)
    (hsat : Satisfies mats.numConstraints mats.a mats.b mats.c z) {pa pb pc : Nat → F[X]}
    (hqap : IsQap mats z.length dom.groupGen (2 ^ (a + b)) pa pb pc) {t : Toxic F} {g1 : G1} {g2 : G2} {pk : ProvingKey G1 G2}
    (hk : IsCircomKey t g1 g2 z.length mats.numInstanceVariables (2 ^ (a + b)) dom2.groupGen pa pb pc pk) (hγ : t.gamma ≠ 0)
    (hδ : t.delta ≠ 0) (gen1 : G1) (gen2 : G2) (r s : F) (tape : ClientTape F G1 G2) (rng : Nat → Nat → Nat → F)
    (hfit : max (8 + 2 ^ a * FixedWire.width F) (max (FixedWire.width G1) (FixedWire.width G2)) ≤ 8 * 1024 * 1024 - 12)
    {c : Nat} (hn : c + 1 = 4 * 2 ^ b) (hb : b ≤ 30) (order : List Peer → List Peer) (horder : ∀ l, (order l).Perm l)
    (σ : Nat → Nat) (hσ : ((List.range c).map σ).Perm ((List.range c).map (· + 1))) :
    ∃ (ins : Nat → ServerInput F G1 G2) (outs : Nat → G1 × G2 × G1) (pA : G1) (pB : G2) (pC : G1),
      pp.deal false pp.n mats z pk gen1 gen2 r s tape = .ok ((List.range (c + 1)).map ins) ∧
      BytesAlwaysYield localTransport (ByteNet.init (prodSession order c σ fun i => ((ins i).run pp false (c + 1) i rng).packets).procs)
        (fun q => if q.val = 0 then outs 0 else outs (σ (q.val - 1))) ∧
      pp.openProof false ((List.range (c + 1)).map outs) = .ok (pA, pB, pC) ∧
      ∀ e : G1 →ₗ[F] G2 →ₗ[F] GT, Verifies e pk.vk ((z.take mats.numInstanceVariables).drop 1) pA pB pC := by
  obtain ⟨ins, outs, D, pA, pB, pC, h1, h2, h3, h4, h5, h6, h7, h8, -⟩ :=
    example_session (GT := GT) hpp a ha hcirc hqap hk hγ hδ gen1 gen2 r s tape rng
  have hD : D = 0 := (errors_zero hcirc.prim hcirc.le h6).2 hsat
  have h3 := h3 _ hfit
  rw [← hn] at h1 h3 h5
  have hc : c < 2 ^ 32 := by
    have : 2 ^ b ≤ 2 ^ 30 := Nat.pow_le_pow_right (by norm_num) hb
    omega
  refine ⟨ins, outs, pA, pB, pC, h1, C95_session order horder c hc σ hσ (fun i => (ins i).run pp false (c + 1) i rng)
    (fun _ _ => dsha256_star _ _ _ _ _ _ _ _ _ _ _ _ _ _) (fun _ _ => dsha256_wf _ (by omega) _ _ _ _ _ _ _ _ _ _ _ _)
    (fun _ _ => dsha256_fresh _ _ _ _ _ _ _ _ _ _ _ _ _ _) outs h3, h5, fun e => ⟨h7, ?_⟩⟩
  rw [h8 e, hD, eval_zero, zero_smul, add_zero]

end protocols

/-- **C95** The same for the groups of BN254: it is enough that the domain has at most `2^(17+b)` points. -/
theorem C95_bn254 {GT : Type} [AddCommGroup GT] [Module Bn254Fr GT] {dbg₀ : Bool} {b : Nat} {pp : PSS Bn254Fr}
    (hpp : PSS.new dbg₀ (2 ^ b) = .ok pp) (a : Nat) (ha : a ≤ 17) {mats : ConstraintMatrices Bn254Fr} {z : List Bn254Fr}
    {dom dom2 : Domain Bn254Fr} (hcirc : Circuit a b mats z dom dom2)
    (hsat : Satisfies mats.numConstraints mats.a mats.b mats.c z) {pa pb pc : Nat → Bn254Fr[X]}
    (hqap : IsQap mats z.length dom.groupGen (2 ^ (a + b)) pa pb pc) {t : Toxic Bn254Fr} {g1 : Bn254G1} {g2 : Bn254G2}
    {pk : ProvingKey Bn254G1 Bn254G2}
    (hk : IsCircomKey t g1 g2 z.length mats.numInstanceVariables (2 ^ (a + b)) dom2.groupGen pa pb pc pk) (hγ : t.gamma ≠ 0)
    (hδ : t.delta ≠ 0) (gen1 : Bn254G1) (gen2 : Bn254G2) (r s : Bn254Fr) (tape : ClientTape Bn254Fr Bn254G1 Bn254G2)
    (rng : Nat → Nat → Nat → Bn254Fr) {c : Nat} (hn : c + 1 = 4 * 2 ^ b) (order : List Peer → List Peer)
    (horder : ∀ l, (order l).Perm l) (σ : Nat → Nat) (hσ : ((List.range c).map σ).Perm ((List.range c).map (· + 1))) :
    ∃ (ins : Nat → ServerInput Bn254Fr Bn254G1 Bn254G2) (outs : Nat → Bn254G1 × Bn254G2 × Bn254G1) (pA : Bn254G1) (pB : Bn254G2) (pC : Bn254G1),
      pp.deal false pp.n mats z pk gen1 gen2 r s tape = .ok ((List.range (c + 1)).map ins) ∧
      BytesAlwaysYield localTransport (ByteNet.init (prodSession order c σ fun i => ((ins i).run pp false (c + 1) i rng).packets).procs)
        (fun q => if q.val = 0 then outs 0 else outs (σ (q.val - 1))) ∧
      pp.openProof false ((List.range (c + 1)).map outs) = .ok (pA, pB, pC) ∧
      ∀ e : Bn254G1 →ₗ[Bn254Fr] Bn254G2 →ₗ[Bn254Fr] GT, Verifies e pk.vk ((z.take mats.numInstanceVariables).drop 1) pA pB pC := by
  have hab : a + b + 1 ≤ 28 := by
    by_contra hk
    have := hcirc.double
    rw [Domain.new_none (show 28 < Nat.clog 2 (2 ^ (a + b + 1)) by rw [clog_two_pow]; omega)] at this
    cases this
  have hw1 : FixedWire.width Bn254G1 = 32 := rfl
  have hw2 : FixedWire.width Bn254G2 = 64 := rfl
  have hw : FixedWire.width Bn254Fr = 32 := rfl
  have h2a : 2 ^ a ≤ 2 ^ 17 := Nat.pow_le_pow_right (by norm_num) ha
  exact C95_example hpp a (by omega) hcirc hsat hqap hk hγ hδ gen1 gen2 r s tape rng
    (by rw [hw, hw1, hw2]; norm_num at h2a ⊢; omega) hn (by omega) order horder σ hσ

/-! ### Examples -/

/-- Example for C95: eight servers whose clients connect in the order 7, 2, 5, 1, 6, 4, 3 make the proof of `y = 9` over bytes. -/
example (tape : ClientTape (ZMod 17) (ZMod 17) (ZMod 17)) : ∃ (pk : ProvingKey (ZMod 17) (ZMod 17))
    (ins : Nat → ServerInput (ZMod 17) (ZMod 17) (ZMod 17)) (outs : Nat → ZMod 17 × ZMod 17 × ZMod 17) (pA pB pC : ZMod 17),
    BytesAlwaysYield localTransport (ByteNet.init (prodSession List.reverse 7 (fun j => [7, 2, 5, 1, 6, 4, 3].getD j 0)
        fun i => ((ins i).run pp17 false (7 + 1) i fun _ i j => i + j).packets).procs)
      (fun q => if q.val = 0 then outs 0 else outs ([7, 2, 5, 1, 6, 4, 3].getD (q.val - 1) 0)) ∧
    pp17.openProof false ((List.range (7 + 1)).map outs) = .ok (pA, pB, pC) ∧
    Verifies (LinearMap.mul (ZMod 17) (ZMod 17)) pk.vk [9] pA pB pC := by
  obtain ⟨pa, pb, pc, pk, h1, h2⟩ := C35_key_exists circuit17 (⟨2, 3, 4, 5, 6⟩ : Toxic (ZMod 17)) (1 : ZMod 17) (1 : ZMod 17)
  obtain ⟨ins, outs, pA, pB, pC, -, h4, h5, h6⟩ := C95_example (GT := ZMod 17) (pp17_eq true) 1 (by norm_num) circuit17 mats17_sat h1 h2
    (by decide) (by decide) 1 1 5 6 tape (fun _ i j => i + j) (by decide) (c := 7) rfl (by norm_num) List.reverse List.reverse_perm
    (fun j => [7, 2, 5, 1, 6, 4, 3].getD j 0) (by decide)
  exact ⟨pk, ins, outs, pA, pB, pC, h4, h5, h6 _⟩

/-- Example for C95: a king that reads a payload instead of the SynAck of peer 3, and a protocol that reads a Syn. -/
example : (∃ k', recvAcks [⟨3, some 0⟩] = .recv 1 .zero k' ∧ k' (ProtocolPacket.packet [7]).enc = .done (.error (.net (.protocol 3)))) ∧
    ∃ k', (Proc.recv 1 .two fun b => .done (.ok b)).packets = .recv 1 .two k' ∧ k' ProtocolPacket.syn.enc = .done (.error (.net .generic)) := by
  obtain ⟨h1, k', h2, -, h3, -⟩ := C95_confusion [7] (by norm_num) ⟨3, some 0⟩ [] 0 rfl 1 .two fun b => .done (.ok b)
  exact ⟨h1, k', h2, h3⟩

/-- Example for C95: and eight servers that prove the knowledge of a root, over the curve. -/
example (x : Bn254Fr) (g1 : Bn254G1) (g2 : Bn254G2) (tape : ClientTape Bn254Fr Bn254G1 Bn254G2) :
    ∃ (pp : PSS Bn254Fr) (pk : ProvingKey Bn254G1 Bn254G2) (ins : Nat → ServerInput Bn254Fr Bn254G1 Bn254G2)
      (outs : Nat → Bn254G1 × Bn254G2 × Bn254G1),
      pp.deal false pp.n (squareMats Bn254Fr) [1, x * x, x] pk g1 g2 5 6 tape = .ok ((List.range (7 + 1)).map ins) ∧
      BytesAlwaysYield localTransport (ByteNet.init (prodSession List.reverse 7 (fun j => [7, 2, 5, 1, 6, 4, 3].getD j 0)
          fun i => ((ins i).run pp false (7 + 1) i fun _ i j => i + j).packets).procs)
        (fun q => if q.val = 0 then outs 0 else outs ([7, 2, 5, 1, 6, 4, 3].getD (q.val - 1) 0)) := by
  obtain ⟨pp, hpp⟩ := (C80_bn254_parameters.2.1 true 1).2 (by norm_num)
  obtain ⟨a, dom, dom2, hc, -, hab⟩ := circuit_of_size (b := 1) (square_r1cs x).1 (by show 1 + 2 ≤ 2 ^ 27; norm_num) (by decide) (by decide)
    (by show 2 ^ 1 < 2 * (1 + 2); norm_num)
  obtain rfl : a = 1 := by
    have : a + 1 = 2 := by rw [hab]; show Nat.clog 2 3 = 2; decide +kernel
    omega
  obtain ⟨pa, pb, pc, pk, h1, h2⟩ := C35_key_exists hc (⟨2, 3, 1, 1, 6⟩ : Toxic Bn254Fr) g1 g2
  obtain ⟨ins, outs, -, -, -, h3, h4, -⟩ := C95_bn254 (GT := Bn254Fr) hpp 1 (by norm_num) hc (square_r1cs x).2 h1 h2 one_ne_zero one_ne_zero g1 g2 5 6
    tape (fun _ i j => i + j) (c := 7) rfl List.reverse List.reverse_perm (fun j => [7, 2, 5, 1, 6, 4, 3].getD j 0) (by decide)
  exact ⟨pp, pk, ins, outs, h3, h4⟩

end ZkSaas.Properties
