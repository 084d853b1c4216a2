import Verif.Lemmas.InFlight
import Verif.Properties.Proof

/-!
# C77: load and locking of the streams

The model gives every stream an unbounded buffer and no lock. In the code a stream is one connection behind one `TokioMutex`
that both directions share (`mpc-net/src/multi.rs`), and a receive keeps the lock while it waits. The theorems here say that
the difference cannot be observed: no lock is ever contended, and one message per stream is all that is ever in transit.
-/

namespace ZkSaas

open Spec

variable {F : Type} [Field F] [DecidableEq F] {α β γ δ : Type} {n : Nat}

theorem Alt.tryJoin3 {t u : Turns} {p : Proc α} {q : Proc β} {w : Proc γ} {k : α → β → γ → Proc δ}
    (hp : Alt (only .zero) t p t) (hq : Alt (only .one) t q t) (hw : Alt (only .two) t w t)
    (hk : ∀ x y z, Alt (fun _ => True) t (k x y z) u) : Alt (fun _ => True) t (ZkSaas.tryJoin3 p q w k) u := by
  refine .par (S1 := fun s => s = .zero ∨ s = .one) (S2 := only .two)
    (by rintro s (h | h) h' <;> rw [h] at h' <;> cases h') (fun _ _ => trivial) (fun _ _ => trivial) ?_ hw
    (fun _ _ _ _ _ => rfl) fun _ _ => hk _ _ _
  exact .par (S1 := only .zero) (S2 := only .one) (by intro s h h'; rw [h] at h'; cases h') (fun _ h => .inl h)
    (fun _ h => .inr h) hp hq (fun _ _ _ _ _ => rfl) fun _ _ => Alt.done _ _ _

section protocols
variable [FixedWire F]

theorem PSS.fft2WithRearrange_alt (pp : PSS F) (dbg : Bool) (me : Nat) (px : List F) (mask : FftMask F) (rearrange : Bool)
    (g gen : F) (sid : Sid) (rng : Nat → Nat → F) :
    Alt (only sid) (idle me) (pp.fft2WithRearrange dbg n me px mask rearrange g gen sid rng) (idle me) :=
  round_alt sid _ _ _ _ _ fun _ => Alt.done _ _ _

theorem PSS.dFft_alt (pp : PSS F) (dbg : Bool) (me : Nat) (px : List F) (mask : FftMask F) (rearrange : Bool)
    (dom : Domain F) (sid : Sid) (rng : Nat → Nat → F) :
    Alt (only sid) (idle me) (pp.dFft dbg n me px mask rearrange dom sid rng) (idle me) :=
  (Alt.done _ _ _).bind fun _ => (Alt.done _ _ _).bind fun _ => PSS.fft2WithRearrange_alt _ _ _ _ _ _ _ _ _ _

theorem PSS.dIfft_alt (pp : PSS F) (dbg : Bool) (me : Nat) (px : List F) (mask : FftMask F) (rearrange : Bool)
    (dom : Domain F) (g : F) (sid : Sid) (rng : Nat → Nat → F) :
    Alt (only sid) (idle me) (pp.dIfft dbg n me px mask rearrange dom g sid rng) (idle me) :=
  (Alt.done _ _ _).bind fun _ => (Alt.done _ _ _).bind fun _ => PSS.fft2WithRearrange_alt _ _ _ _ _ _ _ _ _ _

omit [FixedWire F] in
theorem PSS.degRed_alt {T : Type} [AddCommGroup T] [Module F T] [DecidableEq T] [FixedWire T] (pp : PSS F) (dbg : Bool)
    (me : Nat) (x : List T) (mask : DegRedMask T) (sid : Sid) (rng : Nat → Nat → T) :
    Alt (only sid) (idle me) (pp.degRed dbg n me x mask sid rng) (idle me) :=
  (Alt.done _ _ _).bind fun _ => (Alt.done _ _ _).bind fun _ => round_alt sid _ _ _ _ _ fun _ => Alt.done _ _ _

theorem PSS.dPp_alt (pp : PSS F) (dbg : Bool) (me : Nat) (num den : List F) (mask : DegRedMask F) (sid : Sid)
    (rng rng' : Nat → Nat → F) : Alt (only sid) (idle me) (pp.dPp dbg n me num den mask sid rng rng') (idle me) :=
  (Alt.done _ _ _).bind fun _ => round_alt sid _ _ _ _ _ fun _ => PSS.degRed_alt _ _ _ _ _ _ _

end protocols

theorem PSS.dMsm_alt {G : Type} [AddCommGroup G] [Module F G] [DecidableEq G] [FixedWire G] (pp : PSS F) (dbg : Bool)
    (me : Nat) (bases : List G) (scalars : List F) (mask : MsmMask G) (sid : Sid) :
    Alt (only sid) (idle me) (pp.dMsm dbg n me bases scalars mask sid) (idle me) :=
  (Alt.done _ _ _).bind fun _ => (Alt.done _ _ _).bind fun _ => round_alt sid _ _ _ _ _ fun _ => Alt.done _ _ _

section qap
variable [FftField F] [FixedWire F]

theorem PSS.circomH_alt (pp : PSS F) (dbg : Bool) (me : Nat) (q : PackedQAPShare F) (mask : Nat → FftMask F)
    (dmask : DegRedMask F) (rng : Nat → Nat → Nat → F) :
    Alt (fun _ => True) (idle me) (pp.circomH dbg n me q mask dmask rng) (idle me) :=
  (Alt.done _ _ _).bind fun _ => .tryJoin3 (PSS.dIfft_alt _ _ _ _ _ _ _ _ _ _) (PSS.dIfft_alt _ _ _ _ _ _ _ _ _ _)
    (PSS.dIfft_alt _ _ _ _ _ _ _ _ _ _) fun _ _ _ => .tryJoin3 (PSS.dFft_alt _ _ _ _ _ _ _ _ _)
    (PSS.dFft_alt _ _ _ _ _ _ _ _ _) (PSS.dFft_alt _ _ _ _ _ _ _ _ _) fun _ _ _ =>
      (PSS.degRed_alt _ _ _ _ _ _ _).mono fun _ _ => trivial

theorem PSS.libsnarkH_alt (pp : PSS F) (dbg : Bool) (me : Nat) (q : PackedQAPShare F) (mask : Nat → FftMask F)
    (rng : Nat → Nat → Nat → F) : Alt (fun _ => True) (idle me) (pp.libsnarkH dbg n me q mask rng) (idle me) :=
  (Alt.done _ _ _).bind fun _ => .tryJoin3 (PSS.dIfft_alt _ _ _ _ _ _ _ _ _ _) (PSS.dIfft_alt _ _ _ _ _ _ _ _ _ _)
    (PSS.dIfft_alt _ _ _ _ _ _ _ _ _ _) fun _ _ _ => .tryJoin3 (PSS.dFft_alt _ _ _ _ _ _ _ _ _)
    (PSS.dFft_alt _ _ _ _ _ _ _ _ _) (PSS.dFft_alt _ _ _ _ _ _ _ _ _) fun _ _ _ => (Alt.done _ _ _).bind fun _ =>
      (PSS.dIfft_alt _ _ _ _ _ _ _ _ _ _).mono fun _ _ => trivial

end qap

section session
variable {G : Type} [AddCommGroup G] [Module F G] [DecidableEq G] [FixedWire G]

theorem PSS.proveA_alt (pp : PSS F) (dbg : Bool) (me : Nat) (L N AG1 : G) (S : List G) (a : List F) (r : F) (mask : MsmMask G)
    (sid : Sid) : Alt (only sid) (idle me) (pp.proveA dbg n me L N AG1 S a r mask sid) (idle me) :=
  (PSS.dMsm_alt _ _ _ _ _ _ _).bind fun _ => Alt.done _ _ _

theorem PSS.proveBInG1_alt (pp : PSS F) (dbg : Bool) (me : Nat) (Z K BG : G) (H : List G) (a : List F) (s r : F)
    (mask : MsmMask G) (sid : Sid) : Alt (only sid) (idle me) (pp.proveBInG1 dbg n me Z K BG H a s r mask sid) (idle me) := by
  unfold PSS.proveBInG1
  split
  · exact Alt.done _ _ _
  · exact (PSS.dMsm_alt _ _ _ _ _ _ _).bind fun _ => Alt.done _ _ _

theorem PSS.proveC_alt (pp : PSS F) (dbg : Bool) (me : Nat) (A B : G) (s r : F) (M : G) (W U : List G) (ax h : List F)
    (m0 m1 : MsmMask G) : Alt (fun _ => True) (idle me) (pp.proveC dbg n me A B s r M W U ax h m0 m1) (idle me) :=
  .par (S1 := only .zero) (S2 := only .one) (by intro s h h'; rw [h] at h'; cases h') (fun _ _ => trivial) (fun _ _ => trivial)
    (PSS.dMsm_alt _ _ _ _ _ _ _) (PSS.dMsm_alt _ _ _ _ _ _ _) (fun _ _ _ _ _ => rfl) fun _ _ => Alt.done _ _ _

variable [FftField F] [FixedWire F] {G1 G2 : Type} [AddCommGroup G1] [Module F G1] [DecidableEq G1] [FixedWire G1]
  [AddCommGroup G2] [Module F G2] [DecidableEq G2] [FixedWire G2]

theorem ServerInput.run_alt (x : ServerInput F G1 G2) (pp : PSS F) (dbg : Bool) (me : Nat) (rng : Nat → Nat → Nat → F) :
    Alt (fun _ => True) (idle me) (x.run pp dbg n me rng) (idle me) := by
  unfold ServerInput.run
  exact (PSS.circomH_alt _ _ _ _ _ _ _).bind fun _ => ((PSS.proveA_alt _ _ _ _ _ _ _ _ _ _ _).mono fun _ _ => trivial).bind fun _ =>
    ((PSS.proveBInG1_alt _ _ _ _ _ _ _ _ _ _ _ _).mono fun _ _ => trivial).bind fun _ =>
    ((PSS.proveA_alt _ _ _ _ _ _ _ _ _ _ _).mono fun _ _ => trivial).bind fun _ =>
    (PSS.proveC_alt _ _ _ _ _ _ _ _ _ _ _ _ _ _).bind fun _ => Alt.done _ _ _

end session

/-! ### No contention -/

theorem Proc.WF.pending {S : Sid → Prop} {p : Proc α} {d : Nat} {x : Sid} (h : p.WF S) (hp : Pending d x p) : S x := by
  induction hp generalizing S with
  | send | recv | gather => cases h; assumption
  | parL q k _ ih =>
    cases h with
    | par hdis h1 h2 hp hq hk => exact h1 _ (ih hp)
  | parR p k _ ih =>
    cases h with
    | par hdis h1 h2 hp hq hk => exact h2 _ (ih hq)

theorem Proc.WF.not_contended {S : Sid → Prop} {p : Proc α} (h : p.WF S) : ¬ Contended p := by
  intro hc
  induction hc generalizing S with
  | here k d x hp hq =>
    cases h with
    | par hdis h1 h2 hp' hq' hk => exact hdis x (hp'.pending hp) (hq'.pending hq)
  | parL q k _ ih =>
    cases h with
    | par hdis h1 h2 hp hq hk => exact ih hp
  | parR p k _ ih =>
    cases h with
    | par hdis h1 h2 hp hq hk => exact ih hq

theorem neverContended_of_wf {ps : Fin n → Proc α} (h : ∀ i, (ps i).WF fun _ => True) : NeverContended (Net.init ps) := by
  have key : ∀ {k : Nat} {c c' : Net n α}, GSteps Any k c c' → (∀ i, (c.procs i).WF fun _ => True) →
      ∀ i, (c'.procs i).WF fun _ => True := by
    intro k c c' hs
    induction hs with
    | refl => exact fun h => h
    | step h1 _ ih =>
      intro hw
      refine ih ?_
      obtain ⟨procs, Q, Q', i, a, p', ha, hstep, hq⟩ := h1
      intro j
      by_cases e : j = i
      · subst e
        simp only [Function.update_self]
        exact hstep.wf (hw j)
      · simp only [Function.update_of_ne e]
        exact hw j
  exact fun k c' hs i => (key hs h i).not_contended

namespace Properties

section protocols
variable [FixedWire F]

/-- **C77** `d_fft`: under every schedule and for every input at most one message is in transit per stream and pair of parties, and
if it yields a result on unbounded buffers it does so on buffers of one message. -/
theorem C77_d_fft (pp : PSS F) (dbg : Bool) (px : Nat → List F) (masks : Nat → FftMask F) (rearrange : Bool) (dom : Domain F)
    (sid : Sid) (rng : Nat → Nat → F) :
    let c := Net.init fun i : Fin n => pp.dFft dbg n i (px i) (masks i) rearrange dom sid rng
    OneInFlight c ∧ NeverContended c ∧ ∀ rs, AlwaysYields c rs → ∀ cap, 0 < cap → AlwaysYieldsBuffered cap c rs := by
  have h := paced_init (n := n) fun i : Fin n => (PSS.dFft_alt (n := n) pp dbg i (px i) (masks i) rearrange dom sid rng).mono fun _ _ => trivial
  exact ⟨h.one, neverContended_of_wf fun i => (PSS.dFft_wf _ (by have := i.2; omega) _ _ _ _ _ _ _).mono fun _ _ => trivial, fun rs hy cap hc => h.buffered hy hc⟩

/-- **C77** `d_ifft`. -/
theorem C77_d_ifft (pp : PSS F) (dbg : Bool) (px : Nat → List F) (masks : Nat → FftMask F) (rearrange : Bool) (dom : Domain F)
    (g : F) (sid : Sid) (rng : Nat → Nat → F) :
    let c := Net.init fun i : Fin n => pp.dIfft dbg n i (px i) (masks i) rearrange dom g sid rng
    OneInFlight c ∧ NeverContended c ∧ ∀ rs, AlwaysYields c rs → ∀ cap, 0 < cap → AlwaysYieldsBuffered cap c rs := by
  have h := paced_init (n := n) fun i : Fin n => (PSS.dIfft_alt (n := n) pp dbg i (px i) (masks i) rearrange dom g sid rng).mono fun _ _ => trivial
  exact ⟨h.one, neverContended_of_wf fun i => (PSS.dIfft_wf _ (by have := i.2; omega) _ _ _ _ _ _ _ _).mono fun _ _ => trivial, fun rs hy cap hc => h.buffered hy hc⟩

/-- **C77** `d_pp`, two rounds on the same stream. -/
theorem C77_d_pp (pp : PSS F) (dbg : Bool) (num den : Nat → List F) (masks : Nat → DegRedMask F) (sid : Sid)
    (rng rng' : Nat → Nat → F) :
    let c := Net.init fun i : Fin n => pp.dPp dbg n i (num i) (den i) (masks i) sid rng rng'
    OneInFlight c ∧ NeverContended c ∧ ∀ rs, AlwaysYields c rs → ∀ cap, 0 < cap → AlwaysYieldsBuffered cap c rs := by
  have h := paced_init (n := n) fun i : Fin n => (PSS.dPp_alt (n := n) pp dbg i (num i) (den i) (masks i) sid rng rng').mono fun _ _ => trivial
  exact ⟨h.one, neverContended_of_wf fun i => (PSS.dPp_wf _ (by have := i.2; omega) _ _ _ _ _ _ _).mono fun _ _ => trivial, fun rs hy cap hc => h.buffered hy hc⟩

end protocols

/-- **C77** `deg_red`. -/
theorem C77_deg_red {T : Type} [AddCommGroup T] [Module F T] [DecidableEq T] [FixedWire T] (pp : PSS F) (dbg : Bool)
    (x : Nat → List T) (masks : Nat → DegRedMask T) (sid : Sid) (rng : Nat → Nat → T) :
    let c := Net.init fun i : Fin n => pp.degRed dbg n i (x i) (masks i) sid rng
    OneInFlight c ∧ NeverContended c ∧ ∀ rs, AlwaysYields c rs → ∀ cap, 0 < cap → AlwaysYieldsBuffered cap c rs := by
  have h := paced_init (n := n) fun i : Fin n => (PSS.degRed_alt (n := n) pp dbg i (x i) (masks i) sid rng).mono fun _ _ => trivial
  exact ⟨h.one, neverContended_of_wf fun i => (PSS.degRed_wf _ (by have := i.2; omega) _ _ _ _ _).mono fun _ _ => trivial, fun rs hy cap hc => h.buffered hy hc⟩

/-- **C77** `d_msm`. -/
theorem C77_d_msm {G : Type} [AddCommGroup G] [Module F G] [DecidableEq G] [FixedWire G] (pp : PSS F) (dbg : Bool)
    (bases : Nat → List G) (scalars : Nat → List F) (masks : Nat → MsmMask G) (sid : Sid) :
    let c := Net.init fun i : Fin n => pp.dMsm dbg n i (bases i) (scalars i) (masks i) sid
    OneInFlight c ∧ NeverContended c ∧ ∀ rs, AlwaysYields c rs → ∀ cap, 0 < cap → AlwaysYieldsBuffered cap c rs := by
  have h := paced_init (n := n) fun i : Fin n => (PSS.dMsm_alt (n := n) pp dbg i (bases i) (scalars i) (masks i) sid).mono fun _ _ => trivial
  exact ⟨h.one, neverContended_of_wf fun i => (PSS.dMsm_wf _ (by have := i.2; omega) _ _ _ _ _).mono fun _ _ => trivial, fun rs hy cap hc => h.buffered hy hc⟩

section qap
variable [FftField F] [FixedWire F]

/-- **C77** `circom_h`: at most one message per stream and pair of parties, no two of the three concurrent transforms ever
compete for a stream, and if it yields a result on unbounded buffers it does so on buffers of one message. -/
theorem C77_circom_h (pp : PSS F) (dbg : Bool) (q : Nat → PackedQAPShare F) (masks : Nat → Nat → FftMask F)
    (dmask : Nat → DegRedMask F) (rng : Nat → Nat → Nat → F) :
    let c := Net.init fun i : Fin n => pp.circomH dbg n i (q i) (masks i) (dmask i) rng
    OneInFlight c ∧ NeverContended c ∧ ∀ rs, AlwaysYields c rs → ∀ cap, 0 < cap → AlwaysYieldsBuffered cap c rs := by
  have h := paced_init (n := n) fun i : Fin n => PSS.circomH_alt (n := n) pp dbg i (q i) (masks i) (dmask i) rng
  exact ⟨h.one, neverContended_of_wf fun i => circomH_wf _ (by have := i.2; omega) _ _ _ _ _, fun rs hy cap hc => h.buffered hy hc⟩

/-- **C77** `libsnark_h`. -/
theorem C77_libsnark_h (pp : PSS F) (dbg : Bool) (q : Nat → PackedQAPShare F) (masks : Nat → Nat → FftMask F)
    (rng : Nat → Nat → Nat → F) :
    let c := Net.init fun i : Fin n => pp.libsnarkH dbg n i (q i) (masks i) rng
    OneInFlight c ∧ NeverContended c ∧ ∀ rs, AlwaysYields c rs → ∀ cap, 0 < cap → AlwaysYieldsBuffered cap c rs := by
  have h := paced_init (n := n) fun i : Fin n => PSS.libsnarkH_alt (n := n) pp dbg i (q i) (masks i) rng
  exact ⟨h.one, neverContended_of_wf fun i => libsnarkH_wf _ (by have := i.2; omega) _ _ _ _, fun rs hy cap hc => h.buffered hy hc⟩

variable {G1 G2 GT : Type} [AddCommGroup G1] [Module F G1] [DecidableEq G1] [FixedWire G1]
  [AddCommGroup G2] [Module F G2] [DecidableEq G2] [FixedWire G2] [AddCommGroup GT] [Module F GT]

/-- **C77** A whole session, whatever the servers were dealt: at most one message per stream and pair of parties, no contention. -/
theorem C77_session (pp : PSS F) (dbg : Bool) (ins : Nat → ServerInput F G1 G2) (rng : Nat → Nat → Nat → F) :
    let c := Net.init fun i : Fin n => (ins i).run pp dbg n i rng
    OneInFlight c ∧ NeverContended c ∧ ∀ rs, AlwaysYields c rs → ∀ cap, 0 < cap → AlwaysYieldsBuffered cap c rs := by
  have h := paced_init (n := n) fun i : Fin n => ServerInput.run_alt (n := n) (ins i) pp dbg i rng
  exact ⟨h.one, neverContended_of_wf fun i => dsha256_wf _ (by have := i.2; omega) _ _ _ _ _ _ _ _ _ _ _ _,
    fun rs hy cap hc => h.buffered hy hc⟩

/-- **C77** A proof is made and verifies on streams that hold one message each. -/
theorem C77_proof_verifies {dbg₀ : Bool} {b : Nat} {pp : PSS F} (hpp : PSS.new dbg₀ (2 ^ b) = .ok pp) (dbg : Bool) (a : Nat) (ha : a < 64)
    {mats : ConstraintMatrices F} {z : List F} {dom dom2 : Domain F} (hcirc : Circuit a b mats z dom dom2)
    (hsat : Satisfies mats.numConstraints mats.a mats.b mats.c z) {pa pb pc : Nat → Polynomial F}
    (hqap : IsQap mats z.length dom.groupGen (2 ^ (a + b)) pa pb pc) {t : Toxic F} {g1 : G1} {g2 : G2} {pk : ProvingKey G1 G2}
    (hk : IsCircomKey t g1 g2 z.length mats.numInstanceVariables (2 ^ (a + b)) dom2.groupGen pa pb pc pk) (hγ : t.gamma ≠ 0)
    (hδ : t.delta ≠ 0) (hal : dbg = true → KeyAligned (2 ^ b) pk) (gen1 : G1) (gen2 : G2) (r s : F) (tape : ClientTape F G1 G2)
    (hr0 : ∀ rs, pp.pack dbg (List.replicate (2 ^ b) r) tape.r = .ok rs → (∀ x ∈ rs, x ≠ 0) ∨ ∀ x ∈ rs, x = 0)
    (rng : Nat → Nat → Nat → F) :
    ∃ (ins : Nat → ServerInput F G1 G2) (outs : Nat → G1 × G2 × G1) (pA : G1) (pB : G2) (pC : G1),
      pp.deal dbg (2 ^ b) mats z pk gen1 gen2 r s tape = .ok ((List.range (4 * 2 ^ b)).map ins) ∧
      AlwaysYieldsBuffered 1 (Net.init fun i : Fin (4 * 2 ^ b) => (ins i).run pp dbg (4 * 2 ^ b) i rng) (fun i => outs i) ∧
      pp.openProof dbg ((List.range (4 * 2 ^ b)).map outs) = .ok (pA, pB, pC) ∧
      ∀ e : G1 →ₗ[F] G2 →ₗ[F] GT, Verifies e pk.vk ((z.take mats.numInstanceVariables).drop 1) pA pB pC := by
  obtain ⟨ins, outs, pA, pB, pC, h1, h2, h3, h4⟩ :=
    C35_proof_verifies (GT := GT) hpp dbg a ha hcirc hsat hqap hk hγ hδ hal gen1 gen2 r s tape hr0 rng
  exact ⟨ins, outs, pA, pB, pC, h1, (C77_session pp dbg ins rng).2.2 _ h2 1 one_pos, h3, h4⟩

end qap

/-! ### Where it stops -/

/-- `N` star rounds of two parties: the client's message is `b`, the king's answer `r`. -/
def rounds (b r : Bytes) (sid : Sid) : Nat → Nat → Proc Unit
  | 0, _ => .done (.ok ())
  | N + 1, me => (clientSendOrKingReceive 2 me b sid).bind fun _ =>
    (clientReceiveOrKingSend 2 me (if me = 0 then some [r, r] else none) sid).bind fun _ => rounds b r sid N me

theorem rounds_king (b r : Bytes) (sid : Sid) (N : Nat) : ∃ k, rounds b r sid (N + 1) 0 = .gather sid 2 b (fun _ => none) k ∧
    k [(0, b)] = .send 1 sid r (rounds b r sid N 0) := by
  refine ⟨_, rfl, ?_⟩
  simp [kingFinish, clientReceiveOrKingSend, List.range_succ, Proc.bind, Except.map, kingSendLoop, rd, bind, pure, Except.pure]

theorem rounds_client (b r : Bytes) (sid : Sid) (N : Nat) : rounds b r sid (N + 1) 1 =
    .send 0 sid b (.recv 0 sid fun _ => rounds b r sid N 1) := rfl

/-- **C77** With time-outs no buffer suffices: in every round the king can give up on the client before its message arrives, and
the messages of all rounds pile up. -/
theorem C77_timeouts (b r : Bytes) (sid : Sid) (N : Nat) :
    ∃ k c', GSteps Any k (Net.init fun i : Fin 2 => rounds b r sid N i) c' ∧ c'.queues (1, 0, sid) = List.replicate N b := by
  have key : ∀ N (Q : Queues), Q (0, 1, sid) = [] → ∃ k c', GSteps Any k ⟨fun i : Fin 2 => rounds b r sid N i, Q⟩ c' ∧
      c'.queues (1, 0, sid) = Q (1, 0, sid) ++ List.replicate N b := by
    intro N
    induction N with
    | zero => intro Q _; exact ⟨0, _, .refl _, by simp⟩
    | succ N ih =>
      intro Q hQ
      obtain ⟨kk, e0, e1⟩ := rounds_king b r sid N
      have hne : ((0, 1, sid) : Nat × Nat × Sid) ≠ (1, 0, sid) := by simp
      let Q1 := Function.update Q (1, 0, sid) (Q (1, 0, sid) ++ [b])
      let Q2 := Function.update Q1 (0, 1, sid) (Q1 (0, 1, sid) ++ [r])
      have hQ1 : Q1 (0, 1, sid) = [] := by simp only [Q1, Function.update_of_ne hne, hQ]
      have hQ2 : Q2 (0, 1, sid) = [r] := by simp only [Q2, Function.update_self, hQ1, List.nil_append]
      obtain ⟨k, c', h, e⟩ := ih (Function.update Q2 (0, 1, sid) []) (by simp)
      refine ⟨k + 4, c', .step (.mk _ Q Q1 1 (.send 0 sid b) (.recv 0 sid fun _ => rounds b r sid N 1) trivial
        (by rw [show ((1 : Fin 2) : Nat) = 1 from rfl, rounds_client]; exact .send _ _ _ _) rfl)
        (.step (.mk _ Q1 Q1 0 .fault (.send 1 sid r (rounds b r sid N 0)) trivial ?_ rfl)
        (.step (.mk _ Q1 Q2 0 (.send 1 sid r) (rounds b r sid N 0) trivial ?_ rfl)
        (.step (.mk _ Q2 (Function.update Q2 (0, 1, sid) []) 1 (.recv 0 sid r) (rounds b r sid N 1) trivial ?_ ?_) ?_))), ?_⟩
      · rw [Function.update_of_ne (by decide), show ((0 : Fin 2) : Nat) = 0 from rfl, e0, ← e1]
        refine .gatherExpire _ _ _ _ _ _ ⟨by simp, fun i b' => ?_⟩
        simp
      · rw [Function.update_self]; exact .send _ _ _ _
      · rw [Function.update_of_ne (by decide), Function.update_of_ne (by decide), Function.update_self]
        exact .recv (α := Unit) 0 sid r fun _ => rounds b r sid N 1
      · show qstep 1 (.recv 0 sid r) Q2 = _
        simp only [qstep, hQ2, if_true]
      · convert h using 2
        funext i
        fin_cases i <;> simp
      · rw [e, Function.update_of_ne hne.symm]
        simp only [Q2, Q1, Function.update_of_ne hne.symm, Function.update_self, List.append_assoc]
        rw [List.replicate_succ]; rfl
  obtain ⟨k, c', h, e⟩ := key N (fun _ => []) rfl
  exact ⟨k, c', h, by simpa using e⟩

/-- **C77** Every use of a stream is counted by `Pending`, on every network. -/
theorem C77_pending {p p' : Proc α} {d : Nat} {x : Sid} {m : Bytes} :
    LStep p (.send d x m) p' ∨ LStep p (.recv d x m) p' → Pending d x p := by
  have h1 : ∀ {α : Type} {p p' : Proc α} {a : Act}, LStep p a p' → a = .send d x m ∨ a = .recv d x m → Pending d x p := by
    intro α p p' a h
    induction h with
    | send => rintro (e | e) <;> cases e; exact .send _ _
    | recv => rintro (e | e) <;> cases e; exact .recv _
    | gatherRecv sid n own got k i b h1 h2 h3 => rintro (e | e) <;> cases e; exact .gather _ h1 h2 h3
    | parL p p' q k a _ ih => exact fun e => .parL _ _ (ih e)
    | parR p q q' k a _ ih => exact fun e => .parR _ _ (ih e)
    | _ => rintro (e | e) <;> cases e
  exact fun h => h.elim (fun h => h1 h (.inl rfl)) fun h => h1 h (.inr rfl)

/-- **C77** `C::compute` has to use two streams: were its two sums computed on the same one, every server would compete with itself
for the lock from the start. -/
theorem C77_same_stream {G : Type} [AddCommGroup G] [Module F G] [DecidableEq G] [FixedWire G] (pp : PSS F) (dbg : Bool)
    (me : Nat) (h0 : me ≠ 0) (W U : List G) (ax h : List F) (hW : W.length = ax.length) (hU : U.length = h.length)
    (m0 m1 : MsmMask G) (sid : Sid) (k : G → G → Proc α) :
    Contended (.par (pp.dMsm dbg n me W ax m0 sid) (pp.dMsm dbg n me U h m1 sid) k) := by
  have key : ∀ (B : List G) (a : List F) (m : MsmMask G), B.length = a.length → Pending 0 sid (pp.dMsm dbg n me B a m sid) := by
    intro B a m e
    have hd : debugAssert dbg (B.length == a.length) = .ok () := by
      rw [e, beq_self_eq_true]
      cases dbg <;> rfl
    have hm := msm_eq (F := F) e rfl
    unfold PSS.dMsm
    rw [hd, hm]
    show Pending 0 sid (Proc.bind (clientSendOrKingReceiveSer n me _ sid pp.t) _)
    unfold clientSendOrKingReceiveSer clientSendOrKingReceive
    rw [if_neg h0]
    exact .send _ _
  exact .here k 0 sid (key _ _ _ hW) (key _ _ _ hU)

/-! ### Examples -/

/-- The proof of `y = 9` on buffers of one message. -/
example (tape : ClientTape (ZMod 17) (ZMod 17) (ZMod 17)) (ht : tape.r = fun _ => 5) : ∃ (pk : ProvingKey (ZMod 17) (ZMod 17))
    (ins : Nat → ServerInput (ZMod 17) (ZMod 17) (ZMod 17)) (outs : Nat → ZMod 17 × ZMod 17 × ZMod 17) (pA pB pC : ZMod 17),
    pp17.deal false (2 ^ 1) mats17 z17 pk 1 1 5 6 tape = .ok ((List.range (4 * 2 ^ 1)).map ins) ∧
    AlwaysYieldsBuffered 1 (Net.init fun i : Fin (4 * 2 ^ 1) => (ins i).run pp17 false (4 * 2 ^ 1) i fun _ i j => i + j)
      (fun i => outs i) ∧
    pp17.openProof false ((List.range (4 * 2 ^ 1)).map outs) = .ok (pA, pB, pC) ∧
    Verifies (LinearMap.mul (ZMod 17) (ZMod 17)) pk.vk [9] pA pB pC := by
  obtain ⟨pa, pb, pc, pk, h1, h2⟩ := C35_key_exists circuit17 (⟨2, 3, 4, 5, 6⟩ : Toxic (ZMod 17)) (1 : ZMod 17) (1 : ZMod 17)
  obtain ⟨ins, outs, pA, pB, pC, h3, h4, h5, h6⟩ := C77_proof_verifies (GT := ZMod 17) (pp17_eq true) false 1 (by norm_num) circuit17
    mats17_sat h1 h2 (by decide) (by decide) (by intro h; cases h) 1 1 5 6 tape (by
      intro rs h
      rw [ht, show pp17.pack false (List.replicate (2 ^ 1) (5 : ZMod 17)) (fun _ => 5) = .ok (List.replicate 8 5) by decide +kernel] at h
      cases h
      exact .inl (by decide)) fun _ i j => i + j
  exact ⟨pk, ins, outs, pA, pB, pC, h3, h4, h5, h6 _⟩

/-- Two servers of `C::compute` on one stream. -/
example : Contended (.par (pp17.dMsm true 8 3 [(1 : ZMod 17), 2] [5, 6] MsmMask.zero .zero)
    (pp17.dMsm true 8 3 [(3 : ZMod 17)] [7] MsmMask.zero .zero) fun _ _ => .done (.ok ())) :=
  C77_same_stream (n := 8) pp17 true 3 (by decide) [(1 : ZMod 17), 2] [3] [5, 6] [7] (by simp) (by simp) MsmMask.zero MsmMask.zero .zero _

/-- Two parties that send each other two messages before they receive any. -/
def eager (me : Nat) : Proc Unit :=
  .send (1 - me) .zero [1] (.send (1 - me) .zero [2] (.recv (1 - me) .zero fun _ => .recv (1 - me) .zero fun _ => .done (.ok ())))

/-- The notion is not trivial: with buffers of one message `eager` deadlocks. -/
example (rs : Fin 2 → Unit) : ¬ AlwaysYieldsBuffered 1 (Net.init fun i : Fin 2 => eager i) rs := by
  rintro ⟨-, h⟩
  let p (me : Nat) : Proc Unit := .send (1 - me) .zero [2] (.recv (1 - me) .zero fun _ => .recv (1 - me) .zero fun _ => .done (.ok ()))
  let Q1 : Queues := Function.update (fun _ => []) (0, 1, .zero) [[1]]
  let Q2 : Queues := Function.update Q1 (1, 0, .zero) [[1]]
  have hs : BSteps 1 2 (Net.init fun i : Fin 2 => eager i) ⟨fun i => p i, Q2⟩ := by
    refine .step (.mk _ _ Q1 0 (.send 1 .zero [1]) (p 0) (by simp [Reliable]) (by rintro _ _ _ ⟨⟩; simp) (.send _ _ _ _) rfl)
      (.step (c' := ⟨fun i => p i, Q2⟩) ?_ (.refl _))
    have := BStep.mk (cap := 1) (Function.update (fun i : Fin 2 => eager i) 0 (p 0)) Q1 Q2 1 (.send 0 .zero [1]) (p 1) (by simp [Reliable])
      (by rintro _ _ _ ⟨⟩; simp [Q1]) (by rw [Function.update_of_ne (by decide)]; exact .send _ _ _ _) rfl
    convert this using 2
    funext i
    fin_cases i <;> simp
  have := h 2 _ hs ?_ 0
  · cases this
  · rintro ⟨c'', hb⟩
    obtain ⟨procs, Q, Q', i, a, p', ha, hroom, hstep, hq⟩ := hb
    fin_cases i <;> cases hstep
    · have := hroom _ _ _ rfl
      simp [Q2, Q1] at this
    · exact ha rfl
    · have := hroom _ _ _ rfl
      simp [Q2, Q1] at this
    · exact ha rfl

end Properties

end ZkSaas
