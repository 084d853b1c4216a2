import Verif.Lemmas.Builds
import Verif.Properties.Chance
import Verif.Properties.Malicious
import Verif.Spec.Builds

/-!
# C99: debug and release builds compute the same and work together
-/

set_option linter.unusedSectionVars false

namespace ZkSaas.Properties

open Spec Polynomial

variable {F : Type} [Field F] [DecidableEq F]

/-! ### Local computations -/

/-- Builds compared: `d` has its debug assertions on wherever `d'` has. -/
theorem stricter_of {d d' : Bool} (hd : d' ≤ d) : Stricter d d' := by
  intro h
  subst h
  exact Bool.eq_true_of_true_le hd

section
variable {T : Type} [AddCommGroup T] [Module F T] [DecidableEq T] (pp : PSS F) {d d' : Bool} (hd : d' ≤ d)
include hd

/-- **C99** The constructors of the parameters. -/
theorem C99_parameters [FftField F] : (∀ l, PanicsOrAgrees (PSS.new (F := F) d l) (PSS.new d' l)) ∧
    ∀ m, PanicsOrAgrees (ConstraintDomain.new (F := F) d m) (ConstraintDomain.new d' m) :=
  ⟨PSS.new_weaker (stricter_of hd), ConstraintDomain.new_weaker (stricter_of hd)⟩

/-- **C99** Sharing and reconstruction: on every input whatsoever a debug build panics or comes to the same result as a release build. -/
theorem C99_sharing : (∀ s : List T, PanicsOrAgrees (pp.detPack d s) (pp.detPack d' s)) ∧
    (∀ (s : List T) rng, PanicsOrAgrees (pp.pack d s rng) (pp.pack d' s rng)) ∧
    (∀ s : List T, PanicsOrAgrees (pp.unpack2 d s) (pp.unpack2 d' s)) ∧
    (∀ (s : List T) ps, PanicsOrAgrees (pp.lagrangeUnpack d s ps) (pp.lagrangeUnpack d' s ps)) ∧
    (∀ (s : List T) ps, PanicsOrAgrees (pp.unpackMissingShares d s ps) (pp.unpackMissingShares d' s ps)) ∧
    ∀ (s : List T) rng, PanicsOrAgrees (pp.packVec d s rng) (pp.packVec d' s rng) :=
  have h := stricter_of hd
  ⟨PSS.detPack_weaker h pp, PSS.pack_weaker h pp, PSS.unpack2_weaker h pp, PSS.lagrangeUnpack_weaker h pp, PSS.unpackMissingShares_weaker h pp,
    PSS.packVec_weaker h pp⟩

/-- **C99** The sampling of masks. -/
theorem C99_masks : (∀ r g gen m vals rngIn rngOut, PanicsOrAgrees (FftMask.sample pp d r g gen m vals rngIn rngOut)
      (FftMask.sample pp d' r g gen m vals rngIn rngOut)) ∧
    (∀ (gen : T) num vals rngIn rngOut, PanicsOrAgrees (DegRedMask.sample pp d gen num vals rngIn rngOut)
      (DegRedMask.sample pp d' gen num vals rngIn rngOut)) ∧
    ∀ (gen : T) vals rngIn rngOut, PanicsOrAgrees (MsmMask.sample pp d gen vals rngIn rngOut) (MsmMask.sample pp d' gen vals rngIn rngOut) :=
  have h := stricter_of hd
  ⟨FftMask.sample_weaker h pp, DegRedMask.sample_weaker h pp, MsmMask.sample_weaker h pp⟩

/-- **C99** The client: packing of the program, the key and the assignment, the whole dealing, the opening. -/
theorem C99_client [FftField F] {G1 G2 : Type} [AddCommGroup G1] [Module F G1] [DecidableEq G1] [AddCommGroup G2] [Module F G2] [DecidableEq G2] :
    (∀ (q : QAP F) ra rb rc, PanicsOrAgrees (q.pss pp d ra rb rc) (q.pss pp d' ra rb rc)) ∧
    (∀ pk : ProvingKey G1 G2, PanicsOrAgrees (packFromArkworksProvingKey d pk pp) (packFromArkworksProvingKey d' pk pp)) ∧
    (∀ x rng, PanicsOrAgrees (pp.packFromWitness d x rng) (pp.packFromWitness d' x rng)) ∧
    (∀ copies mats z (pk : ProvingKey G1 G2) gen1 gen2 r s t,
      PanicsOrAgrees (pp.deal d copies mats z pk gen1 gen2 r s t) (pp.deal d' copies mats z pk gen1 gen2 r s t)) ∧
    ∀ rs : List (G1 × G2 × G1), PanicsOrAgrees (pp.openProof d rs) (pp.openProof d' rs) :=
  have h := stricter_of hd
  ⟨QAP.pss_weaker h pp, packFromArkworksProvingKey_weaker h pp, PSS.packFromWitness_weaker h pp, PSS.deal_weaker h pp, PSS.openProof_weaker h pp⟩

end

/-! ### Protocols -/

theorem upToPanics_of_weak {n : Nat} {α : Type} (ok : Act → Prop) {c d : Net n α} (hq : c.queues = d.queues) (h : ∀ i, Weak (c.procs i) (d.procs i)) :
    UpToPanics ok c d := by
  refine ⟨hq, fun i => ?_, fun hp => ⟨?_, ?_⟩⟩
  · have hi := h i
    generalize c.procs i = p, d.procs i = q at hi
    cases hi with
    | panic => exact .inl .done
    | done => exact .inr fun _ => Iff.rfl
    | send => exact .inr fun _ => by constructor <;> intro h <;> cases h
    | recv => exact .inr fun _ => by constructor <;> intro h <;> cases h
    | gather => exact .inr fun _ => by constructor <;> intro h <;> cases h
    | par => exact .inr fun _ => by constructor <;> intro h <;> cases h
  · rintro ⟨e, he⟩
    rcases weak_forth hq h (.step he (.refl e)) with ⟨j, hj, c', i, h1, h2⟩ | ⟨d', hd, -⟩
    · obtain ⟨procs, Q⟩ := c
      obtain ⟨dp, dQ⟩ := d
      cases he with
      | mk _ _ Q' i a p' ha hl hqs =>
        obtain ⟨q', h3, -⟩ := (h i).forth (hp i) hl
        have hq : Q = dQ := hq
        subst hq
        exact ⟨_, .mk dp Q Q' i a q' ha h3 hqs⟩
    · cases hd with | step h _ => exact ⟨_, h⟩
  · rintro ⟨e, he⟩
    obtain ⟨procs, Q⟩ := d
    obtain ⟨cp, cQ⟩ := c
    cases he with
    | mk _ _ Q' i a p' ha hl hqs =>
      have hq : cQ = Q := hq
      subst hq
      rcases (h i).back hl with h0 | ⟨q', h3, -⟩
      · exact absurd h0 (hp i)
      · exact ⟨_, .mk cp cQ Q' i a q' ha h3 hqs⟩

theorem alike_of_weak {n : Nat} {α : Type} {ps qs : Fin n → Proc α} (h : ∀ i, Weak (ps i) (qs i)) : AlikeUntilPanic (Net.init ps) (Net.init qs) := by
  intro ok k
  refine ⟨fun d' hd => ?_, fun c' hc => ?_⟩
  · rcases weak_back (c := Net.init ps) (d := Net.init qs) rfl h hd with h1 | ⟨c', h1, h2, h3⟩
    · exact .inl h1
    · exact .inr ⟨c', h1, upToPanics_of_weak ok h2 h3⟩
  · rcases weak_forth (c := Net.init ps) (d := Net.init qs) rfl h hc with h1 | ⟨d', h1, h2, h3⟩
    · exact .inl h1
    · exact .inr ⟨d', h1, upToPanics_of_weak ok h2 h3⟩

/-- **C99** If a network always yields some results, so does every more lenient one. -/
theorem C99_yields {n : Nat} {α : Type} {c d : Net n α} (h : AlikeUntilPanic c d) {rs : Fin n → α} (hy : AlwaysYields c rs) : AlwaysYields d rs := by
  have nofail : ∀ {k c'}, GSteps Reliable k c c' → ∀ i, ¬ Panicked (c'.procs i) := by
    intro k c' hk i hf
    obtain ⟨⟨m, hm⟩, hfin⟩ := hy
    obtain ⟨k', t, hk', hst⟩ := exists_stuck (c := c') (m := m) fun k' c' h' => le_trans (by omega) (hm _ _ (hk.trans h'))
    have hf' := hk'.failing hf.failing
    rw [hfin _ _ (hk.trans hk') hst i] at hf'
    cases hf'
  have back : ∀ {k d'}, GSteps Reliable k d d' → ∃ c', GSteps Reliable k c c' ∧ UpToPanics Reliable c' d' := by
    intro k d' hd
    rcases (h Reliable k).1 d' hd with ⟨j, -, c', i, h1, h2⟩ | h1
    · exact absurd h2 (nofail h1 i)
    · exact h1
  refine ⟨?_, fun k d' hd hst i => ?_⟩
  · obtain ⟨m, hm⟩ := hy.1
    exact ⟨m, fun k d' hd => let ⟨c', hc, _⟩ := back hd; hm k c' hc⟩
  · obtain ⟨c', hc, hq, hr, hs⟩ := back hd
    rcases hr i with h1 | h1
    · exact absurd h1 (nofail hc i)
    · exact (h1 _).1 (hy.2 k c' hc (fun he => hst ((hs (nofail hc)).1 he)) i)

section
variable [FixedWire F] (pp : PSS F) {d d' : Nat → Bool} (hd : ∀ i, d' i ≤ d i) (n : Nat) (sid : Sid)
include hd

/-- **C99** The protocols of `dist-primitives`, for every assignment of builds to the parties, all inputs, all faults. -/
theorem C99_protocols {T : Type} [AddCommGroup T] [Module F T] [DecidableEq T] [FixedWire T] :
    (∀ (x : Nat → List F) (masks : Nat → FftMask F) r dom rng, AlikeUntilPanic (Net.init fun i : Fin n => pp.dFft (d i) n i (x i) (masks i) r dom sid rng)
      (Net.init fun i : Fin n => pp.dFft (d' i) n i (x i) (masks i) r dom sid rng)) ∧
    (∀ (x : Nat → List F) (masks : Nat → FftMask F) r dom g rng, AlikeUntilPanic (Net.init fun i : Fin n => pp.dIfft (d i) n i (x i) (masks i) r dom g sid rng)
      (Net.init fun i : Fin n => pp.dIfft (d' i) n i (x i) (masks i) r dom g sid rng)) ∧
    (∀ (x : Nat → List T) (masks : Nat → DegRedMask T) rng, AlikeUntilPanic (Net.init fun i : Fin n => pp.degRed (d i) n i (x i) (masks i) sid rng)
      (Net.init fun i : Fin n => pp.degRed (d' i) n i (x i) (masks i) sid rng)) ∧
    (∀ (bases : Nat → List T) (scalars : Nat → List F) (masks : Nat → MsmMask T), AlikeUntilPanic (Net.init fun i : Fin n => pp.dMsm (d i) n i (bases i) (scalars i) (masks i) sid)
      (Net.init fun i : Fin n => pp.dMsm (d' i) n i (bases i) (scalars i) (masks i) sid)) ∧
    ∀ (num den : Nat → List F) (masks : Nat → DegRedMask F) rng rng', AlikeUntilPanic (Net.init fun i : Fin n => pp.dPp (d i) n i (num i) (den i) (masks i) sid rng rng')
      (Net.init fun i : Fin n => pp.dPp (d' i) n i (num i) (den i) (masks i) sid rng rng') :=
  have h := fun i => stricter_of (hd i)
  ⟨fun _ _ _ _ _ => alike_of_weak fun i => PSS.dFft_weak (h i) _ _ _ _ _ _ _ _ _, fun _ _ _ _ _ _ => alike_of_weak fun i => PSS.dIfft_weak (h i) _ _ _ _ _ _ _ _ _ _,
    fun _ _ _ => alike_of_weak fun i => PSS.degRed_weak (h i) _ _ _ _ _ _ _, fun _ _ _ => alike_of_weak fun i => PSS.dMsm_weak (h i) _ _ _ _ _ _ _,
    fun _ _ _ _ _ => alike_of_weak fun i => PSS.dPp_weak (h i) _ _ _ _ _ _ _ _ _⟩

variable [FftField F] {G1 G2 : Type} [AddCommGroup G1] [Module F G1] [DecidableEq G1] [FixedWire G1] [AddCommGroup G2] [Module F G2] [DecidableEq G2]
  [FixedWire G2]

omit sid in
/-- **C99** The programs of the servers: `circom_h`, `libsnark_h` and the whole proof. -/
theorem C99_servers (rng : Nat → Nat → Nat → F) :
    (∀ (q : Nat → PackedQAPShare F) (masks : Nat → Nat → FftMask F) (dmasks : Nat → DegRedMask F), AlikeUntilPanic (Net.init fun i : Fin n => pp.circomH (d i) n i (q i) (masks i) (dmasks i) rng)
      (Net.init fun i : Fin n => pp.circomH (d' i) n i (q i) (masks i) (dmasks i) rng)) ∧
    (∀ (q : Nat → PackedQAPShare F) (masks : Nat → Nat → FftMask F), AlikeUntilPanic (Net.init fun i : Fin n => pp.libsnarkH (d i) n i (q i) (masks i) rng)
      (Net.init fun i : Fin n => pp.libsnarkH (d' i) n i (q i) (masks i) rng)) ∧
    ∀ ins : Nat → ServerInput F G1 G2, AlikeUntilPanic (Net.init fun i : Fin n => (ins i).run pp (d i) n i rng)
      (Net.init fun i : Fin n => (ins i).run pp (d' i) n i rng) :=
  have h := fun i => stricter_of (hd i)
  ⟨fun _ _ _ => alike_of_weak fun i => PSS.circomH_weak (h i) _ _ _ _ _ _ _, fun _ _ => alike_of_weak fun i => PSS.libsnarkH_weak (h i) _ _ _ _ _ _,
    fun _ => alike_of_weak fun i => ServerInput.run_weak (h i) _ _ _ _ _⟩

end

/-! ### Sessions -/

variable [FftField F] [FixedWire F] {G1 G2 GT : Type} [AddCommGroup G1] [Module F G1] [DecidableEq G1] [FixedWire G1] [AddCommGroup G2] [Module F G2]
  [DecidableEq G2] [FixedWire G2] [AddCommGroup GT] [Module F GT]

theorem eq_ok_of_agrees {α : Type} {r r' : Res α} (h : PanicsOrAgrees r r') {v : α} (hr : r = .ok v) : r' = .ok v := by
  rcases h with rfl | rfl
  · cases hr
  · exact hr

/-- **C99** A session that works with some builds works with all more lenient ones, for any number of servers and copies of `r`. -/
theorem C99_session (pp : PSS F) {client client' : Bool} (hc : client' ≤ client) {d d' : Nat → Bool} (hd : ∀ i, d' i ≤ d i) (n copies : Nat)
    (mats : ConstraintMatrices F) (z : List F) (pk : ProvingKey G1 G2) (gen1 : G1) (gen2 : G2) (r s : F) (tape : ClientTape F G1 G2)
    (rng : Nat → Nat → Nat → F) (h : MixedSessionWorks GT pp client d n copies mats z pk gen1 gen2 r s tape rng) :
    MixedSessionWorks GT pp client' d' n copies mats z pk gen1 gen2 r s tape rng := by
  obtain ⟨ins, outs, pA, pB, pC, h1, h2, h3, h4⟩ := h
  obtain ⟨-, -, -, k4, k5⟩ := C99_client (G1 := G1) (G2 := G2) pp hc
  exact ⟨ins, outs, pA, pB, pC, eq_ok_of_agrees (k4 ..) h1, C99_yields ((C99_servers pp hd n rng).2.2 ins) h2, eq_ok_of_agrees (k5 _) h3, h4⟩

/-- **C99** Whatever the builds of the client and of each server: a session works just when all or none of the shares of `r` are zero, for every satisfied
circuit and every key of a set-up. Only a client of a debug build needs the vectors of the key to be multiples of `l` long; the builds of the
servers do not matter. -/
theorem C99_works {dbg₀ : Bool} {b : Nat} {pp : PSS F} (hpp : PSS.new dbg₀ (2 ^ b) = .ok pp) (client : Bool) (servers : Nat → Bool) (a : Nat) (ha : a < 64)
    {mats : ConstraintMatrices F} {z : List F} {dom dom2 : Domain F} (hcirc : Circuit a b mats z dom dom2)
    (hsat : Satisfies mats.numConstraints mats.a mats.b mats.c z) {pa pb pc : Nat → F[X]}
    (hqap : IsQap mats z.length dom.groupGen (2 ^ (a + b)) pa pb pc) {t : Toxic F} {g1 : G1} {g2 : G2} {pk : ProvingKey G1 G2}
    (hk : IsCircomKey t g1 g2 z.length mats.numInstanceVariables (2 ^ (a + b)) dom2.groupGen pa pb pc pk) (hγ : t.gamma ≠ 0)
    (hδ : t.delta ≠ 0) (hal : client = true → KeyAligned (2 ^ b) pk) (gen1 : G1) (gen2 : G2) (r s : F) (tape : ClientTape F G1 G2)
    (rng : Nat → Nat → Nat → F) {rs : List F} (hrs : pp.pack client (List.replicate (2 ^ b) r) tape.r = .ok rs) :
    MixedSessionWorks GT pp client servers (4 * 2 ^ b) (2 ^ b) mats z pk gen1 gen2 r s tape rng ↔ (∀ x ∈ rs, x ≠ 0) ∨ ∀ x ∈ rs, x = 0 := by
  constructor
  · intro h
    refine (C97_works_iff (GT := GT) hpp false a ha hcirc hsat hqap hk hγ hδ (by simp) gen1 gen2 r s tape rng
      (eq_ok_of_agrees ((C99_sharing pp (d := client) (d' := false) (Bool.false_le _)).2.1 _ _) hrs)).1.1 ?_
    exact C99_session pp (client' := false) (d' := fun _ => false) (Bool.false_le _) (fun _ => Bool.false_le _) _ _ _ _ _ _ _ _ _ _ _ h
  · intro h
    refine C99_session pp (client := client) (d := fun _ => true) le_rfl (fun _ => Bool.le_true _) _ _ _ _ _ _ _ _ _ _ _ ?_
    obtain ⟨rs', er, lr, hr⟩ := pack_holdsValue hpp client r tape.r
    obtain ⟨ss, es, ls, hs⟩ := pack_holdsValue hpp client s tape.s
    rw [hrs] at er
    cases er
    obtain ⟨ins, outs, D, pA, pB, pC, h1, h2, -, -, h3, h4, h5, h6, -⟩ := session_mixed (GT := GT) hpp client true a ha hcirc hqap hk hγ hδ hal gen1 gen2
      tape hrs es lr ls hr hs (by
        refine h.imp (fun h p hp => ?_) (fun h p hp => ?_) <;>
          exact h _ (by rw [List.getD_eq_getElem _ _ (by omega)]; exact List.getElem_mem _)) rng
    have hD : D = 0 := (errors_zero hcirc.prim hcirc.le h4).2 hsat
    refine ⟨ins, outs, pA, pB, pC, h1, h2, h3, fun e => ⟨h5, ?_⟩⟩
    rw [h6 e, hD, eval_zero, zero_smul, add_zero]

/-! ### Examples -/

/-- The servers of even number are of a debug build, the client and the others of a release build; the key is not aligned. -/
example (tape : ClientTape (ZMod 17) (ZMod 17) (ZMod 17)) (rng : Nat → Nat → Nat → ZMod 17) : ∃ pk : ProvingKey (ZMod 17) (ZMod 17),
    ¬ KeyAligned (2 ^ 1) pk ∧ MixedSessionWorks (ZMod 17) pp17 false (fun i => i % 2 == 0) (4 * 2 ^ 1) (2 ^ 1) mats17 z17 pk 1 1 5 6
      (withR tape (l := 2 ^ 1) ![1, 1]) rng := by
  obtain ⟨pa, pb, pc, pk, h1, h2⟩ := C35_key_exists circuit17 (⟨2, 3, 4, 5, 6⟩ : Toxic (ZMod 17)) (1 : ZMod 17) (1 : ZMod 17)
  have key := fun (τ : Fin (2 ^ 1) → ZMod 17) rs
      (hrs : pp17.pack false (List.replicate (2 ^ 1) 5) (fun i => if h : i < 2 ^ 1 then τ ⟨i, h⟩ else 0) = .ok rs) =>
    C99_works (GT := ZMod 17) (pp17_eq true) false (fun i => i % 2 == 0) 1 (by norm_num) circuit17 mats17_sat h1 h2 (by decide) (by decide)
      (by simp) 1 1 5 6 (withR tape (l := 2 ^ 1) τ) rng (rs := rs) hrs
  refine ⟨pk, ?_, (key ![1, 1] [14, 5, 11, 10, 9, 1, 12, 13] (by decide +kernel)).2 (Or.inl (by decide))⟩
  unfold KeyAligned
  rw [h2.aQuery, h2.hQuery, h2.lQuery, h2.bG1Query, h2.bG2Query]
  simp only [List.length_map, List.length_range]
  decide

/-- A client of a debug build. -/
example (tape : ClientTape (ZMod 17) (ZMod 17) (ZMod 17)) (htape : tape.r = fun _ => 5) (rng : Nat → Nat → Nat → ZMod 17) :
    ∃ pk : ProvingKey (ZMod 17) (ZMod 17),
      MixedSessionWorks (ZMod 17) pp17 true (fun i => i % 3 == 0) (4 * 2 ^ 1) (2 ^ 1) mats17e z17e pk 1 1 5 6 tape rng := by
  obtain ⟨pa, pb, pc, pk, h1, h2⟩ := C35_key_exists circuit17e (⟨2, 3, 4, 5, 6⟩ : Toxic (ZMod 17)) (1 : ZMod 17) (1 : ZMod 17)
  refine ⟨pk, (C99_works (GT := ZMod 17) (pp17_eq true) true (fun i => i % 3 == 0) 1 (by norm_num) circuit17e
    (fun i hi => by obtain rfl : i = 0 := by simpa [mats17e] using hi
                    decide +kernel) h1 h2 (by decide) (by decide)
    (fun _ => by unfold KeyAligned; rw [h2.aQuery, h2.hQuery, h2.lQuery, h2.bG1Query, h2.bG2Query]; simp only [List.length_map, List.length_range]; decide)
    1 1 5 6 tape rng (rs := List.replicate 8 5) (by rw [htape]; decide +kernel)).2 (Or.inl (by decide))⟩

/-- The builds do differ: a debug build refuses to pack three secrets, a release build packs them. -/
example : pp17.pack true ([3, 5, 7] : List (ZMod 17)) (fun _ => 1) = panic' ∧ pp17.pack false ([3, 5, 7] : List (ZMod 17)) (fun _ => 1) ≠ panic' := by
  decide +kernel

/-- A reduction of degree between eight parties of which every other one checks the lengths of the masks. -/
example (sh : Nat → List (ZMod 17)) (masks : Nat → DegRedMask (ZMod 17)) (rng : Nat → Nat → ZMod 17) :
    AlikeUntilPanic (Net.init fun i : Fin 8 => pp17.degRed (i.val % 2 == 0) 8 i (sh i) (masks i) .one rng)
      (Net.init fun i : Fin 8 => pp17.degRed false 8 i (sh i) (masks i) .one rng) :=
  (C99_protocols (T := ZMod 17) pp17 (d := fun i => i % 2 == 0) (d' := fun _ => false) (fun _ => Bool.false_le _) 8 .one).2.2.1 sh masks rng

/-- What works with debug builds only works with any mixture of builds. -/
example (mats : ConstraintMatrices (ZMod 17)) (z : List (ZMod 17)) (pk : ProvingKey (ZMod 17) (ZMod 17)) (tape : ClientTape (ZMod 17) (ZMod 17) (ZMod 17))
    (rng : Nat → Nat → Nat → ZMod 17) (h : MixedSessionWorks (ZMod 17) pp17 true (fun _ => true) 8 2 mats z pk 1 1 5 6 tape rng) :
    MixedSessionWorks (ZMod 17) pp17 false (fun i => i == 0) 8 2 mats z pk 1 1 5 6 tape rng :=
  C99_session pp17 (Bool.false_le _) (fun _ => Bool.le_true _) 8 2 mats z pk 1 1 5 6 tape rng h

end ZkSaas.Properties
