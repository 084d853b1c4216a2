import Verif.Lemmas.Latency
import Verif.Properties.Proof
import Verif.Properties.Fresh
import Verif.Properties.Reuse

/-!
# C89: how many round trips a proof takes
-/

set_option linter.unusedSectionVars false

namespace ZkSaas

open Spec

variable {n : Nat} {α : Type}

theorem Stamped.of_done {p : Proc α} {r : Res (α × Nat)} (h : Stamped p (.done r)) : ∃ s, p = .done s ∧ s = r.map Prod.fst := by
  generalize hq : Proc.done r = q at h
  cases h with
  | base p t =>
    cases p with
    | done s =>
      cases hq
      exact ⟨s, rfl, by cases s <;> rfl⟩
    | send => cases hq
    | recv => cases hq
    | gather => cases hq
    | par => cases hq
  | gather => cases hq
  | par => cases hq

theorem Stamped.done_of {q : Proc (α × Nat)} {r : Res α} (h : Stamped (.done r) q) : ∃ s, q = .done s ∧ r = s.map Prod.fst := by
  generalize hp : Proc.done r = p at h
  cases h with
  | base p t =>
    cases hp
    exact ⟨_, rfl, by cases r <;> rfl⟩
  | gather => cases hp
  | par => cases hp

theorem StampedNet.backs {k : Nat} {d d' : Net n (α × Nat)} (hs : GSteps Reliable k d d') {c : Net n α} (h : StampedNet c d) :
    ∃ c', GSteps Reliable k c c' ∧ StampedNet c' d' := by
  induction hs generalizing c with
  | refl d => exact ⟨c, .refl _, h⟩
  | step h1 h2 ih =>
    obtain ⟨c1, h3, h4⟩ := h.back h1
    obtain ⟨c2, h5, h6⟩ := ih h4
    exact ⟨c2, .step h3 h5, h6⟩

theorem StampedNet.forths {k : Nat} {c c' : Net n α} (hs : GSteps Reliable k c c') {d : Net n (α × Nat)} (h : StampedNet c d) :
    ∃ d', GSteps Reliable k d d' ∧ StampedNet c' d' := by
  induction hs generalizing d with
  | refl d => exact ⟨d, .refl _, h⟩
  | step h1 h2 ih =>
    obtain ⟨c1, h3, h4⟩ := h.forth h1
    obtain ⟨c2, h5, h6⟩ := ih h4
    exact ⟨c2, .step h3 h5, h6⟩

namespace Properties

open Finset Polynomial

/-- Without the clocks: the same messages under way, the same parties finished with the same results or errors. -/
def SameButClocks (c : Net n α) (d : Net n (α × Nat)) : Prop :=
  (∀ x, c.queues x = (d.queues x).map unstamp) ∧
    ∀ i r, c.procs i = .done r ↔ ∃ s, d.procs i = .done s ∧ r = s.map Prod.fst

theorem StampedNet.same {c : Net n α} {d : Net n (α × Nat)} (h : StampedNet c d) : SameButClocks c d := by
  refine ⟨h.2, fun i r => ⟨fun hr => ?_, ?_⟩⟩
  · have := h.1 i
    rw [hr] at this
    exact this.done_of
  · rintro ⟨s, hs, rfl⟩
    have := h.1 i
    rw [hs] at this
    obtain ⟨s', h1, rfl⟩ := this.of_done
    exact h1

/-- **C89** Clocks only measure: every execution of a protocol with clocks is one of the protocol itself, with the same number of
steps, messages, results and errors, and every execution of the protocol occurs. -/
theorem C89_clocks_only_measure (ps : Fin n → Proc α) (k : Nat) :
    (∀ d, GSteps Reliable k (Net.init fun i => (ps i).timed 0) d → ∃ c, GSteps Reliable k (Net.init ps) c ∧ SameButClocks c d) ∧
    ∀ c, GSteps Reliable k (Net.init ps) c → ∃ d, GSteps Reliable k (Net.init fun i => (ps i).timed 0) d ∧ SameButClocks c d := by
  refine ⟨fun d hd => ?_, fun c hc => ?_⟩
  · obtain ⟨c, h1, h2⟩ := (StampedNet.init ps).backs hd
    exact ⟨c, h1, StampedNet.same h2⟩
  · obtain ⟨d, h1, h2⟩ := (StampedNet.init ps).forths hc
    exact ⟨d, h1, StampedNet.same h2⟩

section field
variable {F : Type} [Field F] [DecidableEq F] [FixedWire F] (pp : PSS F) (dbg : Bool)

/-- **C89** Whenever `d_fft` succeeds, it takes one round trip to the king: whatever the inputs, the masks, the layout and the number
of parties. -/
theorem C89_d_fft (hn : 1 < n) (sh : Nat → List F) (masks : Nat → FftMask F) (rearrange : Bool) (dom : Domain F) (sid : Sid)
    (rng : Nat → Nat → F) {rs : Fin n → List F}
    (h : AlwaysYields (Net.init fun i : Fin n => pp.dFft dbg n i (sh i) (masks i) rearrange dom sid rng) rs) :
    TakesRoundTrips 1 (fun i : Fin n => pp.dFft dbg n i (sh i) (masks i) rearrange dom sid rng) rs :=
  (Sched.Trips.trip hn sid).takes (by omega) (fun i => pp.dFft_follows dbg i.2 ..) (fun i => PSS.dFft_wf _ (by omega) _ _ _ _ _ _ _) h

/-- **C89** `d_ifft`: one round trip. -/
theorem C89_d_ifft (hn : 1 < n) (sh : Nat → List F) (masks : Nat → FftMask F) (rearrange : Bool) (dom : Domain F) (g : F) (sid : Sid)
    (rng : Nat → Nat → F) {rs : Fin n → List F}
    (h : AlwaysYields (Net.init fun i : Fin n => pp.dIfft dbg n i (sh i) (masks i) rearrange dom g sid rng) rs) :
    TakesRoundTrips 1 (fun i : Fin n => pp.dIfft dbg n i (sh i) (masks i) rearrange dom g sid rng) rs :=
  (Sched.Trips.trip hn sid).takes (by omega) (fun i => pp.dIfft_follows dbg i.2 ..) (fun i => PSS.dIfft_wf _ (by omega) _ _ _ _ _ _ _ _) h

omit [FixedWire F] in
/-- **C89** `deg_red`: one round trip. -/
theorem C89_deg_red {T : Type} [AddCommGroup T] [Module F T] [DecidableEq T] [FixedWire T] (hn : 1 < n) (sh : Nat → List T)
    (masks : Nat → DegRedMask T) (sid : Sid) (rng : Nat → Nat → T) {rs : Fin n → List T}
    (h : AlwaysYields (Net.init fun i : Fin n => pp.degRed dbg n i (sh i) (masks i) sid rng) rs) :
    TakesRoundTrips 1 (fun i : Fin n => pp.degRed dbg n i (sh i) (masks i) sid rng) rs :=
  (Sched.Trips.trip hn sid).takes (by omega) (fun i => pp.degRed_follows dbg i.2 ..) (fun i => PSS.degRed_wf _ (by omega) _ _ _ _ _) h

omit [FixedWire F] in
/-- **C89** `d_msm`: one round trip. -/
theorem C89_d_msm {G : Type} [AddCommGroup G] [Module F G] [DecidableEq G] [FixedWire G] (hn : 1 < n) (bases : Nat → List G)
    (scalars : Nat → List F) (masks : Nat → MsmMask G) (sid : Sid) {rs : Fin n → G}
    (h : AlwaysYields (Net.init fun i : Fin n => pp.dMsm dbg n i (bases i) (scalars i) (masks i) sid) rs) :
    TakesRoundTrips 1 (fun i : Fin n => pp.dMsm dbg n i (bases i) (scalars i) (masks i) sid) rs :=
  (Sched.Trips.trip hn sid).takes (by omega) (fun i => pp.dMsm_follows dbg i.2 ..) (fun i => PSS.dMsm_wf _ (by omega) _ _ _ _ _) h

/-- **C89** `d_pp`: two round trips. -/
theorem C89_d_pp (hn : 1 < n) (num den : Nat → List F) (masks : Nat → DegRedMask F) (sid : Sid) (rng rng' : Nat → Nat → F)
    {rs : Fin n → List F} (h : AlwaysYields (Net.init fun i : Fin n => pp.dPp dbg n i (num i) (den i) (masks i) sid rng rng') rs) :
    TakesRoundTrips 2 (fun i : Fin n => pp.dPp dbg n i (num i) (den i) (masks i) sid rng rng') rs :=
  ((Sched.Trips.trip hn sid).andThen (Sched.Trips.trip hn sid)).takes (by omega) (fun i => pp.dPp_follows dbg i.2 ..)
    (fun i => PSS.dPp_wf _ (by omega) _ _ _ _ _ _ _) h

/-- **C89** `circom_h` exchanges messages seven times with the king (C72) and takes three round trips: the three inverse transforms are
under way at the same time, then the three transforms, then the degree reduction. -/
theorem C89_circom_h [FftField F] (hn : 1 < n) (q : Nat → PackedQAPShare F) (masks : Nat → Nat → FftMask F) (dmask : Nat → DegRedMask F)
    (rng : Nat → Nat → Nat → F) {rs : Fin n → List F}
    (h : AlwaysYields (Net.init fun i : Fin n => pp.circomH dbg n i (q i) (masks i) (dmask i) rng) rs) :
    TakesRoundTrips 3 (fun i : Fin n => pp.circomH dbg n i (q i) (masks i) (dmask i) rng) rs :=
  (Sched.Trips.ext hn).takes (by omega) (fun i => pp.circomH_follows dbg i.2 ..) (fun i => circomH_wf _ (by omega) _ _ _ _ _) h

/-- **C89** `libsnark_h`: three round trips as well. -/
theorem C89_libsnark_h [FftField F] (hn : 1 < n) (q : Nat → PackedQAPShare F) (masks : Nat → Nat → FftMask F) (rng : Nat → Nat → Nat → F)
    {rs : Fin n → List F} (h : AlwaysYields (Net.init fun i : Fin n => pp.libsnarkH dbg n i (q i) (masks i) rng) rs) :
    TakesRoundTrips 3 (fun i : Fin n => pp.libsnarkH dbg n i (q i) (masks i) rng) rs :=
  (Sched.Trips.ext hn).takes (by omega) (fun i => pp.libsnarkH_follows dbg i.2 ..) (fun i => libsnarkH_wf _ (by omega) _ _ _ _) h

section groups
variable [FftField F] {G1 G2 : Type} [AddCommGroup G1] [Module F G1] [DecidableEq G1] [FixedWire G1]
  [AddCommGroup G2] [Module F G2] [DecidableEq G2] [FixedWire G2]

/-- **C89** A session of the example: whenever it succeeds, it takes seven round trips, and six if the servers hold zero shares of `r`. -/
theorem C89_session (hn : 1 < n) (ins : Nat → ServerInput F G1 G2) (z : Prop) [Decidable z] (hz : ∀ i < n, (ins i).r = 0 ↔ z)
    (rng : Nat → Nat → Nat → F) {rs : Fin n → G1 × G2 × G1} (h : AlwaysYields (Net.init fun i : Fin n => (ins i).run pp dbg n i rng) rs) :
    TakesRoundTrips (if z then 6 else 7) (fun i : Fin n => (ins i).run pp dbg n i rng) rs :=
  (Sched.Trips.session (F := F) (G1 := G1) hn z).takes (by omega)
    (fun i => by
      have := pp.dsha256_follows dbg i.2 (ins i).crs (ins i).q (ins i).a (ins i).ax (ins i).r (ins i).s
        (fun k => (ins i).fftMask.getD k (FftMask.zero 0)) (ins i).degredMask (fun k => (ins i).g1Mask.getD k MsmMask.zero) (ins i).g2Mask rng
      simp only [hz i i.2] at this
      exact this)
    (fun i => dsha256_wf _ (by omega) _ _ _ _ _ _ _ _ _ _ _ _) h

variable {GT : Type} [AddCommGroup GT] [Module F GT]

/-- **C89** A proof from dealing to verification (C35), with shares of `r` and `s` that are packed as the library intends and none of the
shares of `r` zero: the servers are done after seven round trips, the client can open a proof that the verifier accepts. -/
theorem C89_proof {dbg₀ : Bool} {b : Nat} {pp : PSS F} (hpp : PSS.new dbg₀ (2 ^ b) = .ok pp) (dbg : Bool) (a : Nat) (ha : a < 64)
    {mats : ConstraintMatrices F} {z : List F} {dom dom2 : Domain F} (hcirc : Circuit a b mats z dom dom2)
    (hsat : Satisfies mats.numConstraints mats.a mats.b mats.c z) {pa pb pc : Nat → F[X]}
    (hqap : IsQap mats z.length dom.groupGen (2 ^ (a + b)) pa pb pc) {t : Toxic F} {g1 : G1} {g2 : G2} {pk : ProvingKey G1 G2}
    (hk : IsCircomKey t g1 g2 z.length mats.numInstanceVariables (2 ^ (a + b)) dom2.groupGen pa pb pc pk) (hγ : t.gamma ≠ 0)
    (hδ : t.delta ≠ 0) (hal : dbg = true → KeyAligned (2 ^ b) pk) (gen1 : G1) (gen2 : G2) (r s : F) (tape : ClientTape F G1 G2)
    (hr0 : ∀ rs, pp.pack dbg (List.replicate (2 ^ b) r) tape.r = .ok rs → ∀ x ∈ rs, x ≠ 0) (rng : Nat → Nat → Nat → F) :
    ∃ (ins : Nat → ServerInput F G1 G2) (outs : Nat → G1 × G2 × G1) (pA : G1) (pB : G2) (pC : G1),
      pp.deal dbg (2 ^ b) mats z pk gen1 gen2 r s tape = .ok ((List.range (4 * 2 ^ b)).map ins) ∧
      TakesRoundTrips 7 (fun i : Fin (4 * 2 ^ b) => (ins i).run pp dbg (4 * 2 ^ b) i rng) (fun i => outs i) ∧
      pp.openProof dbg ((List.range (4 * 2 ^ b)).map outs) = .ok (pA, pB, pC) ∧
      ∀ e : G1 →ₗ[F] G2 →ₗ[F] GT, Verifies e pk.vk ((z.take mats.numInstanceVariables).drop 1) pA pB pC := by
  obtain ⟨ins, outs, pA, pB, pC, h1, h2, h3, h4⟩ := C35_proof_verifies (GT := GT) hpp dbg a ha hcirc hsat hqap hk hγ hδ hal gen1 gen2 r s tape
    (fun rs h => .inl (hr0 rs h)) rng
  have hb : 0 < 2 ^ b := by positivity
  refine ⟨ins, outs, pA, pB, pC, h1, ?_, h3, h4⟩
  have := C89_session pp dbg (n := 4 * 2 ^ b) (by omega) ins False (fun i hi => ⟨fun h => ?_, False.elim⟩) rng h2
  · rwa [if_neg not_false] at this
  · obtain ⟨_, -, -, hr, -⟩ := deal_parts (p := i) (x := ins i) (by rw [h1]; simp [partOf, hi])
    cases hpk : pp.pack dbg (List.replicate (2 ^ b) r) tape.r with
    | error e => rw [hpk] at hr; cases hr
    | ok rs =>
      rw [hpk] at hr
      exact hr0 rs hpk _ (List.mem_of_getElem? hr) h

/-- **C89** The example as it is written (C37), in a release build: seven round trips, or six if the client happens to draw `r = 0`. -/
theorem C89_example_release {dbg₀ : Bool} {b : Nat} {pp : PSS F} (hpp : PSS.new dbg₀ (2 ^ b) = .ok pp) (a : Nat) (ha : a < 64)
    {mats : ConstraintMatrices F} {z : List F} {dom dom2 : Domain F} (hcirc : Circuit a b mats z dom dom2)
    (hsat : Satisfies mats.numConstraints mats.a mats.b mats.c z) {pa pb pc : Nat → F[X]}
    (hqap : IsQap mats z.length dom.groupGen (2 ^ (a + b)) pa pb pc) {t : Toxic F} {g1 : G1} {g2 : G2} {pk : ProvingKey G1 G2}
    (hk : IsCircomKey t g1 g2 z.length mats.numInstanceVariables (2 ^ (a + b)) dom2.groupGen pa pb pc pk) (hγ : t.gamma ≠ 0)
    (hδ : t.delta ≠ 0) (gen1 : G1) (gen2 : G2) (r s : F) (tape : ClientTape F G1 G2) (rng : Nat → Nat → Nat → F) :
    ∃ (ins : Nat → ServerInput F G1 G2) (outs : Nat → G1 × G2 × G1) (pA : G1) (pB : G2) (pC : G1),
      pp.deal false pp.n mats z pk gen1 gen2 r s tape = .ok ((List.range (4 * 2 ^ b)).map ins) ∧
      TakesRoundTrips (if r = 0 then 6 else 7) (fun i : Fin (4 * 2 ^ b) => (ins i).run pp false (4 * 2 ^ b) i rng) (fun i => outs i) ∧
      pp.openProof false ((List.range (4 * 2 ^ b)).map outs) = .ok (pA, pB, pC) ∧
      ∀ e : G1 →ₗ[F] G2 →ₗ[F] GT, Verifies e pk.vk ((z.take mats.numInstanceVariables).drop 1) pA pB pC := by
  obtain ⟨ins, outs, pA, pB, pC, h1, h2, h3, h4⟩ := C35_example_release (GT := GT) hpp a ha hcirc hsat hqap hk hγ hδ gen1 gen2 r s tape rng
  have hb : 0 < 2 ^ b := by positivity
  refine ⟨ins, outs, pA, pB, pC, h1, ?_, h3, h4⟩
  refine C89_session pp false (n := 4 * 2 ^ b) (by omega) ins (r = 0) (fun i hi => ?_) rng h2
  rw [(C57_example_reveals hpp mats z pk gen1 gen2 r s tape i (ins i) (by rw [h1]; simp [partOf, hi])).1]

end groups

end field

/-! ### Examples -/

/-- Example for C89: a message takes one unit of time, so that the party that waits for it is done at time one, whatever its contents
(also if it looks like a stamp). -/
example (sid : Sid) (b : Bytes) : AlwaysYields (Net.init fun i : Fin 2 => (if i.val = 0 then Proc.recv 1 sid fun m => .done (.ok m)
      else .send 0 sid b (.done (.ok []))).timed 0) fun i => if i.val = 0 then (b, 1) else ([], 0) := by
  have h := (two_send (.recv 1 sid fun m => .done (.ok (unstamp m, max 0 (arrival m)))) (.done (.ok (([] : Bytes), 0))) sid (stamp 1 b) []).trans
    (two_recv _ (fun m => .done (.ok (unstamp m, max 0 (arrival m)))) sid (stamp 1 b) [])
  rw [unstamp_stamp, arrival_stamp] at h
  have hy := two_yields (by exact .recv trivial fun _ => .done _ _) (by exact .send trivial (.done _ _)) sid h
  convert hy using 3 with i
  · unfold two
    split <;> rfl
  · simp

/-- Example for C89: the transform of four elements between eight servers. -/
example : ∃ (sh : Nat → List (ZMod 17)) (outs : Nat → List (ZMod 17)), TakesRoundTrips 1 (fun i : Fin (4 * 2 ^ 1) =>
      pp17.dFft true (4 * 2 ^ 1) i (sh i) (FftMask.zero 2) false dom17 .zero (fun i j => i + j)) (fun i => outs i) ∧
    opened pp17 (2 ^ 1) outs = dom17.fft [1, 2, 3, 4] := by
  obtain ⟨shares, -, -, hs⟩ := C19_input_is_packed (pp17_eq true) true 1 ([1, 2, 3, 4] : List (ZMod 17)) rfl
    fun i j => 3 * (i : ZMod 17) + (j : ZMod 17)
  obtain ⟨outs, h1, h2⟩ := C19_d_fft (pp17_eq true) true 1 (by norm_num) dom17_eq _ _ hs false (fun _ => FftMask.zero 2) (Or.inr fun _ => rfl) .zero
    (fun i j => i + j)
  exact ⟨fun p => shares.getD p [], outs, C89_d_fft pp17 true (by norm_num) (fun p => shares.getD p []) (fun _ => FftMask.zero 2) false dom17 .zero _ h1, h2.opened (pp17_eq true)⟩

/-- Example for C89: the inverse transform. -/
example : ∃ (sh : Nat → List (ZMod 17)) (outs : Nat → List (ZMod 17)), TakesRoundTrips 1 (fun i : Fin (4 * 2 ^ 1) =>
      pp17.dIfft true (4 * 2 ^ 1) i (sh i) (FftMask.zero 2) false dom17 3 .zero (fun i j => i + j)) (fun i => outs i) := by
  obtain ⟨shares, -, -, hs⟩ := C19_input_is_packed (pp17_eq true) true 1 ([1, 2, 3, 4] : List (ZMod 17)) rfl
    fun i j => 3 * (i : ZMod 17) + (j : ZMod 17)
  obtain ⟨outs, h1, -⟩ := C20_d_ifft (pp17_eq true) true 1 (by norm_num) dom17_eq _ _ hs 3 false (fun _ => FftMask.zero 2) (Or.inr fun _ => rfl) .zero
    (fun i j => i + j)
  exact ⟨fun p => shares.getD p [], outs, C89_d_ifft pp17 true (by norm_num) (fun p => shares.getD p []) (fun _ => FftMask.zero 2) false dom17 3 .zero _ h1⟩

/-- Example for C89: reducing the degree of one position. -/
example : ∃ (sh outs : Nat → List (ZMod 17)), TakesRoundTrips 1 (fun i : Fin (4 * 2 ^ 1) =>
      pp17.degRed true (4 * 2 ^ 1) i (sh i) (DegRedMask.zero 1) .zero (fun i j => i + j)) (fun i => outs i) := by
  obtain ⟨sh, -, h⟩ := packFromWitness_holds (b := 1) (pp17_eq true) true ([3, 5] : List (ZMod 17)) fun _ _ => 1
  obtain ⟨outs, h1, -⟩ := C24_deg_red (T := ZMod 17) (pp17_eq true) true (N := 1) (d := 2 * 2 ^ 1) (by norm_num) (by norm_num) (by norm_num)
    (by norm_num) sh (fun c => chunks (2 ^ 1) (fun i => [3, 5].getD i 0) c) h (fun _ => DegRedMask.zero 1) (.inr fun _ => rfl) .zero fun i j => i + j
  exact ⟨sh, outs, C89_deg_red pp17 true (by norm_num) sh (fun _ => DegRedMask.zero 1) .zero _ h1⟩

/-- Example for C89: `3·1 + 5·4`. -/
example : ∃ (sb ss : List (List (ZMod 17))) (outs : Nat → ZMod 17), TakesRoundTrips 1 (fun i : Fin (4 * 2 ^ 1) =>
      pp17.dMsm true (4 * 2 ^ 1) i (sb.getD i []) (ss.getD i []) MsmMask.zero .zero) (fun i => outs i) := by
  obtain ⟨sb, ss, outs, -, -, h, -⟩ := C25_d_msm (G := ZMod 17) (pp17_eq true) true (N := 1) (by norm_num) [1, 4] [3, 5] rfl rfl
    (fun _ => MsmMask.zero) (.inr fun _ => rfl) .zero (fun _ _ => 1) (fun _ _ => 2)
  exact ⟨sb, ss, outs, C89_d_msm pp17 true (by norm_num) (fun i => sb.getD i []) (fun i => ss.getD i []) (fun _ => MsmMask.zero) .zero h⟩

/-- Example for C89: the partial products of `3/2` and `5/7`. -/
example : ∃ (sn sd : List (List (ZMod 17))) (outs : Nat → List (ZMod 17)), TakesRoundTrips 2 (fun i : Fin (4 * 2 ^ 1) =>
      pp17.dPp true (4 * 2 ^ 1) i (sn.getD i []) (sd.getD i []) (DegRedMask.zero 1) .zero (fun i j => i + j) (fun i j => i * j))
        (fun i => outs i) := by
  obtain ⟨sn, sd, outs, -, -, h, -⟩ := C26_d_pp (pp17_eq true) true (N := 1) (by norm_num) (by norm_num) [3, 5] [2, 7] rfl rfl (by decide)
    (fun _ => DegRedMask.zero 1) (.inr fun _ => rfl) .zero (fun i j => i + j) (fun i j => i + j) (fun i j => i + j) (fun i j => i * j)
  exact ⟨sn, sd, outs, C89_d_pp pp17 true (by norm_num) (fun i => sn.getD i []) (fun i => sd.getD i []) (fun _ => DegRedMask.zero 1) .zero _ _ h⟩

/-- Examples for C89: both `h` computations on the example circuit. -/
example : ∃ (q : Nat → PackedQAPShare (ZMod 17)) (outs outs' : Nat → List (ZMod 17)),
    TakesRoundTrips 3 (fun i : Fin (4 * 2 ^ 1) => pp17.circomH true (4 * 2 ^ 1) i (q i) (fun _ => FftMask.zero 2) (DegRedMask.zero 2)
      fun _ i j => i + j) (fun i => outs i) ∧
    TakesRoundTrips 3 (fun i : Fin (4 * 2 ^ 1) => pp17.libsnarkH true (4 * 2 ^ 1) i (q i) (fun _ => FftMask.zero 2)
      fun _ i j => i + j) (fun i => outs' i) := by
  obtain ⟨q, A, B, C, hq, h1, h2, h3, i1, i2, i3⟩ := shares17
  obtain ⟨outs, h, -⟩ := C31_circom_h (pp17_eq true) true 1 (by norm_num) dom17_eq dom17b_eq q hq _ _ _ h1 h2 h3 A B C i1 i2 i3
    (fun _ _ => FftMask.zero 2) ⟨fun _ _ => .inr fun _ => rfl, fun _ _ => .inr fun _ => rfl⟩ (fun _ => DegRedMask.zero 2) (.inr fun _ => rfl)
    fun _ i j => i + j
  obtain ⟨-, outs', h', -⟩ := C32_libsnark_h (pp17_eq true) true 1 (by norm_num) dom17_eq ⟨3, by decide, by decide⟩ q hq _ _ _ h1 h2 h3
    A B C i1 i2 i3 (by decide) (fun _ _ => FftMask.zero 2)
    ⟨fun _ _ => .inr fun _ => rfl, fun _ _ => .inr fun _ => rfl, .inr fun _ => rfl⟩ fun _ i j => i + j
  exact ⟨q, outs, outs', C89_circom_h pp17 true (by norm_num) q (fun _ _ => FftMask.zero 2) (fun _ => DegRedMask.zero 2) _ h,
    C89_libsnark_h pp17 true (by norm_num) q (fun _ _ => FftMask.zero 2) _ h'⟩

/-- Example for C89: the session of the example circuit, with `r = 5` and with `r = 0`. -/
example (tape : ClientTape (ZMod 17) (ZMod 17) (ZMod 17)) : ∃ (pk : ProvingKey (ZMod 17) (ZMod 17))
    (ins ins' : Nat → ServerInput (ZMod 17) (ZMod 17) (ZMod 17)) (outs outs' : Nat → ZMod 17 × ZMod 17 × ZMod 17),
    pp17.deal false 8 mats17 z17 pk 1 1 5 6 tape = .ok ((List.range 8).map ins) ∧
    TakesRoundTrips 7 (fun i : Fin (4 * 2 ^ 1) => (ins i).run pp17 false (4 * 2 ^ 1) i fun _ i j => i + j) (fun i => outs i) ∧
    pp17.deal false 8 mats17 z17 pk 1 1 0 6 tape = .ok ((List.range 8).map ins') ∧
    TakesRoundTrips 6 (fun i : Fin (4 * 2 ^ 1) => (ins' i).run pp17 false (4 * 2 ^ 1) i fun _ i j => i + j) (fun i => outs' i) := by
  obtain ⟨pa, pb, pc, pk, h1, h2⟩ := C35_key_exists circuit17 (⟨2, 3, 4, 5, 6⟩ : Toxic (ZMod 17)) (1 : ZMod 17) (1 : ZMod 17)
  obtain ⟨ins, outs, -, -, -, h3, h4, -⟩ := C89_example_release (GT := ZMod 17) (pp17_eq true) 1 (by norm_num) circuit17 mats17_sat h1 h2
    (by decide) (by decide) 1 1 5 6 tape fun _ i j => i + j
  obtain ⟨ins', outs', -, -, -, h5, h6, -⟩ := C89_example_release (GT := ZMod 17) (pp17_eq true) 1 (by norm_num) circuit17 mats17_sat h1 h2
    (by decide) (by decide) 1 1 0 6 tape fun _ i j => i + j
  exact ⟨pk, ins, ins', outs, outs', h3, h4, h5, h6⟩

/-- Example for C89: packed shares of `r = 5`, none of them zero. -/
example (tape : ClientTape (ZMod 17) (ZMod 17) (ZMod 17)) (ht : tape.r = fun _ => 1) : ∃ (pk : ProvingKey (ZMod 17) (ZMod 17))
    (ins : Nat → ServerInput (ZMod 17) (ZMod 17) (ZMod 17)) (outs : Nat → ZMod 17 × ZMod 17 × ZMod 17),
    pp17.deal false 2 mats17 z17 pk 1 1 5 6 tape = .ok ((List.range 8).map ins) ∧
    TakesRoundTrips 7 (fun i : Fin (4 * 2 ^ 1) => (ins i).run pp17 false (4 * 2 ^ 1) i fun _ i j => i + j) (fun i => outs i) := by
  obtain ⟨pa, pb, pc, pk, h1, h2⟩ := C35_key_exists circuit17 (⟨2, 3, 4, 5, 6⟩ : Toxic (ZMod 17)) (1 : ZMod 17) (1 : ZMod 17)
  obtain ⟨ins, outs, -, -, -, h3, h4, -⟩ := C89_proof (GT := ZMod 17) (pp17_eq true) false 1 (by norm_num) circuit17 mats17_sat
    h1 h2 (by decide) (by decide) (by simp) 1 1 5 6 tape (by
      intro rs h
      rw [ht] at h
      have : ∀ rs, pp17.pack false (List.replicate (2 ^ 1) (5 : ZMod 17)) (fun _ => 1) = .ok rs → ∀ x ∈ rs, x ≠ 0 := by
        have : ∀ x ∈ (match pp17.pack false (List.replicate (2 ^ 1) (5 : ZMod 17)) (fun _ => 1) with | .ok rs => rs | .error _ => []), x ≠ 0 := by
          decide +kernel
        intro rs h
        rw [h] at this
        exact this
      exact this rs h) fun _ i j => i + j
  exact ⟨pk, ins, outs, h3, h4⟩

end Properties

end ZkSaas
