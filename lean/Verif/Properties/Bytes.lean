import Verif.Lemmas.ByteNet
import Verif.Properties.Frame
import Verif.Properties.Fields

/-!
# C81: the protocols on bytes
-/

set_option linter.unusedSectionVars false

namespace ZkSaas.Properties

open Finset Spec Polynomial

theorem frame_ok {out m : Bytes} (h : m.length ≤ 8 * 1024 * 1024) : sendStream out m = .ok (out ++ (beBytes 4 m.length ++ m)) := by
  have : ¬ maxFrame < m.length := by unfold maxFrame; omega
  simp [sendStream, encodeFrame, this]

/-- **C81** What the two networks write to a stream and read from it: the test network a frame with the message, up to 8 MiB; the production
network a frame with the packet, up to 8 MiB less 12 bytes. Longer messages are refused. -/
theorem C81_transports : Carries localTransport (8 * 1024 * 1024) (fun b => b) ∧
    Carries prodTransport (8 * 1024 * 1024 - 12) (fun b => leBytes 4 2 ++ (leBytes 8 b.length ++ b)) := by
  refine ⟨⟨fun b h => h, fun b out h => frame_ok h, fun b _ => rfl, fun b out h => ⟨_, (C46_sender out b).2 h⟩⟩,
    ⟨fun b h => ?_, fun b out h => ?_, fun b h => ?_, fun b out h => ⟨_, (C47_limit out b).2 (by omega)⟩⟩⟩
  · simp only [List.length_append, leBytes_length]; omega
  · exact frame_ok (m := leBytes 4 2 ++ (leBytes 8 b.length ++ b)) (by simp only [List.length_append, leBytes_length]; omega)
  · exact (C47_recv b (by norm_num; omega)).1

/-- **C81** The steps in which a `Framed` reads are those of `poll_next`: with a party waiting for it and the bytes of `reads` on their way,
if `next().await` on these reads gives a frame, then reading them one by one leads to a state in which exactly this frame is decoded, with the
same bytes left over. -/
theorem C81_next {n : Nat} {α : Type} (T : Transport) (procs : Fin n → Proc α) (i : Fin n) (frm : Nat) (sid : Sid)
    (hw : (procs i).Waits frm sid) (reads : List Bytes) (hr : ∀ c ∈ reads, c ≠ []) (C : Nat × Nat × Sid → ByteChan) (fr fr' : Framed)
    (f : Bytes) (rest : List Bytes) (hC : C (frm, i, sid) = ⟨reads.flatten, fr⟩) (h : fr.next reads = (.frame f, fr', rest)) :
    ∃ fr'' C', BSteps T (reads.length - rest.length) ⟨procs, C⟩ ⟨procs, C'⟩ ∧ C' (frm, i, sid) = ⟨rest.flatten, fr''⟩ ∧
      (∀ x, x ≠ (frm, i.val, sid) → C' x = C x) ∧ fr'.st = .head ∧ decodeFrame fr''.st fr''.buf = .frame f fr'.buf := by
  induction reads generalizing fr C with
  | nil =>
    simp only [Framed.next] at h
    split at h
    · cases h
    · rename_i f' buf hd
      cases h
      exact ⟨fr, C, .refl _, hC, fun _ _ => rfl, rfl, hd⟩
    · split at h <;> cases h
  | cons c cs ih =>
    simp only [Framed.next] at h
    split at h
    · cases h
    · rename_i f' buf hd
      cases h
      exact ⟨fr, C, by simpa using BSteps.refl _, hC, fun _ _ => rfl, rfl, hd⟩
    · rename_i st buf hd
      rw [if_neg (hr c (by simp))] at h
      obtain ⟨fr'', C', h1, h2, h3, h4, h5⟩ := ih (fun x hx => hr x (List.mem_cons_of_mem _ hx))
        (Function.update C (frm, i.val, sid) ⟨cs.flatten, ⟨st, buf ++ c⟩⟩) ⟨st, buf ++ c⟩ (by simp) h
      refine ⟨fr'', C', ?_, h2, fun x hx => ?_, h4, h5⟩
      · have hstep : BStep T ⟨procs, C⟩ ⟨procs, Function.update C (frm, i.val, sid) ⟨cs.flatten, ⟨st, buf ++ c⟩⟩⟩ :=
          .read procs C i frm sid st buf c cs.flatten hw (by rw [hC]; exact hd) (hr c (by simp)) (by rw [hC]; simp)
        have hle : rest.length ≤ cs.length := by
          have := Framed.next_length cs ⟨st, buf ++ c⟩
          rwa [h] at this
        have := (BSteps.step (.refl _) hstep).trans h1
        rwa [show 0 + 1 + (cs.length - rest.length) = (c :: cs).length - rest.length by simp only [List.length_cons]; omega] at this
      · rw [h3 x hx, Function.update_of_ne hx]

/-- **C81** A protocol that always succeeds on a network of whole messages of at most 8 MiB always succeeds, with the same results, on the
byte streams of the test network: for every schedule and all pieces in which the bytes arrive. -/
theorem C81_local {n : Nat} {α : Type} (ps : Fin n → Proc α) (rs : Fin n → α) (h : AlwaysYieldsWithin (8 * 1024 * 1024) (Net.init ps) rs) :
    BytesAlwaysYield localTransport (ByteNet.init ps) rs := h.bytes C81_transports.1

/-- **C81** The same for the production network, whose packets take twelve bytes. -/
theorem C81_prod {n : Nat} {α : Type} (ps : Fin n → Proc α) (rs : Fin n → α)
    (h : AlwaysYieldsWithin (8 * 1024 * 1024 - 12) (Net.init ps) rs) : BytesAlwaysYield prodTransport (ByteNet.init ps) rs :=
  h.bytes C81_transports.2

/-- **C81** A party that can never finish because of the limit on messages never finishes on byte streams either. -/
theorem C81_never {n : Nat} {α : Type} (ps : Fin n → Proc α) (i : Fin n) :
    (NeverFinishes (8 * 1024 * 1024) (Net.init ps) i → BytesNeverFinish localTransport (ByteNet.init ps) i) ∧
    (NeverFinishes (8 * 1024 * 1024 - 12) (Net.init ps) i → BytesNeverFinish prodTransport (ByteNet.init ps) i) :=
  ⟨fun h => h.bytes C81_transports.1, fun h => h.bytes C81_transports.2⟩

variable {F : Type} [Field F] [DecidableEq F] [FftField F] [FixedWire F]
variable {G1 G2 GT : Type} [AddCommGroup G1] [Module F G1] [DecidableEq G1] [FixedWire G1] [AddCommGroup G2] [Module F G2]
  [DecidableEq G2] [FixedWire G2] [AddCommGroup GT] [Module F GT]

/-- **C81** The example on bytes: if a vector of shares and the group elements fit, the servers end on the byte streams of either network, whatever
the schedule and the pieces, with the proof that verifies; if a vector of shares has more than 8 MiB, no client ever finishes. -/
theorem C81_example {dbg₀ : Bool} {b : Nat} {pp : PSS F} (hpp : PSS.new dbg₀ (2 ^ b) = .ok pp) (a : Nat) (ha : a < 64)
    {mats : ConstraintMatrices F} {z : List F} {dom dom2 : Domain F} (hcirc : Circuit a b mats z dom dom2)
    (hsat : Satisfies mats.numConstraints mats.a mats.b mats.c z) {pa pb pc : Nat → F[X]}
    (hqap : IsQap mats z.length dom.groupGen (2 ^ (a + b)) pa pb pc) {t : Toxic F} {g1 : G1} {g2 : G2} {pk : ProvingKey G1 G2}
    (hk : IsCircomKey t g1 g2 z.length mats.numInstanceVariables (2 ^ (a + b)) dom2.groupGen pa pb pc pk) (hγ : t.gamma ≠ 0)
    (hδ : t.delta ≠ 0) (gen1 : G1) (gen2 : G2) (r s : F) (tape : ClientTape F G1 G2) (rng : Nat → Nat → Nat → F) :
    ∃ ins : Nat → ServerInput F G1 G2,
      pp.deal false pp.n mats z pk gen1 gen2 r s tape = .ok ((List.range (4 * 2 ^ b)).map ins) ∧
      let c := ByteNet.init fun i : Fin (4 * 2 ^ b) => (ins i).run pp false (4 * 2 ^ b) i rng
      (max (8 + 2 ^ a * FixedWire.width F) (max (FixedWire.width G1) (FixedWire.width G2)) ≤ 8 * 1024 * 1024 - 12 →
        ∃ (outs : Nat → G1 × G2 × G1) (pA : G1) (pB : G2) (pC : G1),
          BytesAlwaysYield localTransport c (fun i => outs i) ∧ BytesAlwaysYield prodTransport c (fun i => outs i) ∧
          pp.openProof false ((List.range (4 * 2 ^ b)).map outs) = .ok (pA, pB, pC) ∧
          ∀ e : G1 →ₗ[F] G2 →ₗ[F] GT, Verifies e pk.vk ((z.take mats.numInstanceVariables).drop 1) pA pB pC) ∧
      (8 * 1024 * 1024 < 8 + 2 ^ a * FixedWire.width F → ∀ i : Fin (4 * 2 ^ b), i.val ≠ 0 →
        BytesNeverFinish localTransport c i ∧ BytesNeverFinish prodTransport c i) := by
  obtain ⟨ins, outs, D, pA, pB, pC, h1, h2, h3, h4, h5, h6, h7, h8, -⟩ :=
    example_session (GT := GT) hpp a ha hcirc hqap hk hγ hδ gen1 gen2 r s tape rng
  have hD : D = 0 := (errors_zero hcirc.prim hcirc.le h6).2 hsat
  refine ⟨ins, h1, fun hl => ⟨outs, pA, pB, pC, C81_local _ _ (h3 _ (by omega)), C81_prod _ _ (h3 _ hl), h5, fun e => ⟨h7, ?_⟩⟩,
    fun hl i hi => ⟨(C81_never _ i).1 (h4 _ hl i hi), (C81_never _ i).2 (h4 _ (by omega) i hi)⟩⟩
  rw [h8 e, hD, eval_zero, zero_smul, add_zero]

/-- **C81** BN254 on bytes, from a constraint system to the proof: for every satisfied constraint system of at most `2^17·l` rows, the release
build of the example as written ends on the byte streams of either network with a proof that verifies, whatever the schedule and the pieces
in which bytes arrive. With more rows no client ever finishes. -/
theorem C81_bn254 {G1 G2 GT : Type} [AddCommGroup G1] [Module Bn254Fr G1] [DecidableEq G1] [FixedWire G1] [AddCommGroup G2]
    [Module Bn254Fr G2] [DecidableEq G2] [FixedWire G2] [AddCommGroup GT] [Module Bn254Fr GT]
    (hw1 : FixedWire.width G1 ≤ 1024) (hw2 : FixedWire.width G2 ≤ 1024) {dbg₀ : Bool} {b : Nat} {pp : PSS Bn254Fr}
    (hpp : PSS.new dbg₀ (2 ^ b) = .ok pp) {mats : ConstraintMatrices Bn254Fr} {z : List Bn254Fr} (h : IsR1cs mats z)
    (hsat : Satisfies mats.numConstraints mats.a mats.b mats.c z)
    (hsize : mats.numConstraints + mats.numInstanceVariables ≤ 2 ^ 27)
    (hbig : 2 ^ b < 2 * (mats.numConstraints + mats.numInstanceVariables)) (t : Toxic Bn254Fr) (g1 : G1) (g2 : G2) (hγ : t.gamma ≠ 0)
    (hδ : t.delta ≠ 0) :
    ∃ (m : Nat) (ω w : Bn254Fr) (pa pb pc : Nat → Bn254Fr[X]) (pk : ProvingKey G1 G2), IsPrimitiveRoot ω m ∧
      IsQap mats z.length ω m pa pb pc ∧ IsCircomKey t g1 g2 z.length mats.numInstanceVariables m w pa pb pc pk ∧
      ∀ (gen1 : G1) (gen2 : G2) (r s : Bn254Fr) (tape : ClientTape Bn254Fr G1 G2) (rng : Nat → Nat → Nat → Bn254Fr),
      ∃ ins : Nat → ServerInput Bn254Fr G1 G2,
        pp.deal false pp.n mats z pk gen1 gen2 r s tape = .ok ((List.range (4 * 2 ^ b)).map ins) ∧
        let c := ByteNet.init fun i : Fin (4 * 2 ^ b) => (ins i).run pp false (4 * 2 ^ b) i rng
        (mats.numConstraints + mats.numInstanceVariables ≤ 2 ^ 17 * 2 ^ b → ∃ (outs : Nat → G1 × G2 × G1) (pA : G1) (pB : G2) (pC : G1),
          BytesAlwaysYield localTransport c (fun i => outs i) ∧ BytesAlwaysYield prodTransport c (fun i => outs i) ∧
          pp.openProof false ((List.range (4 * 2 ^ b)).map outs) = .ok (pA, pB, pC) ∧
          ∀ e : G1 →ₗ[Bn254Fr] G2 →ₗ[Bn254Fr] GT, Verifies e pk.vk ((z.take mats.numInstanceVariables).drop 1) pA pB pC) ∧
        (2 ^ 17 * 2 ^ b < mats.numConstraints + mats.numInstanceVariables → ∀ i : Fin (4 * 2 ^ b), i.val ≠ 0 →
          BytesNeverFinish localTransport c i ∧ BytesNeverFinish prodTransport c i) := by
  obtain ⟨a, dom, dom2, hc, ha, hab⟩ := circuit_of_size (b := b) h (show _ ≤ 2 ^ (28 - 1) from hsize) (by decide) (by decide) hbig
  obtain ⟨pa, pb, pc, pk, hq, hk⟩ := C35_key_exists (G1 := G1) (G2 := G2) hc t g1 g2
  refine ⟨2 ^ (a + b), dom.groupGen, dom2.groupGen, pa, pb, pc, pk, hc.prim, hq, hk, fun gen1 gen2 r s tape rng => ?_⟩
  obtain ⟨ins, h1, h2, h3⟩ := C81_example (GT := GT) hpp a ha hc hsat hq hk hγ hδ gen1 gen2 r s tape rng
  have hw : FixedWire.width Bn254Fr = 32 := rfl
  rw [hw] at h2 h3
  have hiff : mats.numConstraints + mats.numInstanceVariables ≤ 2 ^ 17 * 2 ^ b ↔ a ≤ 17 := by
    rw [← pow_add, ← Nat.clog_le_iff_le_pow (by norm_num), ← hab]
    omega
  obtain ⟨i1, i2⟩ := C53_elements_of_32_bytes a
  refine ⟨ins, h1, fun hl => h2 ?_, fun hl => h3 ?_⟩
  · have := i2.2 (hiff.1 hl)
    omega
  · by_contra hn
    have := hiff.2 (i1.1 (by omega))
    omega

/-! ### Examples -/

/-- Example for C81: the bytes of a packet with three bytes arrive in two pieces. -/
example (C : Nat × Nat × Sid → ByteChan) (procs : Fin 2 → Proc Bytes) (h : procs 1 = .recv 0 .one fun b => .done (.ok b))
    (hC : C (0, 1, .one) = ⟨[0, 0, 0, 3, 7, 8, 9, 0, 0], Framed.new⟩) :
    ∃ fr'' C', BSteps localTransport 2 ⟨procs, C⟩ ⟨procs, C'⟩ ∧ C' (0, 1, .one) = ⟨[0], fr''⟩ ∧
      (∀ x, x ≠ (0, 1, .one) → C' x = C x) ∧ DecodeState.head = .head ∧ decodeFrame fr''.st fr''.buf = .frame [7, 8, 9] [0] :=
  C81_next localTransport procs 1 0 .one ⟨[], _, by rw [h]; exact .recv _ _ _ _⟩ [[0, 0, 0], [3, 7, 8, 9, 0], [0]] (by decide) C Framed.new
    ⟨.head, [0]⟩ [7, 8, 9] [[0]] hC (by decide)

/-- Example for C81: a transform of four values between eight servers on the byte streams of both networks. -/
example : ∃ (sh outs outs' : Nat → List (ZMod 17)),
    let c := ByteNet.init fun i : Fin (4 * 2 ^ 1) => pp17.dFft true (4 * 2 ^ 1) i (sh i) (FftMask.zero 2) false dom17 .zero (fun i j => i + j)
    BytesAlwaysYield localTransport c (fun i => outs i) ∧ BytesAlwaysYield prodTransport c (fun i => outs' i) ∧
    opened pp17 2 outs = dom17.fft [1, 2, 3, 4] ∧ opened pp17 2 outs' = dom17.fft [1, 2, 3, 4] := by
  obtain ⟨shares, -, -, hs⟩ := C19_input_is_packed (pp17_eq true) true 1 ([1, 2, 3, 4] : List (ZMod 17)) rfl
    fun i j => 3 * (i : ZMod 17) + (j : ZMod 17)
  have h := C53_d_fft (pp17_eq true) true 1 (by norm_num) dom17_eq _ _ hs false (fun _ => FftMask.zero 2) (Or.inr fun _ => rfl) .zero
    (fun i j => i + j)
  obtain ⟨outs, h1, h2⟩ := (h (8 * 1024 * 1024)).1 (by show 8 + 2 ^ 1 * 1 ≤ 8 * 1024 * 1024; norm_num)
  obtain ⟨outs', h3, h4⟩ := (h (8 * 1024 * 1024 - 12)).1 (by show 8 + 2 ^ 1 * 1 ≤ 8 * 1024 * 1024 - 12; norm_num)
  have a1 := C81_local _ _ h1
  have a2 := C81_prod _ _ h3
  exact ⟨fun p => shares.getD p [], outs, outs', a1, a2, h2.opened (pp17_eq true), h4.opened (pp17_eq true)⟩

/-- Example for C81: a party that has to send one byte too many. -/
example : BytesNeverFinish localTransport (ByteNet.init fun _ : Fin 2 => Proc.send 0 .zero (List.replicate (8 * 1024 * 1024 + 1) 5) (.done (.ok ()))) 1 := by
  refine (C81_never _ 1).1 (Blocked.neverFinishes_init _ 1 ?_)
  exact .send _ _ _ _ (by rw [List.length_replicate]; omega)

/-- Example for C81: eight servers prove the knowledge of a root over BN254 on bytes, for every root. -/
example (x : Bn254Fr) (tape : ClientTape Bn254Fr Bn254Fr Bn254Fr) :
    ∃ (pp : PSS Bn254Fr) (pk : ProvingKey Bn254Fr Bn254Fr) (ins : Nat → ServerInput Bn254Fr Bn254Fr Bn254Fr)
      (outs : Nat → Bn254Fr × Bn254Fr × Bn254Fr),
      pp.deal false pp.n (squareMats Bn254Fr) [1, x * x, x] pk 1 1 5 6 tape = .ok ((List.range (4 * 2 ^ 1)).map ins) ∧
      BytesAlwaysYield prodTransport
        (ByteNet.init fun i : Fin (4 * 2 ^ 1) => (ins i).run pp false (4 * 2 ^ 1) i fun _ i j => i + j) (fun i => outs i) := by
  obtain ⟨pp, hpp⟩ := (C80_bn254_parameters.2.1 true 1).2 (by norm_num)
  obtain ⟨m, ω, w, pa, pb, pc, pk, -, -, -, h⟩ := C81_bn254 (G1 := Bn254Fr) (G2 := Bn254Fr) (GT := Bn254Fr) (by decide) (by decide) hpp
    (square_r1cs x).1 (square_r1cs x).2 (by show 1 + 2 ≤ 2 ^ 27; norm_num) (by show 2 ^ 1 < 2 * (1 + 2); norm_num)
    ⟨2, 3, 1, 1, 6⟩ 1 1 one_ne_zero one_ne_zero
  obtain ⟨ins, h1, h2, -⟩ := h 1 1 5 6 tape fun _ i j => i + j
  obtain ⟨outs, -, -, -, -, h3, -⟩ := h2 (by show 1 + 2 ≤ 2 ^ 17 * 2 ^ 1; norm_num)
  exact ⟨pp, pk, ins, outs, h1, h3⟩

end ZkSaas.Properties
