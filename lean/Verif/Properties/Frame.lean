import Verif.Properties.Proof
import Verif.Properties.Wire

/-!
# C53: how large an instance the frames of the network can carry
-/

set_option linter.unusedSectionVars false

namespace ZkSaas.Properties

open Finset Spec Polynomial

/-- **C53** The local test network sends a message exactly when it has at most 8 MiB. -/
theorem C53_local_limit (out m : Bytes) : (∃ out', sendStream out m = .ok out') ↔ m.length ≤ 8 * 1024 * 1024 := by
  refine ⟨fun ⟨o, h⟩ => ?_, fun h => ?_⟩
  · by_contra hc
    rw [(C46_sender out m).2 (by omega)] at h
    cases h
  · obtain ⟨b, -, e⟩ := (C46_sender out m).1 h
    exact ⟨_, e⟩

/-- **C53** The production network wraps messages in packets: it sends a message exactly when it has at most 8 MiB less 12 bytes. -/
theorem C53_prod_limit (out m : Bytes) : (∃ out', prodSend out m = .ok out') ↔ m.length ≤ 8 * 1024 * 1024 - 12 := by
  unfold prodSend sendPacket
  rw [C53_local_limit, ProtocolPacket.enc, List.length_append, List.length_append, leBytes_length, leBytes_length]
  omega

/-- **C53** With elements of 32 bytes (the scalar fields of the curves in use) a vector of `2^a` of them fits either network exactly
up to `a = 17`. -/
theorem C53_elements_of_32_bytes (a : Nat) :
    (8 + 2 ^ a * 32 ≤ 8 * 1024 * 1024 ↔ a ≤ 17) ∧ (8 + 2 ^ a * 32 ≤ 8 * 1024 * 1024 - 12 ↔ a ≤ 17) := by
  have h1 : a ≤ 17 → 2 ^ a ≤ 2 ^ 17 := fun h => Nat.pow_le_pow_right (by omega) h
  have h2 : 18 ≤ a → 2 ^ 18 ≤ 2 ^ a := fun h => Nat.pow_le_pow_right (by omega) h
  by_cases h : a ≤ 17
  · have := h1 h
    constructor <;> constructor <;> intro <;> omega
  · have := h2 (by omega)
    constructor <;> constructor <;> intro <;> omega

variable {F : Type} [Field F] [DecidableEq F] [FftField F] [FixedWire F]

/-- **C53** `d_fft` on a network that carries messages of up to `lim` bytes: it runs as on a network without limit if `8 + 2^a·w` bytes
fit (`w` the bytes of an element, `2^a` the size of the domain divided by `l`); otherwise no client ever finishes. -/
theorem C53_d_fft {dbg₀ : Bool} {b : Nat} {pp : PSS F} (hpp : PSS.new dbg₀ (2 ^ b) = .ok pp) (dbg : Bool) (a : Nat) (ha : a < 64)
    {dom : Domain F} (hdom : Domain.new (2 ^ (a + b)) = some dom) (sh : Nat → List F) (coeffs : List F)
    (hsh : HoldsInput pp a b sh coeffs) (rearrange : Bool) (masks : Nat → FftMask F)
    (hm : IsFftMasks pp rearrange 1 dom.groupGen (2 ^ (a + b)) masks) (sid : Sid) (rng : Nat → Nat → F) (lim : Nat) :
    let c := Net.init fun i : Fin (4 * 2 ^ b) => pp.dFft dbg (4 * 2 ^ b) i (sh i) (masks i) rearrange dom sid rng
    (8 + 2 ^ a * FixedWire.width F ≤ lim →
      ∃ outs : Nat → List F, AlwaysYieldsWithin lim c (fun i => outs i) ∧ HoldsOutput pp rearrange a b outs (dom.fft coeffs)) ∧
    (lim < 8 + 2 ^ a * FixedWire.width F → ∀ i : Fin (4 * 2 ^ b), i.val ≠ 0 → NeverFinishes lim c i) := by
  have hle := l_eq hpp
  obtain ⟨hwf, -, -, hsize⟩ := Domain.new_pow2 hdom
  refine ⟨fun h => ?_, fun h i hi => ?_⟩
  · obtain ⟨outs, hr, ho⟩ := dFft_runs hpp dbg a ha hdom hsh rearrange hm sid rng
    exact ⟨outs, (hr.upto le_rfl).alwaysYieldsWithin (fun i => PSS.dFft_wf _ (by positivity) _ _ _ _ _ _ _) h, ho⟩
  · obtain ⟨ψ, -, hmin, -⟩ := hm.ok hpp (hsize ▸ hwf.prim)
    obtain ⟨-, d, -, -, hs⟩ := hsh
    refine Blocked.neverFinishes_init _ i (PSS.dFft_blocked pp dbg hi _ _ _ _ _ _ ?_)
    rw [hmin.1 i (by rw [hle]; exact i.2), hs.1 i i.2, Nat.min_self]
    exact h

/-- **C53** The same for `d_ifft`. -/
theorem C53_d_ifft {dbg₀ : Bool} {b : Nat} {pp : PSS F} (hpp : PSS.new dbg₀ (2 ^ b) = .ok pp) (dbg : Bool) (a : Nat) (ha : a < 64)
    {dom : Domain F} (hdom : Domain.new (2 ^ (a + b)) = some dom) (sh : Nat → List F) (evals : List F)
    (hsh : HoldsInput pp a b sh evals) (g : F) (rearrange : Bool) (masks : Nat → FftMask F)
    (hm : IsFftMasks pp rearrange g dom.groupGenInv (2 ^ (a + b)) masks) (sid : Sid) (rng : Nat → Nat → F) (lim : Nat) :
    let c := Net.init fun i : Fin (4 * 2 ^ b) => pp.dIfft dbg (4 * 2 ^ b) i (sh i) (masks i) rearrange dom g sid rng
    (8 + 2 ^ a * FixedWire.width F ≤ lim →
      ∃ outs : Nat → List F, AlwaysYieldsWithin lim c (fun i => outs i) ∧
        HoldsOutput pp rearrange a b outs ((List.range (2 ^ (a + b))).map fun k => g ^ k * (dom.ifft evals).getD k 0)) ∧
    (lim < 8 + 2 ^ a * FixedWire.width F → ∀ i : Fin (4 * 2 ^ b), i.val ≠ 0 → NeverFinishes lim c i) := by
  have hle := l_eq hpp
  obtain ⟨hwf, -, -, hsize⟩ := Domain.new_pow2 hdom
  refine ⟨fun h => ?_, fun h i hi => ?_⟩
  · obtain ⟨outs, hr, ho⟩ := dIfft_runs hpp dbg a ha hdom hsh g rearrange hm sid rng
    exact ⟨outs, (hr.upto le_rfl).alwaysYieldsWithin (fun i => PSS.dIfft_wf _ (by positivity) _ _ _ _ _ _ _ _) h, ho⟩
  · obtain ⟨ψ, -, hmin, -⟩ := hm.ok hpp (by rw [hwf.ginv]; exact hsize ▸ hwf.prim.inv)
    obtain ⟨-, d, -, -, hs⟩ := hsh
    refine Blocked.neverFinishes_init _ i (PSS.dIfft_blocked pp dbg hi _ _ _ _ _ _ _ ?_)
    rw [hmin.1 i (by rw [hle]; exact i.2), hs.1 i i.2, Nat.min_self]
    exact h

/-- **C53** The same for `deg_red` of `N` positions, whose elements may be group elements. -/
theorem C53_deg_red {T : Type} [AddCommGroup T] [Module F T] [DecidableEq T] [FixedWire T] {dbg₀ : Bool} {b : Nat} {pp : PSS F}
    (hpp : PSS.new dbg₀ (2 ^ b) = .ok pp) (dbg : Bool) {N d : Nat}
    (hN : 0 < N) (hN64 : N < 2 ^ 64) (hd2 : 2 * 2 ^ b ≤ d) (hd4 : d ≤ 4 * 2 ^ b - 1) (sh sec : Nat → List T)
    (hsh : Spec.SharedVec pp.share.groupGen pp.secret.offset (2 ^ b) d N sh sec)
    (masks : Nat → DegRedMask T) (hm : IsDegRedMasks pp N masks) (sid : Sid) (rng : Nat → Nat → T) (lim : Nat) :
    let c := Net.init fun i : Fin (4 * 2 ^ b) => pp.degRed dbg (4 * 2 ^ b) i (sh i) (masks i) sid rng
    (8 + N * FixedWire.width T ≤ lim → ∃ outs : Nat → List T, AlwaysYieldsWithin lim c (fun i => outs i) ∧
      Spec.SharedVec pp.share.groupGen pp.secret.offset (2 ^ b) (2 * 2 ^ b) N outs sec) ∧
    (lim < 8 + N * FixedWire.width T → ∀ i : Fin (4 * 2 ^ b), i.val ≠ 0 → NeverFinishes lim c i) := by
  have hle := l_eq hpp
  have hg := PSS.good_of_new hpp
  rw [← hle] at hsh hd2 hd4
  refine ⟨fun h => ?_, fun h i hi => ?_⟩
  · obtain ⟨outs, hr, ho⟩ := PSS.degRed_runs (n := 4 * 2 ^ b) hg dbg (by rw [hle]) hN hN64 hd2 hd4 hsh (hm.ok hpp hN) sid rng
    exact ⟨outs, (hr.upto le_rfl).alwaysYieldsWithin (fun i => PSS.degRed_wf _ (by positivity) _ _ _ _ _) h, by rw [← hle]; exact ho⟩
  · obtain ⟨v, hmin, -⟩ := hm.ok hpp hN
    refine Blocked.neverFinishes_init _ i (PSS.degRed_blocked pp dbg hi _ _ _ _ ?_)
    rw [hmin.1 i (by rw [hle]; exact i.2), hsh.1 i (by rw [hle]; exact i.2), Nat.min_self]
    exact h

/-- **C53** `d_pp` sends numerators and denominators in one message, so it needs twice the room. -/
theorem C53_d_pp {dbg₀ : Bool} {b : Nat} {pp : PSS F} (hpp : PSS.new dbg₀ (2 ^ b) = .ok pp) (dbg : Bool) {N : Nat}
    (hN : 0 < N) (hN64 : N + N < 2 ^ 64) (num den : List F) (hnum : num.length = N * 2 ^ b) (hden : den.length = N * 2 ^ b)
    (h0 : ∀ y ∈ den, y ≠ 0) (masks : Nat → DegRedMask F) (hm : IsDegRedMasks pp N masks) (sid : Sid)
    (rngn rngd rng rng' : Nat → Nat → F) (lim : Nat) :
    ∃ sn sd : List (List F),
      (do let rows ← pp.packVec dbg num rngn; transpose rows) = .ok sn ∧
      (do let rows ← pp.packVec dbg den rngd; transpose rows) = .ok sd ∧
      let c := Net.init fun i : Fin (4 * 2 ^ b) => pp.dPp dbg (4 * 2 ^ b) i (sn.getD i []) (sd.getD i []) (masks i) sid rng rng'
      (8 + (N + N) * FixedWire.width F ≤ lim → ∃ outs : Nat → List F, AlwaysYieldsWithin lim c (fun i => outs i) ∧
        opened pp N outs = (List.range (N * 2 ^ b)).map fun i => ∏ j ∈ range (i + 1), num.getD j 0 / den.getD j 0) ∧
      (lim < 8 + (N + N) * FixedWire.width F → ∀ i : Fin (4 * 2 ^ b), i.val ≠ 0 → NeverFinishes lim c i) := by
  have hle := l_eq hpp
  have hg := PSS.good_of_new hpp
  have hl := hg.lpos
  obtain ⟨sn, en, hsn⟩ := deal hpp dbg hN num hnum rngn
  obtain ⟨sd, ed, hsd⟩ := deal hpp dbg hN den hden rngd
  rw [← hle] at hsn hsd
  refine ⟨sn, sd, en, ed, fun h => ?_, fun h i hi => ?_⟩
  · obtain ⟨outs, hr, ho⟩ := PSS.dPp_runs (n := 4 * 2 ^ b) hg dbg (by rw [hle]) hN hN64 (by omega) (by omega)
      (fun i => num.getD i 0) (fun i => den.getD i 0)
      (fun i hi => by
        rw [hle] at hi
        rw [List.getD_eq_getElem _ _ (by omega)]
        exact h0 _ (List.getElem_mem _)) hsn hsd (hm.ok hpp hN) sid rng rng'
    refine ⟨outs, hr.alwaysYieldsWithin (fun i => PSS.dPp_wf _ (by positivity) _ _ _ _ _ _ _) h, ?_⟩
    rw [opened_chunks hg le_rfl ho, hle]
    rfl
  · refine Blocked.neverFinishes_init _ i (PSS.dPp_blocked pp dbg hi _ _ _ _ _ _ ?_)
    rw [hsn.1 i (by rw [hle]; exact i.2), hsd.1 i (by rw [hle]; exact i.2)]
    exact h

/-- **C53** The messages of `d_msm` are single group elements, however long the vectors. -/
theorem C53_d_msm {G : Type} [AddCommGroup G] [Module F G] [DecidableEq G] [FixedWire G] {dbg₀ : Bool} {b : Nat} {pp : PSS F}
    (hpp : PSS.new dbg₀ (2 ^ b) = .ok pp) (dbg : Bool) {N : Nat} (bs bsec : Nat → List G) (ss ssec : Nat → List F)
    (hb : Spec.SharedVec pp.share.groupGen pp.secret.offset (2 ^ b) (2 * 2 ^ b) N bs bsec)
    (hs : Spec.SharedVec pp.share.groupGen pp.secret.offset (2 ^ b) (2 * 2 ^ b) N ss ssec)
    (masks : Nat → MsmMask G) (hm : IsMsmMasks pp masks) (sid : Sid) (lim : Nat) (h : FixedWire.width G ≤ lim) :
    ∃ outs : Nat → G, AlwaysYieldsWithin lim
        (Net.init fun i : Fin (4 * 2 ^ b) => pp.dMsm dbg (4 * 2 ^ b) i (bs i) (ss i) (masks i) sid) (fun i => outs i) ∧
      pp.unpack ((List.range (4 * 2 ^ b)).map outs) =
        List.replicate (2 ^ b) (∑ k ∈ range (2 ^ b), ∑ c ∈ range N, (ssec c).getD k 0 • (bsec c).getD k 0) := by
  have hle := l_eq hpp
  have hg := PSS.good_of_new hpp
  have hl := hg.lpos
  rw [← hle] at hb hs
  obtain ⟨outs, hr, ho⟩ := PSS.dMsm_runs (n := 4 * 2 ^ b) hg dbg (by rw [hle]) (by omega) (by omega) hb hs (hm.ok hpp) sid
  refine ⟨outs, (hr.upto le_rfl).alwaysYieldsWithin (fun i => PSS.dMsm_wf _ (by positivity) _ _ _ _ _) h, ?_⟩
  rw [← hle]
  exact PSS.unpack_of_shares hg le_rfl ho

/-- **C53** `circom_h`: one limit for its six transforms and the degree reduction. -/
theorem C53_circom_h {dbg₀ : Bool} {b : Nat} {pp : PSS F} (hpp : PSS.new dbg₀ (2 ^ b) = .ok pp) (dbg : Bool) (a : Nat)
    (ha : a < 64) {dom dom2 : Domain F} (hdom : Domain.new (2 ^ (a + b)) = some dom)
    (hdom2 : Domain.new (2 ^ (a + b + 1)) = some dom2) (q : Nat → PackedQAPShare F) (hq : ∀ p < 4 * 2 ^ b, (q p).domain = dom)
    (va vb vc : List F) (hva : HoldsInput pp a b (fun p => (q p).a) va) (hvb : HoldsInput pp a b (fun p => (q p).b) vb)
    (hvc : HoldsInput pp a b (fun p => (q p).c) vc) (A B C : F[X])
    (hA : Interpolates dom.groupGen (2 ^ (a + b)) (fun i => va.getD i 0) A)
    (hB : Interpolates dom.groupGen (2 ^ (a + b)) (fun i => vb.getD i 0) B)
    (hC : Interpolates dom.groupGen (2 ^ (a + b)) (fun i => vc.getD i 0) C)
    (masks : Nat → Nat → FftMask F) (hm : IsCircomMasks pp dom2.groupGen dom masks)
    (dmask : Nat → DegRedMask F) (hd : IsDegRedMasks pp (2 ^ a) dmask) (rng : Nat → Nat → Nat → F) (lim : Nat) :
    let c := Net.init fun i : Fin (4 * 2 ^ b) => pp.circomH dbg (4 * 2 ^ b) i (q i) (masks i) (dmask i) rng
    (8 + 2 ^ a * FixedWire.width F ≤ lim → ∃ outs : Nat → List F, AlwaysYieldsWithin lim c (fun i => outs i) ∧
      opened pp (2 ^ a) outs = (List.range (2 ^ (a + b))).map fun i => (A * B - C).eval (dom2.groupGen * dom.groupGen ^ i)) ∧
    (lim < 8 + 2 ^ a * FixedWire.width F → ∀ i : Fin (4 * 2 ^ b), i.val ≠ 0 → NeverFinishes lim c i) := by
  have hle := l_eq hpp
  obtain ⟨hwf, -, -, hsize⟩ := Domain.new_pow2 hdom
  refine ⟨fun h => ?_, fun h i hi => ?_⟩
  · obtain ⟨outs, hr, ho⟩ := circomH_runs hpp dbg a ha hdom hdom2 hq hva hvb hvc hA hB hC hm hd rng
    exact ⟨outs, (hr.upto le_rfl).alwaysYieldsWithin (fun i => circomH_wf _ (by positivity) _ _ _ _ _) h, ho.opened hpp⟩
  · have hm0 := hm.1 0 (by omega)
    rw [hsize] at hm0
    obtain ⟨ψ, -, hmin, -⟩ := hm0.ok hpp (by rw [hwf.ginv]; exact hsize ▸ hwf.prim.inv)
    obtain ⟨-, d, -, -, hs⟩ := hva
    have hl1 : (q i).a.length = 2 ^ a := hs.1 i i.2
    have hl2 : (masks i 0).inMask.length = 2 ^ a := hmin.1 i (by rw [hle]; exact i.2)
    refine Blocked.neverFinishes_init _ i (PSS.circomH_blocked pp dbg hi _ _ _ _ ?_)
    rw [hl1, hl2, Nat.min_self]
    exact h

/-- **C53** `libsnark_h`. -/
theorem C53_libsnark_h {dbg₀ : Bool} {b : Nat} {pp : PSS F} (hpp : PSS.new dbg₀ (2 ^ b) = .ok pp) (dbg : Bool) (a : Nat)
    (ha : a < 64) {dom : Domain F} (hdom : Domain.new (2 ^ (a + b)) = some dom) (hcos : ∃ x : F, x ≠ 0 ∧ x ^ 2 ^ (a + b) ≠ 1)
    (q : Nat → PackedQAPShare F) (hq : ∀ p < 4 * 2 ^ b, (q p).domain = dom)
    (va vb vc : List F) (hva : HoldsInput pp a b (fun p => (q p).a) va) (hvb : HoldsInput pp a b (fun p => (q p).b) vb)
    (hvc : HoldsInput pp a b (fun p => (q p).c) vc) (A B C H : F[X])
    (hA : Interpolates dom.groupGen (2 ^ (a + b)) (fun i => va.getD i 0) A)
    (hB : Interpolates dom.groupGen (2 ^ (a + b)) (fun i => vb.getD i 0) B)
    (hC : Interpolates dom.groupGen (2 ^ (a + b)) (fun i => vc.getD i 0) C)
    (hH : A * B - C = H * (X ^ 2 ^ (a + b) - 1))
    (masks : Nat → Nat → FftMask F) (hm : IsLibsnarkMasks pp dom masks) (rng : Nat → Nat → Nat → F) (lim : Nat) :
    let c := Net.init fun i : Fin (4 * 2 ^ b) => pp.libsnarkH dbg (4 * 2 ^ b) i (q i) (masks i) rng
    (8 + 2 ^ a * FixedWire.width F ≤ lim → ∃ outs : Nat → List F, AlwaysYieldsWithin lim c (fun i => outs i) ∧
      opened pp (2 ^ a) outs = (List.range (2 ^ (a + b))).map H.coeff) ∧
    (lim < 8 + 2 ^ a * FixedWire.width F → ∀ i : Fin (4 * 2 ^ b), i.val ≠ 0 → NeverFinishes lim c i) := by
  have hle := l_eq hpp
  obtain ⟨hwf, -, -, hsize⟩ := Domain.new_pow2 hdom
  refine ⟨fun h => ?_, fun h i hi => ?_⟩
  · obtain ⟨outs, hr, ho⟩ := libsnarkH_runs hpp dbg a ha hdom hcos hq hva hvb hvc hA hB hC hH hm rng
    exact ⟨outs, (hr.upto le_rfl).alwaysYieldsWithin (fun i => libsnarkH_wf _ (by positivity) _ _ _ _) h, ho.opened hpp⟩
  · have hm0 := hm.1 0 (by omega)
    rw [hsize] at hm0
    obtain ⟨ψ, -, hmin, -⟩ := hm0.ok hpp (by rw [hwf.ginv]; exact hsize ▸ hwf.prim.inv)
    obtain ⟨-, d, -, -, hs⟩ := hva
    have hl1 : (q i).a.length = 2 ^ a := hs.1 i i.2
    have hl2 : (masks i 0).inMask.length = 2 ^ a := hmin.1 i (by rw [hle]; exact i.2)
    refine Blocked.neverFinishes_init _ i (PSS.libsnarkH_blocked pp dbg hi _ _ _ ?_)
    rw [hl1, hl2, Nat.min_self]
    exact h

section session
variable {G1 G2 GT : Type} [AddCommGroup G1] [Module F G1] [DecidableEq G1] [FixedWire G1]
  [AddCommGroup G2] [Module F G2] [DecidableEq G2] [FixedWire G2] [AddCommGroup GT] [Module F GT]

/-- **C53** The session of the example: with room for `2^a` field elements (and for one element of each group) the servers finish and
the proof verifies; without room for the `2^a` field elements no server but the king ever finishes. -/
theorem C53_example {dbg₀ : Bool} {b : Nat} {pp : PSS F} (hpp : PSS.new dbg₀ (2 ^ b) = .ok pp) (a : Nat) (ha : a < 64)
    {mats : ConstraintMatrices F} {z : List F} {dom dom2 : Domain F} (hcirc : Circuit a b mats z dom dom2)
    (hsat : Satisfies mats.numConstraints mats.a mats.b mats.c z) {pa pb pc : Nat → F[X]}
    (hqap : IsQap mats z.length dom.groupGen (2 ^ (a + b)) pa pb pc) {t : Toxic F} {g1 : G1} {g2 : G2} {pk : ProvingKey G1 G2}
    (hk : IsCircomKey t g1 g2 z.length mats.numInstanceVariables (2 ^ (a + b)) dom2.groupGen pa pb pc pk) (hγ : t.gamma ≠ 0)
    (hδ : t.delta ≠ 0) (gen1 : G1) (gen2 : G2) (r s : F) (tape : ClientTape F G1 G2) (rng : Nat → Nat → Nat → F) (lim : Nat) :
    ∃ ins : Nat → ServerInput F G1 G2,
      pp.deal false pp.n mats z pk gen1 gen2 r s tape = .ok ((List.range (4 * 2 ^ b)).map ins) ∧
      let c := Net.init fun i : Fin (4 * 2 ^ b) => (ins i).run pp false (4 * 2 ^ b) i rng
      (8 + 2 ^ a * FixedWire.width F ≤ lim → FixedWire.width G1 ≤ lim → FixedWire.width G2 ≤ lim →
        ∃ (outs : Nat → G1 × G2 × G1) (pA : G1) (pB : G2) (pC : G1), AlwaysYieldsWithin lim c (fun i => outs i) ∧
          pp.openProof false ((List.range (4 * 2 ^ b)).map outs) = .ok (pA, pB, pC) ∧
          ∀ e : G1 →ₗ[F] G2 →ₗ[F] GT, Verifies e pk.vk ((z.take mats.numInstanceVariables).drop 1) pA pB pC) ∧
      (lim < 8 + 2 ^ a * FixedWire.width F → ∀ i : Fin (4 * 2 ^ b), i.val ≠ 0 → NeverFinishes lim c i) := by
  obtain ⟨ins, outs, D, pA, pB, pC, h1, -, h2, h2', h3, h4, h5, h6, -⟩ :=
    example_session (GT := GT) hpp a ha hcirc hqap hk hγ hδ gen1 gen2 r s tape rng
  have hD : D = 0 := (errors_zero hcirc.prim hcirc.le h4).2 hsat
  refine ⟨ins, h1, fun k1 k2 k3 => ⟨outs, pA, pB, pC, h2 lim (max_le k1 (max_le k2 k3)), h3, fun e => ⟨h5, ?_⟩⟩, h2' lim⟩
  rw [h6 e, hD, eval_zero, zero_smul, add_zero]

end session

/-! ### Examples -/

/-- Two field elements of one byte: ten bytes are enough, nine are not. -/
example : ∃ (sh outs : Nat → List (ZMod 17)),
    AlwaysYieldsWithin 10 (Net.init fun i : Fin (4 * 2 ^ 1) =>
      pp17.dFft true (4 * 2 ^ 1) i (sh i) (FftMask.zero 2) false dom17 .zero (fun i j => i + j)) (fun i => outs i) ∧
    opened pp17 2 outs = dom17.fft [1, 2, 3, 4] ∧
    NeverFinishes 9 (Net.init fun i : Fin (4 * 2 ^ 1) =>
      pp17.dFft true (4 * 2 ^ 1) i (sh i) (FftMask.zero 2) false dom17 .zero (fun i j => i + j)) ⟨3, by norm_num⟩ := by
  obtain ⟨shares, -, -, hs⟩ := C19_input_is_packed (pp17_eq true) true 1 ([1, 2, 3, 4] : List (ZMod 17)) rfl
    fun i j => 3 * (i : ZMod 17) + (j : ZMod 17)
  have h := C53_d_fft (pp17_eq true) true 1 (by norm_num) dom17_eq _ _ hs false (fun _ => FftMask.zero 2) (Or.inr fun _ => rfl) .zero
    (fun i j => i + j)
  obtain ⟨outs, h1, h2⟩ := (h 10).1 (by decide)
  have h3 := (h 9).2 (by decide) ⟨3, by norm_num⟩ (by decide)
  exact ⟨fun p => shares.getD p [], outs, h1, h2.opened (pp17_eq true), h3⟩

/-- The session of the example circuit on a network with frames of ten bytes, and on one with frames of nine. -/
example (tape : ClientTape (ZMod 17) (ZMod 17) (ZMod 17)) : ∃ (pk : ProvingKey (ZMod 17) (ZMod 17))
    (ins : Nat → ServerInput (ZMod 17) (ZMod 17) (ZMod 17)) (outs : Nat → ZMod 17 × ZMod 17 × ZMod 17),
    pp17.deal false 8 mats17 z17 pk 1 1 5 6 tape = .ok ((List.range 8).map ins) ∧
    AlwaysYieldsWithin 10 (Net.init fun i : Fin (4 * 2 ^ 1) => (ins i).run pp17 false (4 * 2 ^ 1) i fun _ i j => i + j) (fun i => outs i) ∧
    NeverFinishes 9 (Net.init fun i : Fin (4 * 2 ^ 1) => (ins i).run pp17 false (4 * 2 ^ 1) i fun _ i j => i + j) ⟨1, by norm_num⟩ := by
  obtain ⟨pa, pb, pc, pk, h1, h2⟩ := C35_key_exists circuit17 (⟨2, 3, 4, 5, 6⟩ : Toxic (ZMod 17)) (1 : ZMod 17) (1 : ZMod 17)
  have h := C53_example (GT := ZMod 17) (pp17_eq true) 1 (by norm_num) circuit17 mats17_sat h1 h2
    (by decide) (by decide) 1 1 5 6 tape fun _ i j => i + j
  obtain ⟨ins, h3, h4, -⟩ := h 10
  obtain ⟨ins', h3', -, h5⟩ := h 9
  obtain ⟨outs, -, -, -, h6, -⟩ := h4 (by decide) (by decide) (by decide)
  have he : ∀ i : Fin (4 * 2 ^ 1), ins' i = ins i := by
    intro i
    have := h3.symm.trans h3'
    injection this with this
    have := congrArg (fun l => l[i.val]?) this
    simpa using this.symm
  have h7 := h5 (by decide) ⟨1, by norm_num⟩ (by decide)
  simp only [he] at h7
  exact ⟨pk, ins, outs, h3, h6, h7⟩

/-- Examples for C53: nine bytes fit both networks; an instance of `2^17` elements per server fits and one of `2^18` does not. -/
example (out : Bytes) : (∃ out', sendStream out [1, 2, 3, 4, 5, 6, 7, 8, 9] = .ok out') ∧ ∃ out', prodSend out [1, 2, 3, 4, 5, 6, 7, 8, 9] = .ok out' :=
  ⟨(C53_local_limit out _).2 (by decide), (C53_prod_limit out _).2 (by decide)⟩

example : 8 + 2 ^ 17 * 32 ≤ 8 * 1024 * 1024 ∧ ¬ 8 + 2 ^ 18 * 32 ≤ 8 * 1024 * 1024 - 12 :=
  ⟨(C53_elements_of_32_bytes 17).1.2 le_rfl, fun h => absurd ((C53_elements_of_32_bytes 18).2.1 h) (by decide)⟩

/-- Example for C53: an inverse transform of four values between eight servers with frames of ten bytes, and of nine. -/
example : ∃ (sh outs : Nat → List (ZMod 17)),
    AlwaysYieldsWithin 10 (Net.init fun i : Fin (4 * 2 ^ 1) =>
      pp17.dIfft true (4 * 2 ^ 1) i (sh i) (FftMask.zero 2) false dom17 3 .zero (fun i j => i + j)) (fun i => outs i) ∧
    NeverFinishes 9 (Net.init fun i : Fin (4 * 2 ^ 1) =>
      pp17.dIfft true (4 * 2 ^ 1) i (sh i) (FftMask.zero 2) false dom17 3 .zero (fun i j => i + j)) ⟨3, by norm_num⟩ := by
  obtain ⟨shares, -, -, hs⟩ := C19_input_is_packed (pp17_eq true) true 1 ([1, 2, 3, 4] : List (ZMod 17)) rfl
    fun i j => 3 * (i : ZMod 17) + (j : ZMod 17)
  have h := C53_d_ifft (pp17_eq true) true 1 (by norm_num) dom17_eq _ _ hs 3 false (fun _ => FftMask.zero 2) (Or.inr fun _ => rfl) .zero
    (fun i j => i + j)
  obtain ⟨outs, h1, -⟩ := (h 10).1 (by decide)
  exact ⟨fun p => shares.getD p [], outs, h1, (h 9).2 (by decide) ⟨3, by norm_num⟩ (by decide)⟩

/-- Example for C53: reducing the degree of one position with frames of nine bytes, and of eight. -/
example : ∃ (sh outs : Nat → List (ZMod 17)),
    AlwaysYieldsWithin 9 (Net.init fun i : Fin (4 * 2 ^ 1) =>
      pp17.degRed true (4 * 2 ^ 1) i (sh i) (DegRedMask.zero 1) .zero (fun i j => i + j)) (fun i => outs i) ∧
    NeverFinishes 8 (Net.init fun i : Fin (4 * 2 ^ 1) =>
      pp17.degRed true (4 * 2 ^ 1) i (sh i) (DegRedMask.zero 1) .zero (fun i j => i + j)) ⟨3, by norm_num⟩ := by
  obtain ⟨sh, -, h⟩ := packFromWitness_holds (b := 1) (pp17_eq true) true ([3, 5] : List (ZMod 17)) fun _ _ => 1
  have h := C53_deg_red (T := ZMod 17) (pp17_eq true) true (N := 1) (d := 2 * 2 ^ 1) (by norm_num) (by norm_num) (by norm_num) (by norm_num)
    sh (fun c => chunks (2 ^ 1) (fun i => [3, 5].getD i 0) c) h (fun _ => DegRedMask.zero 1) (.inr fun _ => rfl) .zero fun i j => i + j
  obtain ⟨outs, h1, -⟩ := (h 9).1 (by decide)
  exact ⟨sh, outs, h1, (h 8).2 (by decide) ⟨3, by norm_num⟩ (by decide)⟩

/-- Example for C53: the partial products of `3/2` and `5/7` need ten bytes. -/
example : ∃ (sn sd : List (List (ZMod 17))) (outs : Nat → List (ZMod 17)),
    AlwaysYieldsWithin 10 (Net.init fun i : Fin (4 * 2 ^ 1) =>
      pp17.dPp true (4 * 2 ^ 1) i (sn.getD i []) (sd.getD i []) (DegRedMask.zero 1) .zero (fun i j => i + j) (fun i j => i * j)) (fun i => outs i) ∧
    opened pp17 1 outs = [10, 12] := by
  obtain ⟨sn, sd, -, -, h, -⟩ := C53_d_pp (pp17_eq true) true (N := 1) (by norm_num) (by norm_num) [3, 5] [2, 7] rfl rfl (by decide)
    (fun _ => DegRedMask.zero 1) (.inr fun _ => rfl) .zero (fun i j => i + j) (fun i j => i + j) (fun i j => i + j) (fun i j => i * j) 10
  obtain ⟨outs, h1, h2⟩ := h (by decide)
  exact ⟨sn, sd, outs, h1, h2.trans (by decide +kernel)⟩

/-- Example for C53: `3·1 + 5·4` with messages of one byte. -/
example : ∃ (bs ss : Nat → List (ZMod 17)) (outs : Nat → ZMod 17),
    AlwaysYieldsWithin 1 (Net.init fun i : Fin (4 * 2 ^ 1) => pp17.dMsm true (4 * 2 ^ 1) i (bs i) (ss i) MsmMask.zero .zero) (fun i => outs i) ∧
    pp17.unpack ((List.range (4 * 2 ^ 1)).map outs) = [6, 6] := by
  obtain ⟨bs, -, hb⟩ := packFromWitness_holds (b := 1) (pp17_eq true) true ([1, 4] : List (ZMod 17)) fun _ _ => 1
  obtain ⟨ss, -, hs⟩ := packFromWitness_holds (b := 1) (pp17_eq true) true ([3, 5] : List (ZMod 17)) fun _ _ => 1
  obtain ⟨outs, h1, h2⟩ := C53_d_msm (G := ZMod 17) (pp17_eq true) true (N := 1) bs _ ss _ hb hs (fun _ => MsmMask.zero) (.inr fun _ => rfl) .zero 1 (by decide)
  exact ⟨bs, ss, outs, h1, h2.trans (by decide +kernel)⟩

/-- Examples for C53: both `h` computations on the example circuit with frames of ten bytes, and of nine. -/
example : ∃ (q : Nat → PackedQAPShare (ZMod 17)) (outs : Nat → List (ZMod 17)),
    AlwaysYieldsWithin 10 (Net.init fun i : Fin (4 * 2 ^ 1) => pp17.circomH true (4 * 2 ^ 1) i (q i) (fun _ => FftMask.zero 2) (DegRedMask.zero 2)
      fun _ i j => i + j) (fun i => outs i) ∧
    NeverFinishes 9 (Net.init fun i : Fin (4 * 2 ^ 1) => pp17.circomH true (4 * 2 ^ 1) i (q i) (fun _ => FftMask.zero 2) (DegRedMask.zero 2)
      fun _ i j => i + j) ⟨3, by norm_num⟩ := by
  obtain ⟨q, A, B, C, hq, h1, h2, h3, iA, iB, iC⟩ := shares17
  have h := C53_circom_h (pp17_eq true) true 1 (by norm_num) dom17_eq dom17b_eq q hq _ _ _ h1 h2 h3 A B C iA iB iC
    (fun _ _ => FftMask.zero 2) ⟨fun _ _ => .inr fun _ => rfl, fun _ _ => .inr fun _ => rfl⟩ (fun _ => DegRedMask.zero 2) (.inr fun _ => rfl)
    fun _ i j => i + j
  obtain ⟨outs, h4, -⟩ := (h 10).1 (by decide)
  exact ⟨q, outs, h4, (h 9).2 (by decide) ⟨3, by norm_num⟩ (by decide)⟩

example : ∃ (q : Nat → PackedQAPShare (ZMod 17)) (outs : Nat → List (ZMod 17)),
    AlwaysYieldsWithin 10 (Net.init fun i : Fin (4 * 2 ^ 1) => pp17.libsnarkH true (4 * 2 ^ 1) i (q i) (fun _ => FftMask.zero 2)
      fun _ i j => i + j) (fun i => outs i) ∧
    NeverFinishes 9 (Net.init fun i : Fin (4 * 2 ^ 1) => pp17.libsnarkH true (4 * 2 ^ 1) i (q i) (fun _ => FftMask.zero 2)
      fun _ i j => i + j) ⟨3, by norm_num⟩ := by
  obtain ⟨q, A, B, C, hq, h1, h2, h3, iA, iB, iC⟩ := shares17
  obtain ⟨H, -, -, e, -⟩ := C32_libsnark_h (pp17_eq true) true 1 (by norm_num) dom17_eq ⟨3, by decide, by decide⟩ q hq _ _ _ h1 h2 h3
    A B C iA iB iC (by decide) (fun _ _ => FftMask.zero 2)
    ⟨fun _ _ => .inr fun _ => rfl, fun _ _ => .inr fun _ => rfl, .inr fun _ => rfl⟩ fun _ i j => i + j
  have h := C53_libsnark_h (pp17_eq true) true 1 (by norm_num) dom17_eq ⟨3, by decide, by decide⟩ q hq _ _ _ h1 h2 h3 A B C H iA iB iC e
    (fun _ _ => FftMask.zero 2) ⟨fun _ _ => .inr fun _ => rfl, fun _ _ => .inr fun _ => rfl, .inr fun _ => rfl⟩ fun _ i j => i + j
  obtain ⟨outs, h4, -⟩ := (h 10).1 (by decide)
  exact ⟨q, outs, h4, (h 9).2 (by decide) ⟨3, by norm_num⟩ (by decide)⟩

end ZkSaas.Properties
