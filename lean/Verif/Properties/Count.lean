import Verif.Lemmas.Count
import Verif.Properties.Silent
import Verif.Properties.Opening
import Verif.Spec.Count

/-!
# C96: another number of servers than shares

The protocols take the number of parties from the network and the number of shares from the packing parameters, and compare them nowhere (only the
king of `d_pp` asserts it in a debug build). With one server too few everything but `d_pp` still works in every build; a release build works with any
number of servers from the number of coefficients on. With two too few in a debug build, or with one too many in any build, the king panics
and everybody else waits for ever. The client of the example does not notice that an answer is missing: in a debug build it panics, in a release build
it opens a wrong proof.
-/

set_option linter.unusedSectionVars false

namespace ZkSaas.Properties

open Finset Polynomial Spec

variable {F : Type} [Field F] [DecidableEq F] [FftField F] [FixedWire F]

omit [FixedWire F] in
theorem enough_decodable {dbg₀ : Bool} {b : Nat} {pp : PSS F} (hpp : PSS.new dbg₀ (2 ^ b) = .ok pp) {dbg : Bool} {d n : Nat}
    (h : EnoughServers (2 ^ b) dbg d n) : pp.Decodable dbg d (List.range n) := by
  have hle := l_eq hpp
  obtain ⟨h1, h2, h3⟩ := h
  by_cases hn : n = 4 * 2 ^ b
  · exact .inl (by rw [hle, hn])
  · refine .inr ⟨List.nodup_range, fun p hp => ?_, ?_, ?_, fun hd => ?_⟩
    · rw [List.mem_range] at hp; omega
    all_goals rw [List.length_range]
    · omega
    · omega
    · have := h3 hd; omega

section
variable {T : Type} [AddCommGroup T] [Module F T] [DecidableEq T]

omit [FixedWire F] in
/-- `n` servers can open what they hold. -/
theorem opens_few {dbg₀ : Bool} {b : Nat} {pp : PSS F} (hpp : PSS.new dbg₀ (2 ^ b) = .ok pp) {dbg : Bool} {d d' n N : Nat}
    (h : EnoughServers (2 ^ b) dbg d n) (hd : d' ≤ d) (hd4 : d' ≤ 4 * 2 ^ b - 1) {outs sec : Nat → List T}
    (ho : Spec.SharedVec pp.share.groupGen pp.secret.offset (2 ^ b) d' N outs sec) {c : Nat} (hc : c < N) :
    pp.unpackMissingShares dbg ((List.range n).map fun p => (outs p).getD c 0) (List.range n) = .ok (sec c) := by
  have hle := l_eq hpp
  have hdec := enough_decodable hpp (d := d') ⟨hd.trans h.1, h.2.1, h.2.2⟩
  rw [← hle] at ho hd4
  exact PSS.unpackMissing_of_shares (PSS.good_of_new hpp) dbg hdec hd4 _ (ho.2 c hc)

end

/-! ### Enough servers -/

/-- **C96** `d_fft` with `n` servers, `d ≤ n ≤ 4l`, in a debug build `n ≥ 4l - 1`: under every schedule every server ends with its share of the
transform, and the `n` shares open to it. -/
theorem C96_d_fft {dbg₀ : Bool} {b : Nat} {pp : PSS F} (hpp : PSS.new dbg₀ (2 ^ b) = .ok pp) (dbg : Bool) {n d : Nat}
    (hn : EnoughServers (2 ^ b) dbg d n) (a : Nat) (ha : a < 64) {dom : Domain F} (hdom : Domain.new (2 ^ (a + b)) = some dom)
    (sh : Nat → List F) (coeffs : List F) (hd2 : 2 * 2 ^ b ≤ d) (hd4 : d ≤ 4 * 2 ^ b - 1)
    (hsh : Spec.SharedVec pp.share.groupGen pp.secret.offset (2 ^ b) d (2 ^ a) sh (packed true a b fun i => coeffs.getD i 0))
    (rearrange : Bool) (masks : Nat → FftMask F)
    (hm : IsFftMasks pp rearrange 1 dom.groupGen (2 ^ (a + b)) masks) (sid : Sid) (rng : Nat → Nat → F) :
    ∃ outs : Nat → List F,
      AlwaysYields (Net.init fun i : Fin n => pp.dFft dbg n i (sh i) (masks i) rearrange dom sid rng) (fun i => outs i) ∧
      HoldsOutput pp rearrange a b outs (dom.fft coeffs) ∧
      ∀ c < 2 ^ a, pp.unpackMissingShares dbg ((List.range n).map fun p => (outs p).getD c 0) (List.range n) =
        .ok (packed rearrange a b (fun i => (dom.fft coeffs).getD i 0) c) := by
  have hle := l_eq hpp
  have hg := PSS.good_of_new hpp
  have hb0 : 0 < 2 ^ b := by positivity
  have hn0 : 0 < n := by have := hn.1; omega
  obtain ⟨hwf, hoff, -, hsize⟩ := Domain.new_pow2 hdom
  have hprim : IsPrimitiveRoot dom.groupGen (2 ^ (a + b)) := hsize ▸ hwf.prim
  have hdec := enough_decodable hpp hn
  have hd2' := hd2
  have hd4' := hd4
  rw [← hle] at hsh hd2 hd4
  obtain ⟨outs, hr, ho⟩ := PSS.dFft_few (n := n) hg dbg hn0 (by rw [hle]; exact hn.2.1) ha hle hsize hprim hd2 hd4 hdec _ hsh
    rearrange (hm.ok hpp hprim) sid rng
  have hout : HoldsOutput pp rearrange a b outs (dom.fft coeffs) := by
    refine ⟨by simp [hsize], ?_⟩
    rw [← hle]
    refine SharedVec.congr ho (fun _ _ => rfl) fun c hc => packed_congr _ hc fun i hi => ?_
    exact Domain.sum_eq_fft hoff hsize _ hi
  exact ⟨outs, hr.alwaysYields fun i => PSS.dFft_wf _ hn0 _ _ _ _ _ _ _, hout,
    fun c hc => opens_few hpp hn hd2' (by omega) hout.2 hc⟩

/-- **C96** The same of `d_ifft`. -/
theorem C96_d_ifft {dbg₀ : Bool} {b : Nat} {pp : PSS F} (hpp : PSS.new dbg₀ (2 ^ b) = .ok pp) (dbg : Bool) {n d : Nat}
    (hn : EnoughServers (2 ^ b) dbg d n) (a : Nat) (ha : a < 64) {dom : Domain F} (hdom : Domain.new (2 ^ (a + b)) = some dom)
    (sh : Nat → List F) (evals : List F) (hd2 : 2 * 2 ^ b ≤ d) (hd4 : d ≤ 4 * 2 ^ b - 1)
    (hsh : Spec.SharedVec pp.share.groupGen pp.secret.offset (2 ^ b) d (2 ^ a) sh (packed true a b fun i => evals.getD i 0)) (g : F)
    (rearrange : Bool) (masks : Nat → FftMask F)
    (hm : IsFftMasks pp rearrange g dom.groupGenInv (2 ^ (a + b)) masks) (sid : Sid) (rng : Nat → Nat → F) :
    ∃ outs : Nat → List F,
      AlwaysYields (Net.init fun i : Fin n => pp.dIfft dbg n i (sh i) (masks i) rearrange dom g sid rng) (fun i => outs i) ∧
      HoldsOutput pp rearrange a b outs ((List.range (2 ^ (a + b))).map fun k => g ^ k * (dom.ifft evals).getD k 0) ∧
      ∀ c < 2 ^ a, pp.unpackMissingShares dbg ((List.range n).map fun p => (outs p).getD c 0) (List.range n) =
        .ok (packed rearrange a b (fun i => ((List.range (2 ^ (a + b))).map fun k => g ^ k * (dom.ifft evals).getD k 0).getD i 0) c) := by
  have hle := l_eq hpp
  have hg := PSS.good_of_new hpp
  have hb0 : 0 < 2 ^ b := by positivity
  have hn0 : 0 < n := by have := hn.1; omega
  obtain ⟨hwf, -, hoff, hsize⟩ := Domain.new_pow2 hdom
  have hprim : IsPrimitiveRoot dom.groupGenInv (2 ^ (a + b)) := by
    rw [hwf.ginv]; exact hsize ▸ hwf.prim.inv
  have hdec := enough_decodable hpp hn
  have hd2' := hd2
  have hd4' := hd4
  rw [← hle] at hsh hd2 hd4
  obtain ⟨outs, hr, ho⟩ := PSS.dIfft_few (n := n) hg dbg hn0 (by rw [hle]; exact hn.2.1) ha hle hsize hprim hd2 hd4 hdec _ hsh g
    rearrange (hm.ok hpp hprim) sid rng
  have hout : HoldsOutput pp rearrange a b outs ((List.range (2 ^ (a + b))).map fun k => g ^ k * (dom.ifft evals).getD k 0) := by
    refine ⟨by simp, ?_⟩
    rw [← hle]
    refine SharedVec.congr ho (fun _ _ => rfl) fun c hc => packed_congr _ hc fun i hi => ?_
    rw [Domain.sum_eq_ifft hoff hsize _ hi, getD_map_range, if_pos hi]
  exact ⟨outs, hr.alwaysYields fun i => PSS.dIfft_wf _ hn0 _ _ _ _ _ _ _ _, hout,
    fun c hc => opens_few hpp hn hd2' (by omega) hout.2 hc⟩

section degred
variable {T : Type} [AddCommGroup T] [Module F T] [DecidableEq T] [FixedWire T]

/-- **C96** The same of `deg_red`. -/
theorem C96_deg_red {dbg₀ : Bool} {b : Nat} {pp : PSS F} (hpp : PSS.new dbg₀ (2 ^ b) = .ok pp) (dbg : Bool) {n N d : Nat}
    (hn : EnoughServers (2 ^ b) dbg d n) (hN : 0 < N) (hN64 : N < 2 ^ 64) (hd2 : 2 * 2 ^ b ≤ d) (hd4 : d ≤ 4 * 2 ^ b - 1) (sh sec : Nat → List T)
    (hsh : Spec.SharedVec pp.share.groupGen pp.secret.offset (2 ^ b) d N sh sec)
    (masks : Nat → DegRedMask T) (hm : IsDegRedMasks pp N masks) (sid : Sid) (rng : Nat → Nat → T) :
    ∃ outs : Nat → List T,
      AlwaysYields (Net.init fun i : Fin n => pp.degRed dbg n i (sh i) (masks i) sid rng) (fun i => outs i) ∧
      Spec.SharedVec pp.share.groupGen pp.secret.offset (2 ^ b) (2 * 2 ^ b) N outs sec ∧
      ∀ c < N, pp.unpackMissingShares dbg ((List.range n).map fun p => (outs p).getD c 0) (List.range n) = .ok (sec c) := by
  have hle := l_eq hpp
  have hg := PSS.good_of_new hpp
  have hb0 : 0 < 2 ^ b := by positivity
  have hn0 : 0 < n := by have := hn.1; omega
  have hdec := enough_decodable hpp hn
  have hd2' := hd2
  rw [← hle] at hd2 hd4 hsh
  obtain ⟨outs, hr, ho⟩ := PSS.degRed_few (n := n) hg dbg hn0 (by rw [hle]; exact hn.2.1) hN hN64 hd2 hd4 hdec hsh (hm.ok hpp hN) sid rng
  rw [PSS.SharedVec, hle] at ho
  exact ⟨outs, hr.alwaysYields fun i => PSS.degRed_wf _ hn0 _ _ _ _ _, ho, fun c hc => opens_few hpp hn hd2' (by omega) ho hc⟩

end degred

section dmsm
variable {G : Type} [AddCommGroup G] [Module F G] [DecidableEq G] [FixedWire G]

/-- **C96** The same of `d_msm`, on bases and scalars shared with `2l` coefficients: their product has `4l - 1`. -/
theorem C96_d_msm {dbg₀ : Bool} {b : Nat} {pp : PSS F} (hpp : PSS.new dbg₀ (2 ^ b) = .ok pp) (dbg : Bool) {n : Nat}
    (hn : EnoughServers (2 ^ b) dbg (4 * 2 ^ b - 1) n) {y : List G} {x : List F} (hlen : x.length = y.length) (bs : Nat → List G)
    (ss : Nat → List F) (hb : HoldsChunks pp b bs y) (hs : HoldsChunks pp b ss x) (masks : Nat → MsmMask G) (hm : IsMsmMasks pp masks) (sid : Sid) :
    ∃ outs : Nat → G,
      AlwaysYields (Net.init fun i : Fin n => pp.dMsm dbg n i (bs i) (ss i) (masks i) sid) (fun i => outs i) ∧
      HoldsValue pp b outs (∑ i ∈ range y.length, x.getD i 0 • y.getD i 0) ∧
      pp.unpackMissingShares dbg ((List.range n).map outs) (List.range n) =
        .ok (List.replicate (2 ^ b) (∑ i ∈ range y.length, x.getD i 0 • y.getD i 0)) := by
  have hle := l_eq hpp
  have hb0 : 0 < 2 ^ b := by positivity
  obtain ⟨h1, h2, -⟩ := id hn
  obtain ⟨outs, hr, ho⟩ := dMsm_chunks_few hpp dbg (n := n) (by omega) hlen hb hs hm sid
  have hn0 : 0 < n := by omega
  refine ⟨outs, hr.alwaysYields fun i => PSS.dMsm_wf _ hn0 _ _ _ _ _, ho, ?_⟩
  have hdec := enough_decodable hpp hn
  have ho' := ho.product
  rw [HoldsProduct, ← hle] at ho'
  rw [← hle] at hdec ⊢
  exact PSS.unpackMissing_of_shares (PSS.good_of_new hpp) dbg hdec le_rfl _ ho'

end dmsm

/-- **C96** The same of `d_pp`, in a release build. -/
theorem C96_d_pp_release {dbg₀ : Bool} {b : Nat} {pp : PSS F} (hpp : PSS.new dbg₀ (2 ^ b) = .ok pp) {n N : Nat}
    (hn : EnoughServers (2 ^ b) false (2 * 2 ^ b) n) (hN : 0 < N) (hN64 : N + N < 2 ^ 64) (num den : List F) (num' den' : Nat → List F)
    (hnum : Spec.SharedVec pp.share.groupGen pp.secret.offset (2 ^ b) (2 * 2 ^ b) N num' (chunks (2 ^ b) fun i => num.getD i 0))
    (hden : Spec.SharedVec pp.share.groupGen pp.secret.offset (2 ^ b) (2 * 2 ^ b) N den' (chunks (2 ^ b) fun i => den.getD i 0))
    (h0 : ∀ i < N * 2 ^ b, den.getD i 0 ≠ 0) (masks : Nat → DegRedMask F) (hm : IsDegRedMasks pp N masks) (sid : Sid)
    (rng rng' : Nat → Nat → F) :
    ∃ outs : Nat → List F,
      AlwaysYields (Net.init fun i : Fin n => pp.dPp false n i (num' i) (den' i) (masks i) sid rng rng') (fun i => outs i) ∧
      ∀ c < N, pp.unpackMissingShares false ((List.range n).map fun p => (outs p).getD c 0) (List.range n) =
        .ok (chunks (2 ^ b) (fun i => ∏ j ∈ range (i + 1), num.getD j 0 / den.getD j 0) c) := by
  have hle := l_eq hpp
  have hg := PSS.good_of_new hpp
  have hl := hg.lpos
  have hb0 : 0 < 2 ^ b := by positivity
  have hn0 : 0 < n := by have := hn.1; omega
  have hdec := enough_decodable hpp hn
  have hn4 : n ≤ 4 * pp.l := by rw [hle]; exact hn.2.1
  rw [← hle] at hnum hden h0 hdec
  have hsh := SharedVec.append hnum hden
  obtain ⟨out, hK, hol, hos⟩ := PSS.ppKing_ok hg false hN (by omega) (by omega) _ _ h0 hsh rng
  obtain ⟨outs, hr, ho⟩ := PSS.degRed_few (n := n) hg false hn0 hn4 hN (by omega : N < 2 ^ 64) le_rfl (by omega) hdec hos
    (hm.ok hpp hN) sid rng'
  refine ⟨outs, ?_, fun c hc => ?_⟩
  · refine Runs.alwaysYields (P := All) ?_ fun i => PSS.dPp_wf _ hn0 _ _ _ _ _ _ _
    refine (runs_round_more hn0 sid pp.t (fun i => num' i ++ den' i)
      (fun i hi => Wire.ok_list _ (by rw [hsh.1 i (by omega)]; exact hN64))
      (fun i rs => pp.ppKing false rs.shares rs.parties rng)
      (fun i => out.getD i []) (8 + N * FixedWire.width F) (4 * pp.l) hn4 ?_ ?_
      (fun i y => pp.degRed false n i y (masks i) sid rng') (hr.weaken fun _ _ => trivial)).congr (fun i => ?_) (fun i => rfl)
    · rw [PSS.ppKing_decodable hg (by omega) (by omega) (by omega) hsh hdec, hK, map_getD_range _ _ hol]
    · intro i hi
      have := hos.1 i (by omega)
      exact ⟨Wire.ok_list _ (by rw [this]; omega), by rw [Wire.enc_list_length, this]⟩
    · exact PSS.dPp_eq _ _ _ _ _ _ _ _ _ _
  · rw [PSS.SharedVec, hle] at ho
    exact opens_few hpp hn le_rfl (by omega) ho hc

/-- **C96** `circom_h` with one server too few. -/
theorem C96_circom_h {dbg₀ : Bool} {b : Nat} {pp : PSS F} (hpp : PSS.new dbg₀ (2 ^ b) = .ok pp) (dbg : Bool) {n : Nat}
    (hn : n + 1 = 4 * 2 ^ b) (a : Nat) (ha : a < 64) {dom dom2 : Domain F} (hdom : Domain.new (2 ^ (a + b)) = some dom)
    (hdom2 : Domain.new (2 ^ (a + b + 1)) = some dom2) (q : Nat → PackedQAPShare F) (hq : ∀ p < 4 * 2 ^ b, (q p).domain = dom)
    (va vb vc : List F) (hva : HoldsInput pp a b (fun p => (q p).a) va) (hvb : HoldsInput pp a b (fun p => (q p).b) vb)
    (hvc : HoldsInput pp a b (fun p => (q p).c) vc) (A B C : F[X])
    (hA : Interpolates dom.groupGen (2 ^ (a + b)) (fun i => va.getD i 0) A)
    (hB : Interpolates dom.groupGen (2 ^ (a + b)) (fun i => vb.getD i 0) B)
    (hC : Interpolates dom.groupGen (2 ^ (a + b)) (fun i => vc.getD i 0) C)
    (masks : Nat → Nat → FftMask F) (hm : IsCircomMasks pp dom2.groupGen dom masks)
    (dmask : Nat → DegRedMask F) (hd : IsDegRedMasks pp (2 ^ a) dmask) (rng : Nat → Nat → Nat → F) :
    ∃ outs : Nat → List F,
      AlwaysYields (Net.init fun i : Fin n => pp.circomH dbg n i (q i) (masks i) (dmask i) rng) (fun i => outs i) ∧
      HoldsOutput pp false a b outs ((List.range (2 ^ (a + b))).map fun i => (A * B - C).eval (dom2.groupGen ^ (2 * i + 1))) ∧
      ∀ c < 2 ^ a, pp.unpackMissingShares dbg ((List.range n).map fun p => (outs p).getD c 0) (List.range n) =
        .ok (packed false a b (fun i => ((List.range (2 ^ (a + b))).map fun i => (A * B - C).eval (dom2.groupGen ^ (2 * i + 1))).getD i 0) c) := by
  have h2 := Domain.new_double hdom hdom2
  have hb0 : 0 < 2 ^ b := by positivity
  obtain ⟨outs, hr, ho⟩ := circomH_few hpp dbg (.inr hn) a ha hdom hdom2 hq hva hvb hvc hA hB hC hm hd rng
  have hp : ∀ i, dom2.groupGen * dom.groupGen ^ i = dom2.groupGen ^ (2 * i + 1) := fun i => by
    rw [← h2, ← pow_mul, pow_succ, mul_comm]
  simp only [hp] at ho
  exact ⟨outs, hr.alwaysYields fun i => circomH_wf _ (by omega) _ _ _ _ _, ho,
    fun c hc => opens_few hpp (d := 2 * 2 ^ b) ⟨by omega, by omega, fun _ => by omega⟩ le_rfl (by omega) ho.2 hc⟩

/-- **C96** `libsnark_h` with one server too few. -/
theorem C96_libsnark_h {dbg₀ : Bool} {b : Nat} {pp : PSS F} (hpp : PSS.new dbg₀ (2 ^ b) = .ok pp) (dbg : Bool) {n : Nat}
    (hn : n + 1 = 4 * 2 ^ b) (a : Nat) (ha : a < 64) {dom : Domain F} (hdom : Domain.new (2 ^ (a + b)) = some dom)
    (hcos : ∃ x : F, x ≠ 0 ∧ x ^ 2 ^ (a + b) ≠ 1) (q : Nat → PackedQAPShare F) (hq : ∀ p < 4 * 2 ^ b, (q p).domain = dom)
    (va vb vc : List F) (hva : HoldsInput pp a b (fun p => (q p).a) va) (hvb : HoldsInput pp a b (fun p => (q p).b) vb)
    (hvc : HoldsInput pp a b (fun p => (q p).c) vc) (A B C : F[X])
    (hA : Interpolates dom.groupGen (2 ^ (a + b)) (fun i => va.getD i 0) A)
    (hB : Interpolates dom.groupGen (2 ^ (a + b)) (fun i => vb.getD i 0) B)
    (hC : Interpolates dom.groupGen (2 ^ (a + b)) (fun i => vc.getD i 0) C)
    (hsat : ∀ i < 2 ^ (a + b), va.getD i 0 * vb.getD i 0 = vc.getD i 0)
    (masks : Nat → Nat → FftMask F) (hm : IsLibsnarkMasks pp dom masks) (rng : Nat → Nat → Nat → F) :
    ∃ (H : F[X]) (outs : Nat → List F),
      AlwaysYields (Net.init fun i : Fin n => pp.libsnarkH dbg n i (q i) (masks i) rng) (fun i => outs i) ∧
      A * B - C = H * (X ^ 2 ^ (a + b) - 1) ∧ H.degree < (2 ^ (a + b) : Nat) ∧
      HoldsOutput pp false a b outs ((List.range (2 ^ (a + b))).map H.coeff) ∧
      ∀ c < 2 ^ a, pp.unpackMissingShares dbg ((List.range n).map fun p => (outs p).getD c 0) (List.range n) =
        .ok (packed false a b (fun i => ((List.range (2 ^ (a + b))).map H.coeff).getD i 0) c) := by
  have hb0 : 0 < 2 ^ b := by positivity
  obtain ⟨hwf, -, -, hsize⟩ := Domain.new_pow2 hdom
  obtain ⟨H, hH⟩ := quotient_exists (by positivity) (hsize ▸ hwf.prim) hA hB hC hsat
  obtain ⟨outs, hr, ho⟩ := libsnarkH_few hpp dbg (.inr hn) a ha hdom hcos hq hva hvb hvc hA hB hC hH hm rng
  exact ⟨H, outs, hr.alwaysYields fun i => libsnarkH_wf _ (by omega) _ _ _ _, hH,
    quotient_degree (by positivity) hA.1 hB.1 hC.1 hH, ho,
    fun c hc => opens_few hpp (d := 2 * 2 ^ b) ⟨by omega, by omega, fun _ => by omega⟩ le_rfl (by omega) ho.2 hc⟩

/-! ### Too few or too many servers -/

section wrong
variable {dbg₀ : Bool} {b : Nat} {pp : PSS F}

theorem fft2_wrong (hpp : PSS.new dbg₀ (2 ^ b) = .ok pp) {dbg : Bool} {n a : Nat} (hn0 : 0 < n) (hn : WrongCount (2 ^ b) dbg n) (ha : a < 64)
    {px : Nat → List F} {masks : Nat → FftMask F} (hpx : ∀ i < n, (px i).length = 2 ^ a)
    (hmask : ∀ i < n, (masks i).inMask.length = 2 ^ a) (re : Bool) (g gen : F) (sid : Sid) (rng : Nat → Nat → F) :
    AlwaysKingFails (Net.init fun i : Fin n => pp.fft2WithRearrange dbg n i (px i) (masks i) re g gen sid rng) .panic := by
  have hle := l_eq hpp
  have hlen : ∀ i < n, (addMask (px i) (masks i).inMask).length = 2 ^ a := fun i hi => by
    rw [addMask, List.length_zipWith, hpx i hi, hmask i hi, Nat.min_self]
  refine round_king_fails hn0 sid pp.t (fun i => addMask (px i) (masks i).inMask)
    (fun i hi => Wire.ok_list _ (by rw [hlen i hi]; exact Nat.pow_lt_pow_right (by omega) ha))
    (fun i rs => pp.fft2King dbg (addMask (px i) (masks i).inMask).length (px i).length g gen re rs.shares rs.parties rng) .panic ?_
    (fun i y => Proc.done (.ok (addMask y (masks i).outMask))) (fun i y => .done _ _)
  dsimp only
  rw [hlen 0 hn0, hpx 0 hn0]
  exact PSS.fft2King_count (PSS.good_of_new hpp) hn0 (by rw [hle]; exact hn) (by positivity) hlen g gen re rng

/-- **C96** `d_fft` with a wrong number of servers: whatever the shares, under every schedule the king panics, and everybody else waits for ever. -/
theorem C96_d_fft_wrong (hpp : PSS.new dbg₀ (2 ^ b) = .ok pp) (dbg : Bool) {n : Nat} (hn0 : 0 < n) (hn : WrongCount (2 ^ b) dbg n) (a : Nat)
    (ha : a < 64) {dom : Domain F} (hdom : Domain.new (2 ^ (a + b)) = some dom) (sh : Nat → List F) (hsh : ∀ i < n, (sh i).length = 2 ^ a)
    (masks : Nat → FftMask F) (hmask : ∀ i < n, (masks i).inMask.length = 2 ^ a) (rearrange : Bool) (sid : Sid) (rng : Nat → Nat → F) :
    AlwaysKingFails (Net.init fun i : Fin n => pp.dFft dbg n i (sh i) (masks i) rearrange dom sid rng) .panic := by
  have hle := l_eq hpp
  obtain ⟨hwf, -, -, hsize⟩ := Domain.new_pow2 hdom
  have hprim : IsPrimitiveRoot dom.groupGen (2 ^ (a + b)) := hsize ▸ hwf.prim
  have : (fun i : Fin n => pp.dFft dbg n i (sh i) (masks i) rearrange dom sid rng) = fun i : Fin n => pp.fft2WithRearrange dbg n i
      ((List.range (2 ^ a)).map fun k => bp (fun j => (sh i).getD j 0) a 0 (dom.groupGen ^ (2 ^ b * (k + 1)))) (masks i) rearrange 1 dom.groupGen sid rng := by
    funext i
    unfold PSS.dFft
    rw [debugAssert_of (by rw [hsh i i.2, hle, hsize, pow_add]; simp), PSS.fft1InPlace_eq hle hprim (sh i) (hsh i i.2)]
    rfl
  rw [this]
  exact fft2_wrong hpp hn0 hn ha (px := fun i => (List.range (2 ^ a)).map fun k => bp (fun j => (sh i).getD j 0) a 0 (dom.groupGen ^ (2 ^ b * (k + 1))))
    (fun i _ => by simp) hmask _ _ _ _ _

/-- **C96** The same of `d_ifft`. -/
theorem C96_d_ifft_wrong (hpp : PSS.new dbg₀ (2 ^ b) = .ok pp) (dbg : Bool) {n : Nat} (hn0 : 0 < n) (hn : WrongCount (2 ^ b) dbg n) (a : Nat)
    (ha : a < 64) {dom : Domain F} (hdom : Domain.new (2 ^ (a + b)) = some dom) (sh : Nat → List F) (hsh : ∀ i < n, (sh i).length = 2 ^ a)
    (masks : Nat → FftMask F) (hmask : ∀ i < n, (masks i).inMask.length = 2 ^ a) (g : F) (rearrange : Bool) (sid : Sid) (rng : Nat → Nat → F) :
    AlwaysKingFails (Net.init fun i : Fin n => pp.dIfft dbg n i (sh i) (masks i) rearrange dom g sid rng) .panic := by
  have hle := l_eq hpp
  obtain ⟨hwf, -, -, hsize⟩ := Domain.new_pow2 hdom
  have hprim : IsPrimitiveRoot dom.groupGenInv (2 ^ (a + b)) := by
    rw [hwf.ginv]; exact hsize ▸ hwf.prim.inv
  have : (fun i : Fin n => pp.dIfft dbg n i (sh i) (masks i) rearrange dom g sid rng) = fun i : Fin n => pp.fft2WithRearrange dbg n i
      ((List.range (2 ^ a)).map fun k => bp (fun j => ((sh i).map fun x => x * dom.sizeInv).getD j 0) a 0 (dom.groupGenInv ^ (2 ^ b * (k + 1))))
        (masks i) rearrange g dom.groupGenInv sid rng := by
    funext i
    unfold PSS.dIfft
    rw [debugAssert_of (by rw [hsh i i.2, hle, hsize, pow_add]; simp)]
    dsimp only
    rw [PSS.fft1InPlace_eq hle hprim ((sh i).map fun x => x * dom.sizeInv) (by rw [List.length_map, hsh i i.2])]
    rfl
  rw [this]
  exact fft2_wrong hpp hn0 hn ha
    (px := fun i => (List.range (2 ^ a)).map fun k => bp (fun j => ((sh i).map fun x => x * dom.sizeInv).getD j 0) a 0 (dom.groupGenInv ^ (2 ^ b * (k + 1))))
    (fun i _ => by simp) hmask _ _ _ _ _

/-- **C96** The same of `deg_red`. -/
theorem C96_deg_red_wrong {T : Type} [AddCommGroup T] [Module F T] [DecidableEq T] [FixedWire T] (hpp : PSS.new dbg₀ (2 ^ b) = .ok pp) (dbg : Bool)
    {n N : Nat} (hn0 : 0 < n) (hn : WrongCount (2 ^ b) dbg n) (hN : 0 < N) (hN64 : N < 2 ^ 64) (sh : Nat → List T) (hsh : ∀ i < n, (sh i).length = N)
    (masks : Nat → DegRedMask T) (hmask : ∀ i < n, (masks i).inMask.length = N ∧ (masks i).outMask.length = N) (sid : Sid) (rng : Nat → Nat → T) :
    AlwaysKingFails (Net.init fun i : Fin n => pp.degRed dbg n i (sh i) (masks i) sid rng) .panic := by
  have hle := l_eq hpp
  have hlen : ∀ i < n, (addMask (sh i) (masks i).inMask).length = N := fun i hi => by
    rw [addMask, List.length_zipWith, hsh i hi, (hmask i hi).1, Nat.min_self]
  have : (fun i : Fin n => pp.degRed dbg n i (sh i) (masks i) sid rng) =
      fun i : Fin n => (clientSendOrKingReceiveSer n i (addMask (sh i) (masks i).inMask) sid pp.t).bind fun r =>
        (Proc.done (kingDo (fun rs : ReceivedShares (List T) => pp.degRedKing dbg rs.shares rs.parties rng) r)).bind fun a =>
          (clientReceiveOrKingSendSer n i a sid).bind fun y => .done (.ok (addMask y (masks i).outMask)) := by
    funext i
    unfold PSS.degRed
    rw [debugAssert_of (by rw [hsh i i.2, (hmask i i.2).1]; simp), debugAssert_of (by rw [hsh i i.2, (hmask i i.2).2]; simp)]
    rfl
  rw [this]
  refine round_king_fails hn0 sid pp.t (fun i => addMask (sh i) (masks i).inMask)
    (fun i hi => Wire.ok_list _ (by rw [hlen i hi]; exact hN64))
    (fun _ rs => pp.degRedKing dbg rs.shares rs.parties rng) .panic ?_ (fun i y => .done (.ok (addMask y (masks i).outMask))) (fun i y => .done _ _)
  exact PSS.degRedKing_count (PSS.good_of_new hpp) hn0 (by rw [hle]; exact hn) hN hlen rng

/-- **C96** The same of `d_msm`. -/
theorem C96_d_msm_wrong {G : Type} [AddCommGroup G] [Module F G] [DecidableEq G] [FixedWire G] (hpp : PSS.new dbg₀ (2 ^ b) = .ok pp) (dbg : Bool)
    {n : Nat} (hn0 : 0 < n) (hn : WrongCount (2 ^ b) dbg n) (bases : Nat → List G) (scalars : Nat → List F)
    (hlen : ∀ i < n, (bases i).length = (scalars i).length) (masks : Nat → MsmMask G) (sid : Sid) :
    AlwaysKingFails (Net.init fun i : Fin n => pp.dMsm dbg n i (bases i) (scalars i) (masks i) sid) .panic := by
  have hle := l_eq hpp
  have hm : ∀ i < n, ∃ v, msm (bases i) (scalars i) = .ok v := fun i hi => by
    unfold msm
    rw [if_pos (hlen i hi)]
    exact ⟨_, rfl⟩
  classical
  set v : Nat → G := fun i => if h : ∃ v, msm (bases i) (scalars i) = .ok v then h.choose else 0 with hv
  have hv' : ∀ i < n, msm (bases i) (scalars i) = .ok (v i) := fun i hi => by
    simp only [hv, dif_pos (hm i hi)]
    exact (hm i hi).choose_spec
  have : (fun i : Fin n => pp.dMsm dbg n i (bases i) (scalars i) (masks i) sid) =
      fun i : Fin n => (clientSendOrKingReceiveSer n i (v i + (masks i).inMask) sid pp.t).bind fun r =>
        (Proc.done (kingDo (fun rs : ReceivedShares G => pp.msmKing dbg n rs.shares rs.parties) r)).bind fun a =>
          (clientReceiveOrKingSendSer n i a sid).bind fun y => .done (.ok (y + (masks i).outMask)) := by
    funext i
    unfold PSS.dMsm
    rw [debugAssert_of (by rw [hlen i i.2]; simp), hv' i i.2]
    rfl
  rw [this]
  refine round_king_fails hn0 sid pp.t (fun i => v i + (masks i).inMask) (fun i hi => Wire.ok_fixed _)
    (fun _ rs => pp.msmKing dbg n rs.shares rs.parties) .panic ?_ (fun i y => .done (.ok (y + (masks i).outMask))) (fun i y => .done _ _)
  exact PSS.msmKing_count (PSS.good_of_new hpp) (by rw [hle]; exact hn) fun i => v i + (masks i).inMask

/-- **C96** The same of `d_pp`, in a debug build with any other number of servers than `4l`, in a release build with more. -/
theorem C96_d_pp_wrong (hpp : PSS.new dbg₀ (2 ^ b) = .ok pp) (dbg : Bool) {n N : Nat} (hn0 : 0 < n)
    (hn : 4 * 2 ^ b < n ∨ (dbg = true ∧ n < 4 * 2 ^ b)) (hN : 0 < N) (hN64 : N + N < 2 ^ 64) (num den : Nat → List F)
    (hnum : ∀ i < n, (num i).length = N) (hden : ∀ i < n, (den i).length = N) (masks : Nat → DegRedMask F) (sid : Sid) (rng rng' : Nat → Nat → F) :
    AlwaysKingFails (Net.init fun i : Fin n => pp.dPp dbg n i (num i) (den i) (masks i) sid rng rng') .panic := by
  have hle := l_eq hpp
  have hlen : ∀ i < n, (num i ++ den i).length = N + N := fun i hi => by rw [List.length_append, hnum i hi, hden i hi]
  have : (fun i : Fin n => pp.dPp dbg n i (num i) (den i) (masks i) sid rng rng') =
      fun i : Fin n => (clientSendOrKingReceiveSer n i (num i ++ den i) sid pp.t).bind fun r =>
        (Proc.done (kingDo (fun rs : ReceivedShares (List F) => pp.ppKing dbg rs.shares rs.parties rng) r)).bind fun a =>
          (clientReceiveOrKingSendSer n i a sid).bind fun y => pp.degRed dbg n i y (masks i) sid rng' := by
    funext i
    rw [PSS.dPp_eq]
  rw [this]
  refine round_king_fails hn0 sid pp.t (fun i => num i ++ den i) (fun i hi => Wire.ok_list _ (by rw [hlen i hi]; exact hN64))
    (fun _ rs => pp.ppKing dbg rs.shares rs.parties rng) .panic ?_ (fun i y => pp.degRed dbg n i y (masks i) sid rng')
    fun i y => PSS.degRed_wf _ hn0 _ _ _ _ _
  exact PSS.ppKing_count (PSS.good_of_new hpp) hn0 (by rw [hle]; exact hn) (by omega) hlen rng

end wrong

/-! ### The client -/

section client
variable {G1 G2 : Type} [AddCommGroup G1] [Module F G1] [DecidableEq G1] [AddCommGroup G2] [Module F G2] [DecidableEq G2]

omit [FixedWire F] in
/-- `unpack2` reads a missing share as zero. -/
theorem unpack2_pad {T : Type} [AddCommGroup T] [Module F T] [DecidableEq T] {pp : PSS F} (hg : pp.Good) (dbg : Bool) {n : Nat}
    (hn : n + 1 = 4 * pp.l) (z : Nat → T) :
    pp.unpack2 dbg ((List.range n).map z) = pp.unpack2 dbg ((List.range (4 * pp.l)).map fun i => if i < n then z i else 0) := by
  have : pp.share.ifft ((List.range n).map z) = pp.share.ifft ((List.range (4 * pp.l)).map fun i => if i < n then z i else 0) := by
    unfold Domain.ifft
    apply List.map_congr_left
    intro j _
    rw [evalAt_resize, evalAt_resize, hg.share_size]
    congr 1
    apply sum_congr rfl
    intro i hi
    rw [getD_map_range, getD_map_range, if_pos (mem_range.1 hi)]
  unfold PSS.unpack2
  rw [this]

omit [FixedWire F] in
theorem openProof_pad {pp : PSS F} (hg : pp.Good) (dbg : Bool) {n : Nat} (hn : n + 1 = 4 * pp.l) (ans : Nat → G1 × G2 × G1) :
    pp.openProof dbg ((List.range n).map ans) = pp.openProof dbg ((List.range (4 * pp.l)).map fun i => if i < n then ans i else 0) := by
  have e : ∀ {T : Type} [AddCommGroup T] [DecidableEq T] [Module F T] (f : G1 × G2 × G1 → T), f 0 = 0 → pp.unpack2 dbg (((List.range n).map ans).map f) =
      pp.unpack2 dbg (((List.range (4 * pp.l)).map fun i => if i < n then ans i else 0).map f) := by
    intro T _ _ _ f hf
    rw [List.map_map, List.map_map, Function.comp_def, unpack2_pad hg dbg hn]
    congr 1
    apply List.map_congr_left
    intro i _
    simp only [Function.comp]
    split
    · rfl
    · rw [hf]
  unfold PSS.openProof
  rw [e (fun x => x.1) rfl, e (fun x => x.2.1) rfl, e (fun x => x.2.2) rfl]

omit [FixedWire F] in
/-- **C96** What the client of the example opens from the answers of `4l - 1` servers that hold shares of a proof. In a release build each component is
off by the missing share times a weight that is not zero. A debug build panics unless the missing server's shares of all three are zero, and then opens
the proof. -/
theorem C96_open_short {dbg₀ : Bool} {b : Nat} {pp : PSS F} (hpp : PSS.new dbg₀ (2 ^ b) = .ok pp)
    (hgen : (FftField.GENERATOR : F) ^ (4 * 2 ^ b) ≠ 1) {n : Nat} (hn : n + 1 = 4 * 2 ^ b) (outs : Nat → G1 × G2 × G1) {pA : G1} {pB : G2} {pC : G1}
    (hA : HoldsProduct pp b (fun p => (outs p).1) pA) (hB : HoldsProduct pp b (fun p => (outs p).2.1) pB)
    (hC : HoldsProduct pp b (fun p => (outs p).2.2) pC) :
    openWeight pp b n ≠ 0 ∧
    pp.openProof false ((List.range n).map outs) = .ok (pA - openWeight pp b n • (outs n).1, pB - openWeight pp b n • (outs n).2.1,
      pC - openWeight pp b n • (outs n).2.2) ∧
    pp.openProof true ((List.range n).map outs) = if outs n = 0 then .ok (pA, pB, pC) else panic' := by
  have hg := PSS.good_of_new hpp
  have hle := l_eq hpp
  have hω0 : pp.share.groupGen ^ n ≠ 0 := pow_ne_zero _ (hg.share_wf.prim.ne_zero hg.share_wf.pos.ne')
  have hfull : ∀ dbg, pp.openProof dbg ((List.range (4 * 2 ^ b)).map outs) = .ok (pA, pB, pC) := by
    intro dbg
    have hb0 : 0 < 2 ^ b := by positivity
    unfold PSS.openProof
    simp only [List.map_map, Function.comp_def]
    rw [hA.unpack2 hpp dbg, hB.unpack2 hpp dbg, hC.unpack2 hpp dbg]
    simp only [ok_bind]
    rw [rd_getD 0 (by simp), rd_getD 0 (by simp), rd_getD 0 (by simp), getD_replicate', getD_replicate', getD_replicate', if_pos hb0, if_pos hb0, if_pos hb0]
    rfl
  obtain ⟨hw, h1, h2⟩ := C88_open hpp hgen outs
  rw [hfull] at h1
  rw [hfull, hfull] at h2
  injection h1 with h1
  simp only [Prod.mk.injEq] at h1
  obtain ⟨eA, eB, eC⟩ := h1
  obtain ⟨-, h3, h4⟩ := C88_open hpp hgen fun i => if i < n then outs i else 0
  have hcut : ∀ {T : Type} [AddCommGroup T] [Module F T] (f : G1 × G2 × G1 → T) (_ : f 0 = 0) (w : Nat → F),
      ∑ i ∈ range (4 * 2 ^ b), w i • f (if i < n then outs i else 0) = (∑ i ∈ range (4 * 2 ^ b), w i • f (outs i)) - w n • f (outs n) := by
    intro T _ _ f hf w
    rw [← hn, sum_range_succ, sum_range_succ, if_neg (lt_irrefl n), hf, smul_zero, add_zero, add_sub_cancel_right]
    exact sum_congr rfl fun i hi => by rw [if_pos (mem_range.1 hi)]
  have hpad : ∀ dbg, pp.openProof dbg ((List.range n).map outs) = pp.openProof dbg ((List.range (4 * 2 ^ b)).map fun i => if i < n then outs i else 0) := by
    intro dbg
    have := openProof_pad hg dbg (n := n) (by omega) outs
    rwa [hle] at this
  have hc1 := fun w => hcut (fun x => x.1) rfl w
  have hc2 := fun w => hcut (fun x => x.2.1) rfl w
  have hc3 := fun w => hcut (fun x => x.2.2) rfl w
  rw [hc1, hc2, hc3, ← eA, ← eB, ← eC] at h3
  refine ⟨hw n, by rw [hpad, h3], ?_⟩
  have hz : ∑ i ∈ range (4 * 2 ^ b), pp.share.groupGen ^ i • (outs i).1 = 0 ∧ ∑ i ∈ range (4 * 2 ^ b), pp.share.groupGen ^ i • (outs i).2.1 = 0 ∧
      ∑ i ∈ range (4 * 2 ^ b), pp.share.groupGen ^ i • (outs i).2.2 = 0 := by
    by_contra h
    rw [if_neg h] at h2
    cases h2
  rw [hpad, h4, hc1, hc2, hc3, hz.1, hz.2.1, hz.2.2, h3]
  simp only [zero_sub, neg_eq_zero, smul_eq_zero, hω0, false_or]
  by_cases h : outs n = 0
  · rw [if_pos h, if_pos (by rw [h]; exact ⟨rfl, rfl, rfl⟩), h]
    simp
  · rw [if_neg h, if_neg fun ⟨a, b, c⟩ => h (Prod.ext a (Prod.ext b c))]

end client

/-! ### A session -/

section session
variable {G1 G2 GT : Type} [AddCommGroup G1] [Module F G1] [DecidableEq G1] [FixedWire G1] [AddCommGroup G2] [Module F G2]
  [DecidableEq G2] [FixedWire G2] [AddCommGroup GT] [Module F GT]

/-- **C96** A proving session of `4l - 1` servers with the first `4l - 1` of the `4l` inputs that the client deals: every server finishes under every
schedule, and Lagrange interpolation of their answers opens a proof that is accepted. Opened as the example does it, the same answers give in a
release build another triple, except if the missing server's shares are zero, and in a debug build a panic. -/
theorem C96_session {dbg₀ : Bool} {b : Nat} {pp : PSS F} (hpp : PSS.new dbg₀ (2 ^ b) = .ok pp)
    (hgen : (FftField.GENERATOR : F) ^ (4 * 2 ^ b) ≠ 1) (dbg : Bool) (a : Nat) (ha : a < 64)
    {mats : ConstraintMatrices F} {z : List F} {dom dom2 : Domain F} (hcirc : Circuit a b mats z dom dom2)
    (hsat : Satisfies mats.numConstraints mats.a mats.b mats.c z) {pa pb pc : Nat → F[X]}
    (hqap : IsQap mats z.length dom.groupGen (2 ^ (a + b)) pa pb pc) {t : Toxic F} {g1 : G1} {g2 : G2} {pk : ProvingKey G1 G2}
    (hk : IsCircomKey t g1 g2 z.length mats.numInstanceVariables (2 ^ (a + b)) dom2.groupGen pa pb pc pk) (hγ : t.gamma ≠ 0)
    (hδ : t.delta ≠ 0) (hal : dbg = true → KeyAligned (2 ^ b) pk) (gen1 : G1) (gen2 : G2) (r s : F) (tape : ClientTape F G1 G2)
    (hr0 : ∀ rs, pp.pack dbg (List.replicate (2 ^ b) r) tape.r = .ok rs → (∀ x ∈ rs, x ≠ 0) ∨ ∀ x ∈ rs, x = 0)
    (rng : Nat → Nat → Nat → F) {n : Nat} (hn : n + 1 = 4 * 2 ^ b) :
    ∃ (ins : Nat → ServerInput F G1 G2) (outs : Nat → G1 × G2 × G1) (pA : G1) (pB : G2) (pC : G1),
      pp.deal dbg (2 ^ b) mats z pk gen1 gen2 r s tape = .ok ((List.range (4 * 2 ^ b)).map ins) ∧
      AlwaysYields (Net.init fun i : Fin n => (ins i).run pp dbg n i rng) (fun i => outs i) ∧
      pp.unpackMissingShares dbg ((List.range n).map fun i => (outs i).1) (List.range n) = .ok (List.replicate (2 ^ b) pA) ∧
      pp.unpackMissingShares dbg ((List.range n).map fun i => (outs i).2.1) (List.range n) = .ok (List.replicate (2 ^ b) pB) ∧
      pp.unpackMissingShares dbg ((List.range n).map fun i => (outs i).2.2) (List.range n) = .ok (List.replicate (2 ^ b) pC) ∧
      (∀ e : G1 →ₗ[F] G2 →ₗ[F] GT, Verifies e pk.vk ((z.take mats.numInstanceVariables).drop 1) pA pB pC) ∧
      (pp.openProof false ((List.range n).map outs) = .ok (pA, pB, pC) ↔ outs n = 0) ∧
      pp.openProof true ((List.range n).map outs) = if outs n = 0 then .ok (pA, pB, pC) else panic' := by
  have hle := l_eq hpp
  have hg := PSS.good_of_new hpp
  obtain ⟨rs, er, lr, hr⟩ := pack_holdsValue hpp dbg r tape.r
  obtain ⟨ss, es, ls, hs⟩ := pack_holdsValue hpp dbg s tape.s
  obtain ⟨ins, -, D, pA, pB, pC, h1, -, -, -, -, h4, h5, h6, -, -, -, -, -, -, -, -, -, h7⟩ := session_full (GT := GT) hpp dbg a ha hcirc hqap hk
    hγ hδ hal gen1 gen2 tape er es lr ls hr hs
    (by
      refine (hr0 rs er).imp (fun h p hp => ?_) (fun h p hp => ?_) <;>
        exact h _ (by rw [List.getD_eq_getElem _ _ (by omega)]; exact List.getElem_mem _)) rng
  obtain ⟨outs, h8, -, oA, oB, oC⟩ := h7 n hn
  have hD : D = 0 := (errors_zero hcirc.prim hcirc.le h4).2 hsat
  obtain ⟨hw, h9, h10⟩ := C96_open_short hpp hgen hn outs oA.product oB.product oC
  have hopen : ∀ {T : Type} [AddCommGroup T] [Module F T] [DecidableEq T] {out : Nat → T} {v : T}, HoldsProduct pp b out v →
      pp.unpackMissingShares dbg ((List.range n).map out) (List.range n) = .ok (List.replicate (2 ^ b) v) := by
    intro T _ _ _ out v h
    have hdec := decodable_range hpp dbg (n := n) (.inr hn) (d := 4 * pp.l - 1) le_rfl
    rw [HoldsProduct, ← hle] at h
    rw [← hle]
    exact PSS.unpackMissing_of_shares hg dbg hdec le_rfl _ h
  refine ⟨ins, outs, pA, pB, pC, h1, h8, hopen oA.product, hopen oB.product, hopen oC, fun e => ⟨h5, ?_⟩, ?_, h10⟩
  · rw [h6 e, hD, eval_zero, zero_smul, add_zero]
  · rw [h9]
    constructor
    · intro h
      injection h with h
      simp only [Prod.mk.injEq, sub_eq_self, smul_eq_zero, hw, false_or] at h
      exact Prod.ext h.1 (Prod.ext h.2.1 h.2.2)
    · intro h
      rw [h]
      simp

end session

/-! ### Examples -/

/-- Seven servers for eight shares, in a debug build: the transform of `[1, 2, 3, 4]`, shared with randomness `i + j`. -/
example : ∃ (sh : List (List (ZMod 17))) (outs : Nat → List (ZMod 17)),
    AlwaysYields (Net.init fun i : Fin 7 => pp17.dFft true 7 i (sh.getD i []) (FftMask.zero 2) false dom17 .zero fun i j => i + j) (fun i => outs i) ∧
    pp17.unpackMissingShares true ((List.range 7).map fun p => (outs p).getD 0 0) (List.range 7) =
      .ok [(dom17.fft [1, 2, 3, 4]).getD 0 0, (dom17.fft [1, 2, 3, 4]).getD 1 0] := by
  obtain ⟨sh, -, -, h1, d, h2, h3, h4⟩ := C19_input_is_packed (pp17_eq true) true 1 [1, 2, 3, 4] rfl fun i j => (i + j : ZMod 17)
  obtain ⟨outs, k1, -, k2⟩ := C96_d_fft (pp17_eq true) true (n := 7) (d := d) ⟨by norm_num at h3; omega, by norm_num, fun _ => by norm_num⟩ 1 (by norm_num)
    dom17_eq _ [1, 2, 3, 4] h2 h3 h4 false (fun _ => FftMask.zero 2) (.inr fun _ => rfl) .zero fun i j => i + j
  exact ⟨sh, outs, k1, (k2 0 (by norm_num)).trans (by decide +kernel)⟩

/-- The same of the inverse transform, in a release build. -/
example : ∃ (sh : List (List (ZMod 17))) (outs : Nat → List (ZMod 17)),
    AlwaysYields (Net.init fun i : Fin 7 => pp17.dIfft false 7 i (sh.getD i []) (FftMask.zero 2) false dom17 3 .zero fun i j => i + j) (fun i => outs i) ∧
    HoldsOutput pp17 false 1 1 outs ((List.range 4).map fun k => 3 ^ k * (dom17.ifft [1, 2, 3, 4]).getD k 0) := by
  obtain ⟨sh, -, -, h1, d, h2, h3, h4⟩ := C19_input_is_packed (pp17_eq true) true 1 [1, 2, 3, 4] rfl fun i j => (i + j : ZMod 17)
  obtain ⟨outs, k1, k2, -⟩ := C96_d_ifft (pp17_eq true) false (n := 7) (d := d) ⟨by norm_num at h3; omega, by norm_num, fun h => by cases h⟩ 1 (by norm_num)
    dom17_eq _ [1, 2, 3, 4] h2 h3 h4 3 false (fun _ => FftMask.zero 2) (.inr fun _ => rfl) .zero fun i j => i + j
  exact ⟨sh, outs, k1, k2⟩

/-- Four servers for eight shares with four coefficients, in a release build: `deg_red` of the shares of `[3, 4]`. -/
example : ∃ (sh : List (List (ZMod 17))) (outs : Nat → List (ZMod 17)),
    (do let rows ← pp17.packVec false ([3, 4] : List (ZMod 17)) (fun i j => i + j); transpose rows) = .ok sh ∧
    AlwaysYields (Net.init fun i : Fin 4 => pp17.degRed false 4 i (sh.getD i []) (DegRedMask.zero 1) .zero fun i j => i + j) (fun i => outs i) ∧
    pp17.unpackMissingShares false ((List.range 4).map fun p => (outs p).getD 0 0) (List.range 4) = .ok [3, 4] := by
  obtain ⟨sh, e, h⟩ := deal (b := 1) (pp17_eq false) false (N := 1) (by norm_num) ([3, 4] : List (ZMod 17)) rfl fun i j => i + j
  obtain ⟨outs, k1, -, k2⟩ := C96_deg_red (pp17_eq false) false (n := 4) ⟨by norm_num, by norm_num, fun h => by cases h⟩ (by norm_num) (by norm_num)
    (by norm_num) (by norm_num) _ _ h (fun _ => DegRedMask.zero 1) (.inr fun _ => rfl) .zero fun i j => i + j
  exact ⟨sh, outs, e, k1, k2 0 (by norm_num)⟩

/-- Seven servers compute `3·2 + 5·3 = 4`. -/
example (dbg : Bool) : ∃ (bs ss : Nat → List (ZMod 17)) (outs : Nat → ZMod 17),
    AlwaysYields (Net.init fun i : Fin 7 => pp17.dMsm dbg 7 i (bs i) (ss i) MsmMask.zero .zero) (fun i => outs i) ∧
    pp17.unpackMissingShares dbg ((List.range 7).map outs) (List.range 7) = .ok [4, 4] := by
  obtain ⟨bs, -, h1⟩ := packFromWitness_holds (b := 1) (pp17_eq dbg) dbg ([2, 3] : List (ZMod 17)) fun _ _ => 1
  obtain ⟨ss, -, h2⟩ := packFromWitness_holds (b := 1) (pp17_eq dbg) dbg ([3, 5] : List (ZMod 17)) fun i j => i + j
  obtain ⟨outs, k1, -, k2⟩ := C96_d_msm (b := 1) (pp17_eq dbg) dbg (n := 7) ⟨by norm_num, by norm_num, fun _ => by norm_num⟩ (by simp) bs ss h1 h2
    (fun _ => MsmMask.zero) (.inr fun _ => rfl) .zero
  exact ⟨bs, ss, outs, k1, k2.trans (by decide +kernel)⟩

/-- Five servers of a release build compute the running products of `[2, 3] / [1, 2]`. -/
example : ∃ (num den : List (List (ZMod 17))) (outs : Nat → List (ZMod 17)),
    AlwaysYields (Net.init fun i : Fin 5 => pp17.dPp false 5 i (num.getD i []) (den.getD i []) (DegRedMask.zero 1) .zero (fun i j => i + j) fun i j => i + j)
      (fun i => outs i) ∧
    pp17.unpackMissingShares false ((List.range 5).map fun p => (outs p).getD 0 0) (List.range 5) = .ok [2, 3] := by
  obtain ⟨num, -, h1⟩ := deal (b := 1) (pp17_eq false) false (N := 1) (by norm_num) ([2, 3] : List (ZMod 17)) rfl fun i j => i + j
  obtain ⟨den, -, h2⟩ := deal (b := 1) (pp17_eq false) false (N := 1) (by norm_num) ([1, 2] : List (ZMod 17)) rfl fun i j => i + j
  obtain ⟨outs, k1, k2⟩ := C96_d_pp_release (b := 1) (pp17_eq false) (n := 5) ⟨by norm_num, by norm_num, fun h => by cases h⟩ (by norm_num) (by norm_num)
    [2, 3] [1, 2] _ _ h1 h2 (by decide) (fun _ => DegRedMask.zero 1) (.inr fun _ => rfl) .zero (fun i j => i + j) fun i j => i + j
  exact ⟨num, den, outs, k1, (k2 0 (by norm_num)).trans (by decide +kernel)⟩

/-- `h` of the example circuit, both ways, with seven servers. -/
example (dbg : Bool) : ∃ (q : Nat → PackedQAPShare (ZMod 17)) (A B C H : (ZMod 17)[X]) (outs outs' : Nat → List (ZMod 17)),
    AlwaysYields (Net.init fun i : Fin 7 => pp17.circomH dbg 7 i (q i) (fun _ => FftMask.zero 2) (DegRedMask.zero 2) fun _ i j => i + j) (fun i => outs i) ∧
    HoldsOutput pp17 false 1 1 outs ((List.range 4).map (fun i => (A * B - C).eval (dom17b.groupGen ^ (2 * i + 1)))) ∧
    AlwaysYields (Net.init fun i : Fin 7 => pp17.libsnarkH dbg 7 i (q i) (fun _ => FftMask.zero 2) fun _ i j => i + j) (fun i => outs' i) ∧
    A * B - C = H * (X ^ 4 - 1) ∧ HoldsOutput pp17 false 1 1 outs' ((List.range 4).map H.coeff) := by
  obtain ⟨q, A, B, C, hq, h1, h2, h3, iA, iB, iC⟩ := shares17
  obtain ⟨outs, h4, h5, -⟩ := C96_circom_h (pp17_eq true) dbg (n := 7) (by norm_num) 1 (by norm_num) dom17_eq dom17b_eq q hq _ _ _ h1 h2 h3 A B C iA iB iC
    (fun _ _ => FftMask.zero 2) ⟨fun _ _ => .inr fun _ => rfl, fun _ _ => .inr fun _ => rfl⟩ (fun _ => DegRedMask.zero 2) (.inr fun _ => rfl)
    fun _ i j => i + j
  obtain ⟨H, outs', h6, h7, -, h8, -⟩ := C96_libsnark_h (pp17_eq true) dbg (n := 7) (by norm_num) 1 (by norm_num) dom17_eq ⟨3, by decide, by decide⟩ q hq _ _ _
    h1 h2 h3 A B C iA iB iC (by decide) (fun _ _ => FftMask.zero 2)
    ⟨fun _ _ => .inr fun _ => rfl, fun _ _ => .inr fun _ => rfl, .inr fun _ => rfl⟩ fun _ i j => i + j
  exact ⟨q, A, B, C, H, outs, outs', h4, h5, h6, h7, h8⟩

/-- Nine servers for eight shares in either build, and six in a debug build. -/
example (dbg : Bool) : AlwaysKingFails (Net.init fun i : Fin 9 => pp17.dFft dbg 9 i [1, 2] (FftMask.zero 2) false dom17 .zero fun i j => i + j) .panic ∧
    AlwaysKingFails (Net.init fun i : Fin 6 => pp17.dFft true 6 i [1, 2] (FftMask.zero 2) false dom17 .zero fun i j => i + j) .panic ∧
    AlwaysKingFails (Net.init fun i : Fin 6 => pp17.dIfft true 6 i [1, 2] (FftMask.zero 2) false dom17 3 .zero fun i j => i + j) .panic ∧
    AlwaysKingFails (Net.init fun i : Fin 9 => pp17.degRed dbg 9 i ([1, 2] : List (ZMod 17)) (DegRedMask.zero 2) .zero fun i j => i + j) .panic ∧
    AlwaysKingFails (Net.init fun i : Fin 9 => pp17.dMsm dbg 9 i ([1, 2] : List (ZMod 17)) [3, 4] MsmMask.zero .zero) .panic ∧
    AlwaysKingFails (Net.init fun i : Fin 7 => pp17.dPp true 7 i [1, 2] [3, 4] (DegRedMask.zero 2) .zero (fun i j => i + j) fun i j => i + j) .panic :=
  ⟨C96_d_fft_wrong (pp17_eq true) dbg (by norm_num) (.inl (by norm_num)) 1 (by norm_num) dom17_eq (fun _ => [1, 2]) (fun _ _ => rfl)
      (fun _ => FftMask.zero 2) (fun _ _ => rfl) _ _ _,
    C96_d_fft_wrong (pp17_eq true) true (by norm_num) (.inr ⟨rfl, by norm_num⟩) 1 (by norm_num) dom17_eq (fun _ => [1, 2]) (fun _ _ => rfl)
      (fun _ => FftMask.zero 2) (fun _ _ => rfl) _ _ _,
    C96_d_ifft_wrong (pp17_eq true) true (by norm_num) (.inr ⟨rfl, by norm_num⟩) 1 (by norm_num) dom17_eq (fun _ => [1, 2]) (fun _ _ => rfl)
      (fun _ => FftMask.zero 2) (fun _ _ => rfl) _ _ _ _,
    C96_deg_red_wrong (pp17_eq true) dbg (by norm_num) (.inl (by norm_num)) (N := 2) (by norm_num) (by norm_num) (fun _ => [1, 2]) (fun _ _ => rfl)
      (fun _ => DegRedMask.zero 2) (fun _ _ => ⟨rfl, rfl⟩) _ _,
    C96_d_msm_wrong (pp17_eq true) dbg (by norm_num) (.inl (by norm_num)) (fun _ => [1, 2]) (fun _ => [3, 4]) (fun _ _ => rfl) (fun _ => MsmMask.zero) _,
    C96_d_pp_wrong (pp17_eq true) true (by norm_num) (.inr ⟨rfl, by norm_num⟩) (N := 2) (by norm_num) (by norm_num) (fun _ => [1, 2]) (fun _ => [3, 4])
      (fun _ _ => rfl) (fun _ _ => rfl) (fun _ => DegRedMask.zero 2) _ _ _⟩

/-- The client of the example with seven and with eight shares of the constants `1`, `2`, `3`. -/
example : pp17.openProof true ((List.range 7).map fun _ => ((1, 2, 3) : ZMod 17 × ZMod 17 × ZMod 17)) = panic' ∧
    pp17.openProof true ((List.range 8).map fun _ => ((1, 2, 3) : ZMod 17 × ZMod 17 × ZMod 17)) = .ok (1, 2, 3) ∧
    pp17.openProof false ((List.range 7).map fun _ => ((1, 2, 3) : ZMod 17 × ZMod 17 × ZMod 17)) ≠ .ok (1, 2, 3) := by
  decide +kernel

/-- A session of seven servers of a debug build with eight shares. -/
example (tape : ClientTape (ZMod 17) (ZMod 17) (ZMod 17)) (htape : tape.r = fun _ => 5) : ∃ (pk : ProvingKey (ZMod 17) (ZMod 17))
    (ins : Nat → ServerInput (ZMod 17) (ZMod 17) (ZMod 17)) (outs : Nat → ZMod 17 × ZMod 17 × ZMod 17) (pA pB pC : ZMod 17),
    pp17.deal true 2 mats17e z17e pk 1 1 5 6 tape = .ok ((List.range 8).map ins) ∧
    AlwaysYields (Net.init fun i : Fin 7 => (ins i).run pp17 true 7 i fun _ i j => i + j) (fun i => outs i) ∧
    pp17.unpackMissingShares true ((List.range 7).map fun i => (outs i).1) (List.range 7) = .ok [pA, pA] ∧
    pp17.unpackMissingShares true ((List.range 7).map fun i => (outs i).2.1) (List.range 7) = .ok [pB, pB] ∧
    pp17.unpackMissingShares true ((List.range 7).map fun i => (outs i).2.2) (List.range 7) = .ok [pC, pC] ∧
    Verifies (LinearMap.mul (ZMod 17) (ZMod 17)) pk.vk [12, 5] pA pB pC := by
  obtain ⟨pa, pb, pc, pk, h1, h2⟩ := C35_key_exists circuit17e (⟨2, 3, 4, 5, 6⟩ : Toxic (ZMod 17)) (1 : ZMod 17) (1 : ZMod 17)
  obtain ⟨ins, outs, pA, pB, pC, k1, k2, k3, k4, k5, k6, -, -⟩ := C96_session (GT := ZMod 17) (pp17_eq true) (by decide +kernel) true 1 (by norm_num) circuit17e
    (fun i hi => by obtain rfl : i = 0 := by simpa [mats17e] using hi
                    decide +kernel) h1 h2
    (by decide) (by decide)
    (by unfold KeyAligned; rw [h2.aQuery, h2.hQuery, h2.lQuery, h2.bG1Query, h2.bG2Query]; simp only [List.length_map, List.length_range]; decide)
    1 1 5 6 tape (by
      intro rs hrs
      have : pp17.pack true (List.replicate (2 ^ 1) (5 : ZMod 17)) (fun _ => 5) = .ok (List.replicate 8 5) := by decide +kernel
      rw [htape, this] at hrs
      cases hrs
      left
      decide) (fun _ i j => i + j) (n := 7) (by norm_num)
  exact ⟨pk, ins, outs, pA, pB, pC, k1, k2, k3, k4, k5, k6 _⟩

end ZkSaas.Properties
