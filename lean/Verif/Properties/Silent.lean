import Verif.Properties.Malicious
import Verif.Lemmas.SilentNeg

/-!
# C71: servers that fall silent

`Spec/Silent.lean` says what it means that servers fall silent: they stop for ever, at any moment, but their connections stay open,
what they sent before is delivered, and the king's time-out fires when everybody that it still waits for is gone. Then one silent
server, at any moment of a proving session, does not change anything for the others: they finish, with the results of the session
in which nobody falls silent. The time-out of `mpc-net/src/lib.rs:105-135` and `unpack_missing_shares`
(`secret-sharing/src/pss.rs:204-225`) are there for this. A second silent server makes the king panic in a debug build, and in
`d_pp` already the first one does.
-/

set_option linter.unusedSectionVars false

namespace ZkSaas.Properties

open Finset Polynomial Spec

variable {F : Type} [Field F] [DecidableEq F] [FftField F] [FixedWire F]

theorem survives_one {b : Nat} {α : Type} {ps : Fin (4 * 2 ^ b) → Proc α} {outs : Fin (4 * 2 ^ b) → α}
    (hy : AlwaysYields (Net.init ps) outs)
    (h : ∀ Q : Nat → Prop, Remain (4 * 2 ^ b) Q (4 * 2 ^ b - 1) → ∃ (hn : 0 < 4 * 2 ^ b) (St : Sid → Prop) (rs : Fin (4 * 2 ^ b) → α),
      Timed hn Q St ps rs) : SurvivesUpTo 1 (Net.init ps) outs := by
  intro silent h0 hc
  have := four_pos b
  obtain ⟨hn, St, rs, ht⟩ := h _ (remain_of_card silent (by omega))
  exact ht.survives_as h0 hy

theorem suffices_many {dbg₀ : Bool} {b : Nat} {pp : PSS F} (hpp : PSS.new dbg₀ (2 ^ b) = .ok pp) (dbg : Bool) {d : Nat}
    (hd2 : 2 * pp.l ≤ d) (hd4 : d ≤ 4 * pp.l - 1) {silent : Finset Nat}
    (hc : silent.card ≤ if dbg = true then 1 else 4 * 2 ^ b - d) : Suffices pp (4 * 2 ^ b) (· ∈ silent) dbg d := by
  have hle := l_eq hpp
  have hg := PSS.good_of_new hpp
  have hl := hg.lpos
  have ht := hg.t_eq
  have hd : silent.card ≤ 4 * 2 ^ b - d := by split at hc <;> omega
  refine ⟨remain_of_card silent (by omega), fun h => remain_of_card silent ?_, remain_of_card silent (by omega)⟩
  rw [if_pos h] at hc
  omega

/-! ### The protocols -/

/-- **C71** `d_fft` on shares with `d` coefficients: in a debug build one server may fall silent, in a release build `4l-d` of them. -/
theorem C71_d_fft {dbg₀ : Bool} {b : Nat} {pp : PSS F} (hpp : PSS.new dbg₀ (2 ^ b) = .ok pp) (dbg : Bool) (a : Nat) (ha : a < 64)
    {dom : Domain F} (hdom : Domain.new (2 ^ (a + b)) = some dom) {d : Nat} (hd2 : 2 * 2 ^ b ≤ d) (hd4 : d ≤ 4 * 2 ^ b - 1)
    (sh : Nat → List F) (coeffs : List F) (hlen : coeffs.length = 2 ^ (a + b))
    (hsh : Spec.SharedVec pp.share.groupGen pp.secret.offset (2 ^ b) d (2 ^ a) sh (packed true a b fun i => coeffs.getD i 0))
    (rearrange : Bool) (masks : Nat → FftMask F)
    (hm : IsFftMasks pp rearrange 1 dom.groupGen (2 ^ (a + b)) masks) (sid : Sid) (rng : Nat → Nat → F) :
    ∃ outs : Nat → List F,
      AlwaysYields (Net.init fun i : Fin (4 * 2 ^ b) => pp.dFft dbg (4 * 2 ^ b) i (sh i) (masks i) rearrange dom sid rng)
        (fun i => outs i) ∧
      SurvivesUpTo (if dbg = true then 1 else 4 * 2 ^ b - d)
        (Net.init fun i : Fin (4 * 2 ^ b) => pp.dFft dbg (4 * 2 ^ b) i (sh i) (masks i) rearrange dom sid rng) (fun i => outs i) ∧
      HoldsOutput pp rearrange a b outs (dom.fft coeffs) := by
  obtain ⟨outs, hy, ho⟩ := C19_d_fft hpp dbg a ha hdom sh coeffs ⟨hlen, d, hd2, hd4, hsh⟩ rearrange masks hm sid rng
  refine ⟨outs, hy, fun silent h0 hc => ?_, ho⟩
  have hle := l_eq hpp
  obtain ⟨hwf, hoff, -, hsize⟩ := Domain.new_pow2 hdom
  have hprim : IsPrimitiveRoot dom.groupGen (2 ^ (a + b)) := hsize ▸ hwf.prim
  rw [← hle] at hsh hd2 hd4
  obtain ⟨rs, hr, -⟩ := PSS.dFft_timed (n := 4 * 2 ^ b) (PSS.good_of_new hpp) (by rw [hle]) (four_pos b) dbg ha hle hsize hprim hd2 hd4
    (suffices_many hpp dbg hd2 hd4 hc) _ hsh rearrange (hm.ok hpp hprim) sid rng
  exact hr.survives_as h0 hy

/-- **C71** The same for `d_ifft`. -/
theorem C71_d_ifft {dbg₀ : Bool} {b : Nat} {pp : PSS F} (hpp : PSS.new dbg₀ (2 ^ b) = .ok pp) (dbg : Bool) (a : Nat) (ha : a < 64)
    {dom : Domain F} (hdom : Domain.new (2 ^ (a + b)) = some dom) {d : Nat} (hd2 : 2 * 2 ^ b ≤ d) (hd4 : d ≤ 4 * 2 ^ b - 1)
    (sh : Nat → List F) (evals : List F) (hlen : evals.length = 2 ^ (a + b))
    (hsh : Spec.SharedVec pp.share.groupGen pp.secret.offset (2 ^ b) d (2 ^ a) sh (packed true a b fun i => evals.getD i 0))
    (g : F) (rearrange : Bool) (masks : Nat → FftMask F)
    (hm : IsFftMasks pp rearrange g dom.groupGenInv (2 ^ (a + b)) masks) (sid : Sid) (rng : Nat → Nat → F) :
    ∃ outs : Nat → List F,
      AlwaysYields (Net.init fun i : Fin (4 * 2 ^ b) => pp.dIfft dbg (4 * 2 ^ b) i (sh i) (masks i) rearrange dom g sid rng)
        (fun i => outs i) ∧
      SurvivesUpTo (if dbg = true then 1 else 4 * 2 ^ b - d)
        (Net.init fun i : Fin (4 * 2 ^ b) => pp.dIfft dbg (4 * 2 ^ b) i (sh i) (masks i) rearrange dom g sid rng) (fun i => outs i) ∧
      HoldsOutput pp rearrange a b outs ((List.range (2 ^ (a + b))).map fun k => g ^ k * (dom.ifft evals).getD k 0) := by
  obtain ⟨outs, hy, ho⟩ := C20_d_ifft hpp dbg a ha hdom sh evals ⟨hlen, d, hd2, hd4, hsh⟩ g rearrange masks hm sid rng
  refine ⟨outs, hy, fun silent h0 hc => ?_, ho⟩
  have hle := l_eq hpp
  obtain ⟨hwf, -, hoff, hsize⟩ := Domain.new_pow2 hdom
  have hprim : IsPrimitiveRoot dom.groupGenInv (2 ^ (a + b)) := by
    rw [hwf.ginv]; exact hsize ▸ hwf.prim.inv
  rw [← hle] at hsh hd2 hd4
  obtain ⟨rs, hr, -⟩ := PSS.dIfft_timed (n := 4 * 2 ^ b) (PSS.good_of_new hpp) (by rw [hle]) (four_pos b) dbg ha hle hsize hprim hd2 hd4
    (suffices_many hpp dbg hd2 hd4 hc) _ hsh g rearrange (hm.ok hpp hprim) sid rng
  exact hr.survives_as h0 hy

/-- **C71** The same for `deg_red`. -/
theorem C71_deg_red {T : Type} [AddCommGroup T] [Module F T] [DecidableEq T] [FixedWire T] {dbg₀ : Bool} {b : Nat} {pp : PSS F}
    (hpp : PSS.new dbg₀ (2 ^ b) = .ok pp) (dbg : Bool) {N d : Nat}
    (hN : 0 < N) (hN64 : N < 2 ^ 64) (hd2 : 2 * 2 ^ b ≤ d) (hd4 : d ≤ 4 * 2 ^ b - 1) (sh sec : Nat → List T)
    (hsh : Spec.SharedVec pp.share.groupGen pp.secret.offset (2 ^ b) d N sh sec)
    (masks : Nat → DegRedMask T) (hm : IsDegRedMasks pp N masks) (sid : Sid) (rng : Nat → Nat → T) :
    ∃ outs : Nat → List T,
      AlwaysYields (Net.init fun i : Fin (4 * 2 ^ b) => pp.degRed dbg (4 * 2 ^ b) i (sh i) (masks i) sid rng)
        (fun i => outs i) ∧
      SurvivesUpTo (if dbg = true then 1 else 4 * 2 ^ b - d)
        (Net.init fun i : Fin (4 * 2 ^ b) => pp.degRed dbg (4 * 2 ^ b) i (sh i) (masks i) sid rng) (fun i => outs i) ∧
      Spec.SharedVec pp.share.groupGen pp.secret.offset (2 ^ b) (2 * 2 ^ b) N outs sec := by
  obtain ⟨outs, hy, ho, -⟩ := C24_deg_red hpp dbg hN hN64 hd2 hd4 sh sec hsh masks hm sid rng
  refine ⟨outs, hy, fun silent h0 hc => ?_, ho⟩
  have hle := l_eq hpp
  rw [← hle] at hd2 hd4 hsh
  obtain ⟨rs, hr, -⟩ := PSS.degRed_timed (n := 4 * 2 ^ b) (PSS.good_of_new hpp) (by rw [hle]) (four_pos b) dbg hN hN64 hd2 hd4
    (suffices_many hpp dbg hd2 hd4 hc) hsh (hm.ok hpp hN) sid rng
  exact hr.survives_as h0 hy

/-- **C71** (release builds) `d_pp` on dealt vectors without zero denominators, when half of the servers fall silent. -/
theorem C71_d_pp {dbg₀ : Bool} {b : Nat} {pp : PSS F} (hpp : PSS.new dbg₀ (2 ^ b) = .ok pp) {N : Nat}
    (hN : 0 < N) (hN64 : N + N < 2 ^ 64) (num den : List F) (hnum : num.length = N * 2 ^ b) (hden : den.length = N * 2 ^ b)
    (h0 : ∀ y ∈ den, y ≠ 0) (masks : Nat → DegRedMask F) (hm : IsDegRedMasks pp N masks) (sid : Sid)
    (rngn rngd rng rng' : Nat → Nat → F) :
    ∃ (sn sd : List (List F)) (outs : Nat → List F),
      (do let rows ← pp.packVec false num rngn; transpose rows) = .ok sn ∧
      (do let rows ← pp.packVec false den rngd; transpose rows) = .ok sd ∧
      AlwaysYields (Net.init fun i : Fin (4 * 2 ^ b) =>
        pp.dPp false (4 * 2 ^ b) i (sn.getD i []) (sd.getD i []) (masks i) sid rng rng') (fun i => outs i) ∧
      SurvivesUpTo (2 * 2 ^ b) (Net.init fun i : Fin (4 * 2 ^ b) =>
        pp.dPp false (4 * 2 ^ b) i (sn.getD i []) (sd.getD i []) (masks i) sid rng rng') (fun i => outs i) ∧
      opened pp N outs = (List.range (N * 2 ^ b)).map fun i => ∏ j ∈ range (i + 1), num.getD j 0 / den.getD j 0 := by
  obtain ⟨sn, sd, outs, e1, e2, hy, ho⟩ := C26_d_pp hpp false hN hN64 num den hnum hden h0 masks hm sid rngn rngd rng rng'
  refine ⟨sn, sd, outs, e1, e2, hy, fun silent h0' hc => ?_, ho⟩
  have hle := l_eq hpp
  have hg := PSS.good_of_new hpp
  have hl := hg.lpos
  obtain ⟨sn', e1', hsn⟩ := deal hpp false hN num hnum rngn
  obtain ⟨sd', e2', hsd⟩ := deal hpp false hN den hden rngd
  cases e1.symm.trans e1'
  cases e2.symm.trans e2'
  rw [← hle] at hsn hsd
  obtain ⟨rs, h, -⟩ := PSS.dPp_timed (n := 4 * 2 ^ b) (S := (· ∈ silent)) hg (by rw [hle]) (four_pos b) hN hN64 (by omega) (by omega)
    (suffices_many hpp false (by omega) (by omega) (by rw [if_neg (by simp)]; omega))
    (fun i => num.getD i 0) (fun i => den.getD i 0)
    (fun i hi => by
      rw [hle] at hi
      rw [List.getD_eq_getElem _ _ (by omega)]
      exact h0 _ (List.getElem_mem _)) hsn hsd (hm.ok hpp hN) sid rng rng'
  exact h.survives_as h0' hy

/-- **C71** `d_msm` on dealt vectors when one server falls silent. -/
theorem C71_d_msm {G : Type} [AddCommGroup G] [Module F G] [DecidableEq G] [FixedWire G] {dbg₀ : Bool} {b : Nat} {pp : PSS F}
    (hpp : PSS.new dbg₀ (2 ^ b) = .ok pp) (dbg : Bool) {N : Nat}
    (hN : 0 < N) (bases : List G) (scalars : List F) (hb : bases.length = N * 2 ^ b) (hs : scalars.length = N * 2 ^ b)
    (masks : Nat → MsmMask G) (hm : IsMsmMasks pp masks) (sid : Sid) (rngb : Nat → Nat → G) (rngs : Nat → Nat → F) :
    ∃ (sb : List (List G)) (ss : List (List F)) (outs : Nat → G),
      (do let rows ← pp.packVec dbg bases rngb; transpose rows) = .ok sb ∧
      (do let rows ← pp.packVec dbg scalars rngs; transpose rows) = .ok ss ∧
      AlwaysYields (Net.init fun i : Fin (4 * 2 ^ b) =>
        pp.dMsm dbg (4 * 2 ^ b) i (sb.getD i []) (ss.getD i []) (masks i) sid) (fun i => outs i) ∧
      SurvivesUpTo 1 (Net.init fun i : Fin (4 * 2 ^ b) => pp.dMsm dbg (4 * 2 ^ b) i (sb.getD i []) (ss.getD i []) (masks i) sid) (fun i => outs i) ∧
      Spec.Sharing pp.share.groupGen pp.secret.offset (2 ^ b) (2 * 2 ^ b) ((List.range (4 * 2 ^ b)).map outs)
        (List.replicate (2 ^ b) (∑ i ∈ range (N * 2 ^ b), scalars.getD i 0 • bases.getD i 0)) := by
  obtain ⟨sb, ss, outs, e1, e2, hy, ho, -, -⟩ := C25_d_msm hpp dbg hN bases scalars hb hs masks hm sid rngb rngs
  refine ⟨sb, ss, outs, e1, e2, hy, survives_one hy fun Q hQ => ?_, ho⟩
  have hle := l_eq hpp
  have hg := PSS.good_of_new hpp
  have hl := hg.lpos
  obtain ⟨sb', e1', hsb⟩ := deal hpp dbg hN bases hb rngb
  obtain ⟨ss', e2', hss⟩ := deal hpp dbg hN scalars hs rngs
  cases e1.symm.trans e1'
  cases e2.symm.trans e2'
  rw [← hle] at hsb hss
  obtain ⟨rs, h, -⟩ := PSS.dMsm_timed (n := 4 * 2 ^ b) hg (by rw [hle]) (four_pos b) dbg (by omega) (by omega) (suffices_of hpp hQ dbg (by omega)) hsb hss (hm.ok hpp) sid
  exact ⟨four_pos b, _, _, h⟩

/-- **C71** `circom_h` when one server falls silent. -/
theorem C71_circom_h {dbg₀ : Bool} {b : Nat} {pp : PSS F} (hpp : PSS.new dbg₀ (2 ^ b) = .ok pp) (dbg : Bool) (a : Nat)
    (ha : a < 64) {dom dom2 : Domain F} (hdom : Domain.new (2 ^ (a + b)) = some dom)
    (hdom2 : Domain.new (2 ^ (a + b + 1)) = some dom2) (q : Nat → PackedQAPShare F) (hq : ∀ p < 4 * 2 ^ b, (q p).domain = dom)
    (va vb vc : List F) (hva : HoldsInput pp a b (fun p => (q p).a) va) (hvb : HoldsInput pp a b (fun p => (q p).b) vb)
    (hvc : HoldsInput pp a b (fun p => (q p).c) vc) (A B C : F[X])
    (hA : Interpolates dom.groupGen (2 ^ (a + b)) (fun i => va.getD i 0) A)
    (hB : Interpolates dom.groupGen (2 ^ (a + b)) (fun i => vb.getD i 0) B)
    (hC : Interpolates dom.groupGen (2 ^ (a + b)) (fun i => vc.getD i 0) C)
    (masks : Nat → Nat → FftMask F) (hm : IsCircomMasks pp dom2.groupGen dom masks)
    (dmask : Nat → DegRedMask F) (hd : IsDegRedMasks pp (2 ^ a) dmask) (rng : Nat → Nat → Nat → F) :
    ∃ outs : Nat → List F,
      AlwaysYields (Net.init fun i : Fin (4 * 2 ^ b) => pp.circomH dbg (4 * 2 ^ b) i (q i) (masks i) (dmask i) rng)
        (fun i => outs i) ∧
      SurvivesUpTo 1 (Net.init fun i : Fin (4 * 2 ^ b) => pp.circomH dbg (4 * 2 ^ b) i (q i) (masks i) (dmask i) rng) (fun i => outs i) ∧
      HoldsOutput pp false a b outs ((List.range (2 ^ (a + b))).map fun i => (A * B - C).eval (dom2.groupGen ^ (2 * i + 1))) := by
  obtain ⟨outs, hy, -, -, -, ho, -⟩ := C31_circom_h hpp dbg a ha hdom hdom2 q hq va vb vc hva hvb hvc A B C hA hB hC masks hm dmask hd rng
  refine ⟨outs, hy, survives_one hy fun Q hQ => ?_, ho⟩
  obtain ⟨rs, hs, -⟩ := circomH_timed hpp hQ dbg a ha hdom hdom2 hq hva hvb hvc hA hB hC hm hd rng
  exact ⟨four_pos b, _, _, hs⟩

/-- **C71** `libsnark_h` when one server falls silent. -/
theorem C71_libsnark_h {dbg₀ : Bool} {b : Nat} {pp : PSS F} (hpp : PSS.new dbg₀ (2 ^ b) = .ok pp) (dbg : Bool) (a : Nat)
    (ha : a < 64) {dom : Domain F} (hdom : Domain.new (2 ^ (a + b)) = some dom) (hcos : ∃ x : F, x ≠ 0 ∧ x ^ 2 ^ (a + b) ≠ 1)
    (q : Nat → PackedQAPShare F) (hq : ∀ p < 4 * 2 ^ b, (q p).domain = dom)
    (va vb vc : List F) (hva : HoldsInput pp a b (fun p => (q p).a) va) (hvb : HoldsInput pp a b (fun p => (q p).b) vb)
    (hvc : HoldsInput pp a b (fun p => (q p).c) vc) (A B C : F[X])
    (hA : Interpolates dom.groupGen (2 ^ (a + b)) (fun i => va.getD i 0) A)
    (hB : Interpolates dom.groupGen (2 ^ (a + b)) (fun i => vb.getD i 0) B)
    (hC : Interpolates dom.groupGen (2 ^ (a + b)) (fun i => vc.getD i 0) C)
    (hsat : ∀ i < 2 ^ (a + b), va.getD i 0 * vb.getD i 0 = vc.getD i 0)
    (masks : Nat → Nat → FftMask F) (hm : IsLibsnarkMasks pp dom masks) (rng : Nat → Nat → Nat → F) :
    ∃ (H : F[X]) (outs : Nat → List F),
      AlwaysYields (Net.init fun i : Fin (4 * 2 ^ b) => pp.libsnarkH dbg (4 * 2 ^ b) i (q i) (masks i) rng) (fun i => outs i) ∧
      SurvivesUpTo 1 (Net.init fun i : Fin (4 * 2 ^ b) => pp.libsnarkH dbg (4 * 2 ^ b) i (q i) (masks i) rng) (fun i => outs i) ∧
      A * B - C = H * (X ^ 2 ^ (a + b) - 1) ∧
      HoldsOutput pp false a b outs ((List.range (2 ^ (a + b))).map H.coeff) := by
  obtain ⟨H, outs, hy, hH, -, ho, -⟩ := C32_libsnark_h hpp dbg a ha hdom hcos q hq va vb vc hva hvb hvc A B C hA hB hC hsat masks hm rng
  refine ⟨H, outs, hy, survives_one hy fun Q hQ => ?_, hH, ho⟩
  obtain ⟨rs, hs, -⟩ := libsnarkH_timed_any hpp hQ dbg a ha hdom hcos hq hva hvb hvc hA hB hC hm rng
  exact ⟨four_pos b, _, _, hs⟩

/-- **C71** The proof elements `A` (and, with other names, `B`) when one server falls silent. -/
theorem C71_A {G : Type} [AddCommGroup G] [Module F G] [DecidableEq G] [FixedWire G] {dbg₀ : Bool} {b : Nat} {pp : PSS F}
    (hpp : PSS.new dbg₀ (2 ^ b) = .ok pp) (dbg : Bool) (L N AG1 : G)
    (S : List G) (a : List F) (hlen : a.length = S.length) (Ssh : Nat → List G) (ash : Nat → List F) (hS : HoldsChunks pp b Ssh S)
    (ha : HoldsChunks pp b ash a) (rsh : Nat → F) (r : F) (hr : HoldsValue pp b rsh r) (masks : Nat → MsmMask G)
    (hm : IsMsmMasks pp masks) (sid : Sid) :
    ∃ outs : Nat → G,
      AlwaysYields (Net.init fun i : Fin (4 * 2 ^ b) =>
        pp.proveA dbg (4 * 2 ^ b) i L N AG1 (Ssh i) (ash i) (rsh i) (masks i) sid) (fun i => outs i) ∧
      SurvivesUpTo 1 (Net.init fun i : Fin (4 * 2 ^ b) =>
        pp.proveA dbg (4 * 2 ^ b) i L N AG1 (Ssh i) (ash i) (rsh i) (masks i) sid) (fun i => outs i) ∧
      HoldsValue pp b outs (L + r • N + (∑ i ∈ range S.length, a.getD i 0 • S.getD i 0) + AG1) := by
  obtain ⟨outs, hy, ho, -⟩ := C34_A hpp dbg L N AG1 S a hlen Ssh ash hS ha rsh r hr masks hm sid
  refine ⟨outs, hy, survives_one hy fun Q hQ => ?_, ho⟩
  obtain ⟨rs, hs, -⟩ := proveA_timed hpp hQ dbg L N AG1 hlen hS ha hr hm sid
  exact ⟨four_pos b, _, _, hs⟩

/-- **C71** The proof element `C` when one server falls silent. -/
theorem C71_C {G : Type} [AddCommGroup G] [Module F G] [DecidableEq G] [FixedWire G] {dbg₀ : Bool} {b : Nat} {pp : PSS F}
    (hpp : PSS.new dbg₀ (2 ^ b) = .ok pp) (dbg : Bool) (M : G)
    (Ash Bsh : Nat → G) (A B : G) (hA : HoldsValue pp b Ash A) (hB : HoldsValue pp b Bsh B)
    (rsh ssh : Nat → F) (r s : F) (hr : HoldsValue pp b rsh r) (hs : HoldsValue pp b ssh s)
    (W U : List G) (ax h : List F) (hWl : ax.length = W.length) (hUl : h.length = U.length) (Wsh Ush : Nat → List G)
    (axsh hsh : Nat → List F) (hW : HoldsChunks pp b Wsh W) (hU : HoldsChunks pp b Ush U) (hax : HoldsChunks pp b axsh ax)
    (hh : HoldsChunks pp b hsh h) (m0 m1 : Nat → MsmMask G) (hm0 : IsMsmMasks pp m0) (hm1 : IsMsmMasks pp m1) :
    ∃ outs : Nat → G,
      AlwaysYields (Net.init fun i : Fin (4 * 2 ^ b) => pp.proveC dbg (4 * 2 ^ b) i (Ash i) (Bsh i) (ssh i) (rsh i) M (Wsh i) (Ush i)
        (axsh i) (hsh i) (m0 i) (m1 i)) (fun i => outs i) ∧
      SurvivesUpTo 1 (Net.init fun i : Fin (4 * 2 ^ b) => pp.proveC dbg (4 * 2 ^ b) i (Ash i) (Bsh i) (ssh i)
        (rsh i) M (Wsh i) (Ush i) (axsh i) (hsh i) (m0 i) (m1 i)) (fun i => outs i) ∧
      pp.unpack2 dbg ((List.range (4 * 2 ^ b)).map outs) = .ok (List.replicate (2 ^ b)
        (s • A + r • B - (r * s) • M + (∑ i ∈ range W.length, ax.getD i 0 • W.getD i 0) +
          ∑ i ∈ range U.length, h.getD i 0 • U.getD i 0)) := by
  obtain ⟨outs, hy, ho⟩ := C34_C hpp dbg M Ash Bsh A B hA hB rsh ssh r s hr hs W U ax h hWl hUl Wsh Ush axsh hsh hW hU hax hh m0 m1 hm0 hm1
  refine ⟨outs, hy, survives_one hy fun Q hQ => ?_, ho⟩
  obtain ⟨rs, hs, -⟩ := proveC_timed hpp hQ dbg M hA hr hs (hr.mul hpp hB) hWl hUl hW hU hax hh hm0 hm1
  exact ⟨four_pos b, _, _, hs⟩

/-! ### The whole proof -/

section session
variable {G1 G2 GT : Type} [AddCommGroup G1] [Module F G1] [DecidableEq G1] [FixedWire G1] [AddCommGroup G2] [Module F G2]
  [DecidableEq G2] [FixedWire G2] [AddCommGroup GT] [Module F GT]

/-- Opening a shared value from the shares of all parties but at most one. -/
theorem HoldsProduct.unpackMissing {T : Type} [AddCommGroup T] [Module F T] [DecidableEq T] {dbg₀ : Bool} {b : Nat} {pp : PSS F}
    (hpp : PSS.new dbg₀ (2 ^ b) = .ok pp) (dbg : Bool) {out : Nat → T} {v : T} (h : HoldsProduct pp b out v) {silent : Finset Nat}
    (hs : ∀ i ∈ silent, i < 4 * 2 ^ b) (hc : silent.card ≤ 1) :
    pp.unpackMissingShares dbg ((speaking (4 * 2 ^ b) silent).map out) (speaking (4 * 2 ^ b) silent) = .ok (List.replicate (2 ^ b) v) := by
  have hle := l_eq hpp
  have hg := PSS.good_of_new hpp
  have hl := hg.lpos
  have hlen : (speaking (4 * 2 ^ b) silent).length + silent.card = 4 * 2 ^ b := speaking_length hs
  have hdec : pp.Decodable dbg (4 * pp.l - 1) (speaking (4 * 2 ^ b) silent) := by
    by_cases h0 : silent.card = 0
    · left
      rw [hle, card_eq_zero.1 h0]
      simp [speaking]
    · right
      refine ⟨speaking_nodup _ _, fun p hp => by rw [hle]; exact (mem_speaking.1 hp).1, by omega, by omega, fun _ => by omega⟩
  rw [HoldsProduct, ← hle] at h
  rw [PSS.unpackMissing_of_shares hg dbg hdec le_rfl _ h, hle]

/-- **C71** A proving session survives one silent server: let any one server but the king fall silent at any moment. The others
finish, and the proof that is opened from their shares is that of the session in which nobody fell silent, and verifies. -/
theorem C71_proof {dbg₀ : Bool} {b : Nat} {pp : PSS F} (hpp : PSS.new dbg₀ (2 ^ b) = .ok pp) (dbg : Bool) (a : Nat) (ha : a < 64)
    {mats : ConstraintMatrices F} {z : List F} {dom dom2 : Domain F} (hcirc : Circuit a b mats z dom dom2)
    (hsat : Satisfies mats.numConstraints mats.a mats.b mats.c z) {pa pb pc : Nat → F[X]}
    (hqap : IsQap mats z.length dom.groupGen (2 ^ (a + b)) pa pb pc) {t : Toxic F} {g1 : G1} {g2 : G2} {pk : ProvingKey G1 G2}
    (hk : IsCircomKey t g1 g2 z.length mats.numInstanceVariables (2 ^ (a + b)) dom2.groupGen pa pb pc pk) (hγ : t.gamma ≠ 0)
    (hδ : t.delta ≠ 0) (hal : dbg = true → KeyAligned (2 ^ b) pk) (gen1 : G1) (gen2 : G2) (r s : F) (tape : ClientTape F G1 G2)
    (hr0 : ∀ rs, pp.pack dbg (List.replicate (2 ^ b) r) tape.r = .ok rs → (∀ x ∈ rs, x ≠ 0) ∨ ∀ x ∈ rs, x = 0)
    (rng : Nat → Nat → Nat → F) :
    ∃ (ins : Nat → ServerInput F G1 G2) (outs : Nat → G1 × G2 × G1) (pA : G1) (pB : G2) (pC : G1),
      pp.deal dbg (2 ^ b) mats z pk gen1 gen2 r s tape = .ok ((List.range (4 * 2 ^ b)).map ins) ∧
      AlwaysYields (Net.init fun i : Fin (4 * 2 ^ b) => (ins i).run pp dbg (4 * 2 ^ b) i rng) (fun i => outs i) ∧
      SurvivesUpTo 1 (Net.init fun i : Fin (4 * 2 ^ b) => (ins i).run pp dbg (4 * 2 ^ b) i rng) (fun i => outs i) ∧
      (∀ silent : Finset Nat, (∀ i ∈ silent, i < 4 * 2 ^ b) → silent.card ≤ 1 →
        pp.unpackMissingShares dbg ((speaking (4 * 2 ^ b) silent).map fun i => (outs i).1) (speaking (4 * 2 ^ b) silent) =
          .ok (List.replicate (2 ^ b) pA) ∧
        pp.unpackMissingShares dbg ((speaking (4 * 2 ^ b) silent).map fun i => (outs i).2.1) (speaking (4 * 2 ^ b) silent) =
          .ok (List.replicate (2 ^ b) pB) ∧
        pp.unpackMissingShares dbg ((speaking (4 * 2 ^ b) silent).map fun i => (outs i).2.2) (speaking (4 * 2 ^ b) silent) =
          .ok (List.replicate (2 ^ b) pC)) ∧
      ∀ e : G1 →ₗ[F] G2 →ₗ[F] GT, Verifies e pk.vk ((z.take mats.numInstanceVariables).drop 1) pA pB pC := by
  obtain ⟨rs, er, lr, hr⟩ := pack_holdsValue hpp dbg r tape.r
  obtain ⟨ss, es, ls, hs⟩ := pack_holdsValue hpp dbg s tape.s
  obtain ⟨ins, outs, D, pA, pB, pC, h1, h2, -, -, h3, h4, h5, h6, -, -, -, h7, hA, hB, hC, -⟩ := session_full (GT := GT) hpp dbg a ha hcirc hqap hk
    hγ hδ hal gen1 gen2 tape er es lr ls hr hs
    (by
      refine (hr0 rs er).imp (fun h p hp => ?_) (fun h p hp => ?_) <;>
        exact h _ (by rw [List.getD_eq_getElem _ _ (by omega)]; exact List.getElem_mem _)) rng
  have hD : D = 0 := (errors_zero hcirc.prim hcirc.le h4).2 hsat
  have := four_pos b
  refine ⟨ins, outs, pA, pB, pC, h1, h2, fun silent h0 hc => h7 _ h0 (remain_of_card silent (by omega)), fun silent hs hc =>
    ⟨hA.product.unpackMissing hpp dbg hs hc, hB.product.unpackMissing hpp dbg hs hc, hC.unpackMissing hpp dbg hs hc⟩, fun e => ⟨h5, ?_⟩⟩
  rw [h6 e, hD, eval_zero, zero_smul, add_zero]

end session

/-! ### Where it stops -/

section negations
variable {T : Type} [AddCommGroup T] [Module F T] [DecidableEq T] [FixedWire T]

/-- **C71** (negation, debug builds) Two or more silent servers, but not more than `3l`: `deg_red` can get stuck with a panicking king and
everybody else waiting. -/
theorem C71_two_silent {dbg₀ : Bool} {b : Nat} {pp : PSS F} (hpp : PSS.new dbg₀ (2 ^ b) = .ok pp) {N d : Nat}
    (hN : 0 < N) (hN64 : N < 2 ^ 64) (sh sec : Nat → List T)
    (hsh : Spec.SharedVec pp.share.groupGen pp.secret.offset (2 ^ b) d N sh sec)
    (masks : Nat → DegRedMask T) (hm : IsDegRedMasks pp N masks) (sid : Sid) (rng : Nat → Nat → T)
    (silent : Finset Nat) (h0 : 0 ∉ silent) (hs : ∀ i ∈ silent, i < 4 * 2 ^ b) (h2 : 2 ≤ silent.card) (h3 : silent.card ≤ 3 * 2 ^ b) :
    ∃ k c, SilentSteps (· ∈ silent) k
        (Net.init fun i : Fin (4 * 2 ^ b) => pp.degRed true (4 * 2 ^ b) i (sh i) (masks i) sid rng) c ∧
      (¬ ∃ c', Move c c') ∧ c.procs ⟨0, four_pos b⟩ = .done (.error .panic) ∧ ∀ i r, c.procs i ≠ .done (.ok r) := by
  have hle := l_eq hpp
  have hg := PSS.good_of_new hpp
  have hl := hg.lpos
  have ht := hg.t_eq
  have hlen : (speaking (4 * 2 ^ b) silent).length + silent.card = 4 * 2 ^ b := speaking_length hs
  rw [← hle] at hsh
  obtain ⟨v, hin, hout⟩ := hm.ok hpp hN
  have hml : ∀ i < 4 * pp.l, (addMask (sh i) (masks i).inMask).length = N := fun i hi => by
    have := hin.1 i hi
    simp only at this
    rw [addMask, List.length_zipWith, hsh.1 i hi, this, Nat.min_self]
  have hprog : (fun i : Fin (4 * 2 ^ b) => pp.degRed true (4 * 2 ^ b) i (sh i) (masks i) sid rng) =
      fun i : Fin (4 * 2 ^ b) => (clientSendOrKingReceiveSer (4 * 2 ^ b) i (addMask (sh i) (masks i).inMask) sid pp.t).bind fun r =>
        (Proc.done (kingDo (fun rs : ReceivedShares (List T) => pp.degRedKing true rs.shares rs.parties rng) r)).bind fun a =>
          (clientReceiveOrKingSendSer (4 * 2 ^ b) i a sid).bind fun y => .done (.ok (addMask y (masks i).outMask)) := by
    funext i
    have hi : i.val < 4 * pp.l := by rw [hle]; exact i.2
    unfold PSS.degRed
    rw [debugAssert_of (by rw [hsh.1 i hi, hin.1 i hi]; simp), debugAssert_of (by rw [hsh.1 i hi, hout.1 i hi]; simp)]
    rfl
  rw [hprog]
  refine silence_breaks (four_pos b) sid pp.t (fun i => addMask (sh i) (masks i).inMask)
    (fun i hi => Wire.ok_list _ (by rw [hml i (by rw [hle]; exact hi)]; exact hN64))
    (fun rs => pp.degRedKing true rs.shares rs.parties rng) (fun i y => .done (.ok (addMask y (masks i).outMask))) silent h0
    (by omega) .panic ?_
  rw [if_neg (by omega)]
  exact PSS.degRedKing_debug_panic hg hN hml (by omega) (speaking_nodup _ _) (fun p hp => by rw [hle]; exact (mem_speaking.1 hp).1)
    (by omega) rng

/-- **C71** (negation, debug builds) `d_pp` does not even survive one silent server. -/
theorem C71_d_pp_debug {dbg₀ : Bool} {b : Nat} {pp : PSS F} (hpp : PSS.new dbg₀ (2 ^ b) = .ok pp) {N : Nat}
    (hN64 : N + N < 2 ^ 64) (num den : Nat → List F) (hnum : ∀ i < 4 * 2 ^ b, (num i).length = N)
    (hden : ∀ i < 4 * 2 ^ b, (den i).length = N) (masks : Nat → DegRedMask F) (sid : Sid) (rng rng' : Nat → Nat → F)
    (p : Nat) (hp : p < 4 * 2 ^ b) (hp0 : p ≠ 0) :
    ∃ k c, SilentSteps (· ∈ ({p} : Finset Nat)) k
        (Net.init fun i : Fin (4 * 2 ^ b) => pp.dPp true (4 * 2 ^ b) i (num i) (den i) (masks i) sid rng rng') c ∧
      (¬ ∃ c', Move c c') ∧ c.procs ⟨0, four_pos b⟩ = .done (.error .panic) ∧ ∀ i r, c.procs i ≠ .done (.ok r) := by
  have hle := l_eq hpp
  have hg := PSS.good_of_new hpp
  have hl := hg.lpos
  have ht := hg.t_eq
  have hlen : (speaking (4 * 2 ^ b) {p}).length + ({p} : Finset Nat).card = 4 * 2 ^ b :=
    speaking_length (by intro i hi; rw [mem_singleton.1 hi]; exact hp)
  rw [card_singleton] at hlen
  rw [show (fun i : Fin (4 * 2 ^ b) => pp.dPp true (4 * 2 ^ b) i (num i) (den i) (masks i) sid rng rng') = _ from
    funext fun i => PSS.dPp_eq _ _ _ _ _ _ _ _ _ _]
  refine silence_breaks (four_pos b) sid pp.t (fun i => num i ++ den i)
    (fun i hi => Wire.ok_list _ (by rw [List.length_append, hnum i hi, hden i hi]; exact hN64))
    (fun rs => pp.ppKing true rs.shares rs.parties rng) (fun i y => pp.degRed true (4 * 2 ^ b) i y (masks i) sid rng') {p}
    (by rw [mem_singleton]; exact fun h => hp0 h.symm) (by omega) .panic ?_
  rw [if_neg (by omega)]
  exact PSS.ppKing_missing hg (by rw [List.length_map]; omega) rng

/-- **C71** (negation, all builds) If more than `3l` servers are silent, the king's threshold stops `deg_red`. -/
theorem C71_threshold {dbg₀ : Bool} {b : Nat} {pp : PSS F} (hpp : PSS.new dbg₀ (2 ^ b) = .ok pp) (dbg : Bool) {N d : Nat}
    (hN : 0 < N) (hN64 : N < 2 ^ 64) (sh sec : Nat → List T)
    (hsh : Spec.SharedVec pp.share.groupGen pp.secret.offset (2 ^ b) d N sh sec)
    (masks : Nat → DegRedMask T) (hm : IsDegRedMasks pp N masks) (sid : Sid) (rng : Nat → Nat → T)
    (silent : Finset Nat) (h0 : 0 ∉ silent) (hs : ∀ i ∈ silent, i < 4 * 2 ^ b) (h3 : 3 * 2 ^ b < silent.card) :
    ∃ k c, SilentSteps (· ∈ silent) k
        (Net.init fun i : Fin (4 * 2 ^ b) => pp.degRed dbg (4 * 2 ^ b) i (sh i) (masks i) sid rng) c ∧
      (¬ ∃ c', Move c c') ∧ c.procs ⟨0, four_pos b⟩ = .done (.error (.net (.protocol 0))) ∧ ∀ i r, c.procs i ≠ .done (.ok r) := by
  have hle := l_eq hpp
  have hg := PSS.good_of_new hpp
  have hl := hg.lpos
  have ht := hg.t_eq
  have hlen : (speaking (4 * 2 ^ b) silent).length + silent.card = 4 * 2 ^ b := speaking_length hs
  rw [← hle] at hsh
  obtain ⟨v, hin, hout⟩ := hm.ok hpp hN
  have hml : ∀ i < 4 * pp.l, (addMask (sh i) (masks i).inMask).length = N := fun i hi => by
    have := hin.1 i hi
    simp only at this
    rw [addMask, List.length_zipWith, hsh.1 i hi, this, Nat.min_self]
  have hprog : (fun i : Fin (4 * 2 ^ b) => pp.degRed dbg (4 * 2 ^ b) i (sh i) (masks i) sid rng) =
      fun i : Fin (4 * 2 ^ b) => (clientSendOrKingReceiveSer (4 * 2 ^ b) i (addMask (sh i) (masks i).inMask) sid pp.t).bind fun r =>
        (Proc.done (kingDo (fun rs : ReceivedShares (List T) => pp.degRedKing dbg rs.shares rs.parties rng) r)).bind fun a =>
          (clientReceiveOrKingSendSer (4 * 2 ^ b) i a sid).bind fun y => .done (.ok (addMask y (masks i).outMask)) := by
    funext i
    have hi : i.val < 4 * pp.l := by rw [hle]; exact i.2
    unfold PSS.degRed
    rw [debugAssert_of (by rw [hsh.1 i hi, hin.1 i hi]; simp), debugAssert_of (by rw [hsh.1 i hi, hout.1 i hi]; simp)]
    rfl
  rw [hprog]
  refine silence_breaks (four_pos b) sid pp.t (fun i => addMask (sh i) (masks i).inMask)
    (fun i hi => Wire.ok_list _ (by rw [hml i (by rw [hle]; exact hi)]; exact hN64))
    (fun rs => pp.degRedKing dbg rs.shares rs.parties rng) (fun i y => .done (.ok (addMask y (masks i).outMask))) silent h0
    (by omega) _ ?_
  rw [if_pos (by omega)]

end negations

/-! ### Examples -/

/-- C71: eight servers re-share `[6, 0, 8, 1]`; one of them may fall silent in a debug build, four in a release build. -/
example (dbg : Bool) (sid : Sid) (rngx rng : Nat → Nat → ZMod 17) : ∃ (sh outs : Nat → List (ZMod 17)),
    Spec.SharedVec pp17.share.groupGen pp17.secret.offset 2 4 2 sh (chunks 2 fun i => [6, 0, 8, 1].getD i 0) ∧
    SurvivesUpTo (if dbg = true then 1 else 4)
      (Net.init fun i : Fin (4 * 2 ^ 1) => pp17.degRed dbg (4 * 2 ^ 1) i (sh i) (DegRedMask.zero 2) sid rng) (fun i => outs i) ∧
    opened pp17 2 outs = [6, 0, 8, 1] := by
  have hg := PSS.good_of_new (pp17_eq true)
  obtain ⟨sx, -, hx⟩ := deal (b := 1) (pp17_eq true) true (N := 2) (by omega) ([6, 0, 8, 1] : List (ZMod 17)) rfl rngx
  obtain ⟨outs, h1, h2, h3⟩ := C71_deg_red (b := 1) (pp17_eq true) dbg (N := 2) (d := 4) (by omega) (by omega) (by omega) (by omega)
    _ _ hx (fun _ => DegRedMask.zero 2) (Or.inr fun _ => rfl) sid rng
  exact ⟨_, outs, hx, h2, (opened_shared hg le_rfl h3).trans (by decide +kernel)⟩

/-- C71: partial products of `[6, 2, 8, 1] / [1, 3, 5, 7]`, half of the servers fall silent. -/
example (sid : Sid) (rngn rngd rng rng' : Nat → Nat → ZMod 17) : ∃ (sn sd : List (List (ZMod 17))) (outs : Nat → List (ZMod 17)),
    SurvivesUpTo 4 (Net.init fun i : Fin (4 * 2 ^ 1) =>
      pp17.dPp false (4 * 2 ^ 1) i (sn.getD i []) (sd.getD i []) (DegRedMask.zero 2) sid rng rng') (fun i => outs i) ∧
    opened pp17 2 outs = (List.range 4).map fun i => ∏ j ∈ range (i + 1), [6, 2, 8, 1].getD j 0 / [1, 3, 5, 7].getD j 0 := by
  obtain ⟨sn, sd, outs, -, -, -, h1, h2⟩ := C71_d_pp (b := 1) (pp17_eq true) (N := 2) (by omega) (by omega) ([6, 2, 8, 1] : List (ZMod 17))
    [1, 3, 5, 7] rfl rfl (by decide) (fun _ => DegRedMask.zero 2) (Or.inr fun _ => rfl) sid rngn rngd rng rng'
  exact ⟨sn, sd, outs, h1, h2⟩

/-- C71: in a debug build servers 3 and 5 are too many for `deg_red`, and server 3 alone for `d_pp`. -/
example (sid : Sid) (rngx rng : Nat → Nat → ZMod 17) : ∃ (sh : Nat → List (ZMod 17)),
    Spec.SharedVec pp17.share.groupGen pp17.secret.offset 2 4 2 sh (chunks 2 fun i => [6, 0, 8, 1].getD i 0) ∧
    (∃ k c, SilentSteps (· ∈ ({3, 5} : Finset Nat)) k
      (Net.init fun i : Fin (4 * 2 ^ 1) => pp17.degRed true (4 * 2 ^ 1) i (sh i) (DegRedMask.zero 2) sid rng) c ∧
      ∀ i r, c.procs i ≠ .done (.ok r)) ∧
    ∃ k c, SilentSteps (· ∈ ({3} : Finset Nat)) k
      (Net.init fun i : Fin (4 * 2 ^ 1) => pp17.dPp true (4 * 2 ^ 1) i (sh i) (sh i) (DegRedMask.zero 2) sid rng rng) c ∧
      ∀ i r, c.procs i ≠ .done (.ok r) := by
  obtain ⟨sx, -, hx⟩ := deal (b := 1) (pp17_eq true) true (N := 2) (by omega) ([6, 0, 8, 1] : List (ZMod 17)) rfl rngx
  obtain ⟨k, c, h1, -, -, h2⟩ := C71_two_silent (b := 1) (pp17_eq true) (N := 2) (d := 4) (by omega) (by omega)
    _ _ hx (fun _ => DegRedMask.zero 2) (Or.inr fun _ => rfl) sid rng {3, 5} (by decide) (by decide) (by decide) (by decide)
  obtain ⟨k', c', h1', -, -, h2'⟩ := C71_d_pp_debug (b := 1) (pp17_eq true) (N := 2) (by omega) (fun i => sx.getD i []) (fun i => sx.getD i [])
    hx.1 hx.1 (fun _ => DegRedMask.zero 2) sid rng rng 3 (by omega) (by omega)
  exact ⟨_, hx, ⟨k, c, h1, h2⟩, k', c', h1', h2'⟩

/-- C71: in all builds seven silent servers are too many. -/
example (dbg : Bool) (sid : Sid) (rngx rng : Nat → Nat → ZMod 17) : ∃ (sh : Nat → List (ZMod 17)),
    ∃ k c, SilentSteps (· ∈ Finset.Icc 1 7) k
      (Net.init fun i : Fin (4 * 2 ^ 1) => pp17.degRed dbg (4 * 2 ^ 1) i (sh i) (DegRedMask.zero 2) sid rng) c ∧
      c.procs ⟨0, by omega⟩ = .done (.error (.net (.protocol 0))) := by
  obtain ⟨sx, -, hx⟩ := deal (b := 1) (pp17_eq true) true (N := 2) (by omega) ([6, 0, 8, 1] : List (ZMod 17)) rfl rngx
  obtain ⟨k, c, h1, -, h2, -⟩ := C71_threshold (b := 1) (pp17_eq true) dbg (N := 2) (d := 4) (by omega) (by omega)
    _ _ hx (fun _ => DegRedMask.zero 2) (Or.inr fun _ => rfl) sid rng (Finset.Icc 1 7) (by decide) (by decide) (by decide)
  exact ⟨fun i => sx.getD i [], k, c, h1, h2⟩

/-- C71: a session in which server 6 falls silent. -/
example (dbg : Bool) (tape : ClientTape (ZMod 17) (ZMod 17) (ZMod 17)) (htape : tape.r = fun _ => 5) : ∃ (pk : ProvingKey (ZMod 17) (ZMod 17))
    (ins : Nat → ServerInput (ZMod 17) (ZMod 17) (ZMod 17)) (outs : Nat → ZMod 17 × ZMod 17 × ZMod 17) (pA pB pC : ZMod 17),
    pp17.deal dbg 2 mats17e z17e pk 1 1 5 6 tape = .ok ((List.range 8).map ins) ∧
    SurvivesSilence (· ∈ ({6} : Finset Nat))
      (Net.init fun i : Fin (4 * 2 ^ 1) => (ins i).run pp17 dbg (4 * 2 ^ 1) i fun _ i j => i + j) (fun i => outs i) ∧
    pp17.unpackMissingShares dbg ([0, 1, 2, 3, 4, 5, 7].map fun i => (outs i).2.2) [0, 1, 2, 3, 4, 5, 7] = .ok [pC, pC] ∧
    Verifies (LinearMap.mul (ZMod 17) (ZMod 17)) pk.vk [12, 5] pA pB pC := by
  obtain ⟨pa, pb, pc, pk, h1, h2⟩ := C35_key_exists circuit17e (⟨2, 3, 4, 5, 6⟩ : Toxic (ZMod 17)) (1 : ZMod 17) (1 : ZMod 17)
  obtain ⟨ins, outs, pA, pB, pC, h3, -, h4, h5, h6⟩ := C71_proof (GT := ZMod 17) (pp17_eq true) dbg 1 (by norm_num) circuit17e
    (fun i hi => by obtain rfl : i = 0 := by simpa [mats17e] using hi
                    decide +kernel) h1 h2
    (by decide) (by decide)
    (fun _ => by unfold KeyAligned; rw [h2.aQuery, h2.hQuery, h2.lQuery, h2.bG1Query, h2.bG2Query]; simp only [List.length_map, List.length_range]; decide)
    1 1 5 6 tape (by
      intro rs hrs
      have : pp17.pack dbg (List.replicate (2 ^ 1) (5 : ZMod 17)) (fun _ => 5) = .ok (List.replicate 8 5) := by
        cases dbg <;> decide +kernel
      rw [htape, this] at hrs
      cases hrs
      left
      decide) fun _ i j => i + j
  have h7 := (h5 {6} (by decide) (by decide)).2.2
  rw [show speaking (4 * 2 ^ 1) {6} = [0, 1, 2, 3, 4, 5, 7] by decide +kernel] at h7
  exact ⟨pk, ins, outs, pA, pB, pC, h3, h4 {6} (by decide) (by decide), h7, h6 _⟩

/-- Example for C71: a transform of four values between eight servers, one of the servers falls silent. -/
example (dbg : Bool) : ∃ (sh outs : Nat → List (ZMod 17)) (d : Nat),
    SurvivesUpTo (if dbg = true then 1 else 8 - d) (Net.init fun i : Fin (4 * 2 ^ 1) => pp17.dFft dbg (4 * 2 ^ 1) i (sh i) (FftMask.zero 2) false dom17 .zero (fun i j => i + j)) (fun i => outs i) ∧
    opened pp17 2 outs = dom17.fft [1, 2, 3, 4] := by
  obtain ⟨shares, -, -, hs⟩ := C19_input_is_packed (pp17_eq true) true 1 ([1, 2, 3, 4] : List (ZMod 17)) rfl
    fun i j => 3 * (i : ZMod 17) + (j : ZMod 17)
  obtain ⟨hl, d, hd2, hd4, hs⟩ := hs
  obtain ⟨outs, -, h1, h2⟩ := C71_d_fft (pp17_eq true) dbg 1 (by norm_num) dom17_eq hd2 hd4 (fun p => shares.getD p []) ([1, 2, 3, 4] : List (ZMod 17)) hl hs false (fun _ => FftMask.zero 2) (Or.inr fun _ => rfl) .zero
    (fun i j => i + j)
  exact ⟨fun p => shares.getD p [], outs, d, h1, h2.opened (pp17_eq true)⟩

/-- Example for C71: a transform of four values between eight servers, one of the servers falls silent. -/
example (dbg : Bool) : ∃ (sh outs : Nat → List (ZMod 17)) (d : Nat),
    SurvivesUpTo (if dbg = true then 1 else 8 - d) (Net.init fun i : Fin (4 * 2 ^ 1) => pp17.dIfft dbg (4 * 2 ^ 1) i (sh i) (FftMask.zero 2) false dom17 3 .zero (fun i j => i + j)) (fun i => outs i) ∧
    opened pp17 2 outs = (List.range 4).map fun k => 3 ^ k * (dom17.ifft [1, 2, 3, 4]).getD k 0 := by
  obtain ⟨shares, -, -, hs⟩ := C19_input_is_packed (pp17_eq true) true 1 ([1, 2, 3, 4] : List (ZMod 17)) rfl
    fun i j => 3 * (i : ZMod 17) + (j : ZMod 17)
  obtain ⟨hl, d, hd2, hd4, hs⟩ := hs
  obtain ⟨outs, -, h1, h2⟩ := C71_d_ifft (pp17_eq true) dbg 1 (by norm_num) dom17_eq hd2 hd4 (fun p => shares.getD p []) ([1, 2, 3, 4] : List (ZMod 17)) hl hs 3 false (fun _ => FftMask.zero 2) (Or.inr fun _ => rfl) .zero
    (fun i j => i + j)
  exact ⟨fun p => shares.getD p [], outs, d, h1, h2.opened (pp17_eq true)⟩

/-- Example for C71: `3·1 + 5·4`, one of the servers falls silent. -/
example (dbg : Bool) : ∃ (sb ss : List (List (ZMod 17))) (outs : Nat → ZMod 17),
    (do let rows ← pp17.packVec dbg ([1, 4] : List (ZMod 17)) fun i j => i + j; transpose rows) = .ok sb ∧
    SurvivesUpTo 1 (Net.init fun i : Fin (4 * 2 ^ 1) => pp17.dMsm dbg (4 * 2 ^ 1) i (sb.getD i []) (ss.getD i []) MsmMask.zero .zero) (fun i => outs i) ∧
    pp17.unpack ((List.range (4 * 2 ^ 1)).map outs) = [6, 6] := by
  have hg := PSS.good_of_new (pp17_eq true)
  obtain ⟨sb, ss, outs, h1, -, -, h2, h3⟩ := C71_d_msm (G := ZMod 17) (b := 1) (pp17_eq true) dbg (N := 1) (by norm_num) [1, 4] [3, 5] rfl rfl
    (fun _ => MsmMask.zero) (.inr fun _ => rfl) .zero (fun i j => i + j) (fun i j => i + j)
  exact ⟨sb, ss, outs, h1, h2, (PSS.unpack_of_shares hg (d := 4) (by decide) h3).trans (by decide +kernel)⟩

/-- Example for C71: `h` of the example circuit as Circom computes it, one of the servers falls silent. -/
example (dbg : Bool) : ∃ (q : Nat → PackedQAPShare (ZMod 17)) (A B C : (ZMod 17)[X]) (outs : Nat → List (ZMod 17)),
    SurvivesUpTo 1 (Net.init fun i : Fin (4 * 2 ^ 1) => pp17.circomH dbg (4 * 2 ^ 1) i (q i) (fun _ => FftMask.zero 2) (DegRedMask.zero 2) fun _ i j => i + j) (fun i => outs i) ∧
    opened pp17 2 outs = (List.range 4).map (fun i => (A * B - C).eval (dom17b.groupGen ^ (2 * i + 1))) := by
  obtain ⟨q, A, B, C, hq, h1, h2, h3, iA, iB, iC⟩ := shares17
  obtain ⟨outs, -, h4, h5⟩ := C71_circom_h (pp17_eq true) dbg 1 (by norm_num) dom17_eq dom17b_eq q hq _ _ _ h1 h2 h3 A B C iA iB iC
    (fun _ _ => FftMask.zero 2) ⟨fun _ _ => .inr fun _ => rfl, fun _ _ => .inr fun _ => rfl⟩ (fun _ => DegRedMask.zero 2) (.inr fun _ => rfl)
    fun _ i j => i + j
  exact ⟨q, A, B, C, outs, h4, h5.opened (pp17_eq true)⟩

/-- Example for C71: `h` of the example circuit as libsnark computes it, one of the servers falls silent. -/
example (dbg : Bool) : ∃ (q : Nat → PackedQAPShare (ZMod 17)) (A B C H : (ZMod 17)[X]) (outs : Nat → List (ZMod 17)),
    SurvivesUpTo 1 (Net.init fun i : Fin (4 * 2 ^ 1) => pp17.libsnarkH dbg (4 * 2 ^ 1) i (q i) (fun _ => FftMask.zero 2) fun _ i j => i + j) (fun i => outs i) ∧
    A * B - C = H * (X ^ 4 - 1) ∧ opened pp17 2 outs = (List.range 4).map H.coeff := by
  obtain ⟨q, A, B, C, hq, h1, h2, h3, iA, iB, iC⟩ := shares17
  obtain ⟨H, outs, -, h4, h5, h6⟩ := C71_libsnark_h (pp17_eq true) dbg 1 (by norm_num) dom17_eq ⟨3, by decide, by decide⟩ q hq _ _ _ h1 h2 h3
    A B C iA iB iC (by decide) (fun _ _ => FftMask.zero 2)
    ⟨fun _ _ => .inr fun _ => rfl, fun _ _ => .inr fun _ => rfl, .inr fun _ => rfl⟩ fun _ i j => i + j
  exact ⟨q, A, B, C, H, outs, h4, h5, h6.opened (pp17_eq true)⟩

/-- Example for C71: `A` with `L = 3`, `N = 5`, `r = 4`, `S = [2, 3, 5]`, `a = [1, 1, 2]`, `α = 7`, one of the servers falls silent. -/
example (dbg : Bool) : ∃ (Ssh ash : Nat → List (ZMod 17)) (rsh : List (ZMod 17)) (outs : Nat → ZMod 17),
    SurvivesUpTo 1 (Net.init fun i : Fin (4 * 2 ^ 1) => pp17.proveA dbg (4 * 2 ^ 1) i 3 5 7 (Ssh i) (ash i) (rsh.getD i 0) MsmMask.zero .zero) (fun i => outs i) ∧
    HoldsValue pp17 1 outs (11 : ZMod 17) := by
  obtain ⟨Ssh, -, h1⟩ := packFromWitness_holds (b := 1) (pp17_eq dbg) dbg ([2, 3, 5] : List (ZMod 17)) fun _ _ => 1
  obtain ⟨ash, -, h2⟩ := packFromWitness_holds (b := 1) (pp17_eq dbg) dbg ([1, 1, 2] : List (ZMod 17)) fun i j => i + j
  obtain ⟨rsh, -, -, h3⟩ := pack_holdsValue (b := 1) (pp17_eq dbg) dbg (4 : ZMod 17) fun _ => 3
  obtain ⟨outs, -, h4, h5⟩ := C71_A (G := ZMod 17) (b := 1) (pp17_eq dbg) dbg 3 5 7 [2, 3, 5] [1, 1, 2] rfl Ssh ash h1 h2
    (fun i => rsh.getD i 0) 4 h3 (fun _ => MsmMask.zero) (Or.inr fun _ => rfl) .zero
  refine ⟨Ssh, ash, rsh, outs, h4, ?_⟩
  have e : (3 + (4 : ZMod 17) • 5 + (∑ i ∈ range ([2, 3, 5] : List (ZMod 17)).length, ([1, 1, 2] : List (ZMod 17)).getD i 0 •
    ([2, 3, 5] : List (ZMod 17)).getD i 0) + 7 : ZMod 17) = 11 := by decide +kernel
  rwa [e] at h5

/-- Example for C71: `C` with `A = 3`, `B = 5`, `r = 4`, `s = 6`, `M = 2`, `W = [2, 3, 5]`, `ax = [1, 1, 2]`, `U = [7, 1]`, `h = [1, 2]`,
one of the servers falls silent. -/
example (dbg : Bool) : ∃ (Ash Bsh rsh ssh : List (ZMod 17)) (Wsh Ush axsh hsh : Nat → List (ZMod 17)) (outs : Nat → ZMod 17),
    SurvivesUpTo 1 (Net.init fun i : Fin (4 * 2 ^ 1) => pp17.proveC dbg (4 * 2 ^ 1) i (Ash.getD i 0) (Bsh.getD i 0) (ssh.getD i 0) (rsh.getD i 0) 2 (Wsh i) (Ush i) (axsh i) (hsh i) MsmMask.zero MsmMask.zero) (fun i => outs i) ∧
    pp17.unpack2 dbg ((List.range (4 * 2 ^ 1)).map outs) = .ok [14, 14] := by
  obtain ⟨Wsh, -, h1⟩ := packFromWitness_holds (b := 1) (pp17_eq dbg) dbg ([2, 3, 5] : List (ZMod 17)) fun _ _ => 1
  obtain ⟨axsh, -, h2⟩ := packFromWitness_holds (b := 1) (pp17_eq dbg) dbg ([1, 1, 2] : List (ZMod 17)) fun i j => i + j
  obtain ⟨Ush, -, h3⟩ := packFromWitness_holds (b := 1) (pp17_eq dbg) dbg ([7, 1] : List (ZMod 17)) fun _ _ => 1
  obtain ⟨hsh, -, h4⟩ := packFromWitness_holds (b := 1) (pp17_eq dbg) dbg ([1, 2] : List (ZMod 17)) fun i j => i + j
  obtain ⟨rsh, -, -, h5⟩ := pack_holdsValue (b := 1) (pp17_eq dbg) dbg (4 : ZMod 17) fun _ => 3
  obtain ⟨ssh, -, -, h6⟩ := pack_holdsValue (b := 1) (pp17_eq dbg) dbg (6 : ZMod 17) fun _ => 3
  obtain ⟨Ash, -, -, h7⟩ := pack_holdsValue (b := 1) (pp17_eq dbg) dbg (3 : ZMod 17) fun _ => 3
  obtain ⟨Bsh, -, -, h8⟩ := pack_holdsValue (b := 1) (pp17_eq dbg) dbg (5 : ZMod 17) fun _ => 3
  obtain ⟨outs, -, h9, h10⟩ := C71_C (G := ZMod 17) (b := 1) (pp17_eq dbg) dbg 2 (fun i => Ash.getD i 0) (fun i => Bsh.getD i 0) 3 5 h7 h8
    (fun i => rsh.getD i 0) (fun i => ssh.getD i 0) 4 6 h5 h6 [2, 3, 5] [7, 1] [1, 1, 2] [1, 2] rfl rfl Wsh Ush axsh hsh h1 h3 h2 h4
    (fun _ => MsmMask.zero) (fun _ => MsmMask.zero) (Or.inr fun _ => rfl) (Or.inr fun _ => rfl)
  exact ⟨Ash, Bsh, rsh, ssh, Wsh, Ush, axsh, hsh, outs, h9, h10.trans (by decide +kernel)⟩

end ZkSaas.Properties
