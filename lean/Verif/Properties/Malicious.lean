import Verif.Properties.Proof
import Verif.Properties.Lossy
import Verif.Lemmas.Cheat

/-!
# C67: one party that does not follow the protocol

In a debug build the king checks, in `unpack2`, that the top coefficient of the interpolated polynomial is zero
(`secret-sharing/src/pss.rs:148-157`). That is one linear equation on the `4l` shares, in which every share has a non-zero
coefficient. So whatever a single client `p` sends, to whomever and in whatever order, every other party that finishes
successfully has exactly the result of the honest execution (`SafeAgainst`, `Spec/Adversary.lean`): the worst a cheater can do
is to make others fail or wait. With two cheaters, in a release build, or when the king times out before it heard all the honest
parties, this is false.
-/

set_option linter.unusedSectionVars false

namespace ZkSaas.Properties

open Finset Polynomial Spec

variable {F : Type} [Field F] [DecidableEq F] [FftField F] [FixedWire F]

theorem safe_of_sessions {n : Nat} {hn : 0 < n} {α : Type} {ps : Fin n → Proc α} {outs : Fin n → α}
    (hy : AlwaysYields (Net.init ps) outs)
    (h : ∀ p, p ≠ 0 → ∃ (St : Sid → Prop) (rs : Fin n → α), Session hn (Cheater p) St ps rs) :
    ∀ p, p ≠ 0 → SafeAgainst (fun i => i = p) ps outs := by
  intro p hp procs hprocs c hc i hi v hv
  obtain ⟨St, rs, hs⟩ := h p hp
  have hb : ¬ Cheater p 0 := fun h => hp h.symm
  rw [hs.results hb hy hi]
  exact hs.safe hb procs hprocs c hc i hi v hv

/-! ### The protocols -/

/-- **C67** `d_fft` against one arbitrary client. -/
theorem C67_d_fft {dbg₀ : Bool} {b : Nat} {pp : PSS F} (hpp : PSS.new dbg₀ (2 ^ b) = .ok pp) (a : Nat) (ha : a < 64)
    {dom : Domain F} (hdom : Domain.new (2 ^ (a + b)) = some dom) (sh : Nat → List F) (coeffs : List F)
    (hsh : HoldsInput pp a b sh coeffs) (rearrange : Bool) (masks : Nat → FftMask F)
    (hm : IsFftMasks pp rearrange 1 dom.groupGen (2 ^ (a + b)) masks) (sid : Sid) (rng : Nat → Nat → F) :
    ∃ outs : Nat → List F,
      AlwaysYields (Net.init fun i : Fin (4 * 2 ^ b) => pp.dFft true (4 * 2 ^ b) i (sh i) (masks i) rearrange dom sid rng)
        (fun i => outs i) ∧
      (∀ p, p ≠ 0 → SafeAgainst (fun i => i = p)
        (fun i : Fin (4 * 2 ^ b) => pp.dFft true (4 * 2 ^ b) i (sh i) (masks i) rearrange dom sid rng) (fun i => outs i)) ∧
      HoldsOutput pp rearrange a b outs (dom.fft coeffs) := by
  obtain ⟨outs, hy, ho⟩ := C19_d_fft hpp true a ha hdom sh coeffs hsh rearrange masks hm sid rng
  refine ⟨outs, hy, safe_of_sessions (hn := four_pos b) hy fun p hp => ?_, ho⟩
  obtain ⟨rs, hs, -⟩ := dFft_session hpp hp a ha hdom hsh rearrange hm sid rng
  exact ⟨_, _, hs⟩

/-- **C67** `d_ifft` against one arbitrary client. -/
theorem C67_d_ifft {dbg₀ : Bool} {b : Nat} {pp : PSS F} (hpp : PSS.new dbg₀ (2 ^ b) = .ok pp) (a : Nat) (ha : a < 64)
    {dom : Domain F} (hdom : Domain.new (2 ^ (a + b)) = some dom) (sh : Nat → List F) (evals : List F)
    (hsh : HoldsInput pp a b sh evals) (g : F) (rearrange : Bool) (masks : Nat → FftMask F)
    (hm : IsFftMasks pp rearrange g dom.groupGenInv (2 ^ (a + b)) masks) (sid : Sid) (rng : Nat → Nat → F) :
    ∃ outs : Nat → List F,
      AlwaysYields (Net.init fun i : Fin (4 * 2 ^ b) =>
        pp.dIfft true (4 * 2 ^ b) i (sh i) (masks i) rearrange dom g sid rng) (fun i => outs i) ∧
      (∀ p, p ≠ 0 → SafeAgainst (fun i => i = p)
        (fun i : Fin (4 * 2 ^ b) => pp.dIfft true (4 * 2 ^ b) i (sh i) (masks i) rearrange dom g sid rng) (fun i => outs i)) ∧
      HoldsOutput pp rearrange a b outs ((List.range (2 ^ (a + b))).map fun k => g ^ k * (dom.ifft evals).getD k 0) := by
  obtain ⟨outs, hy, ho⟩ := C20_d_ifft hpp true a ha hdom sh evals hsh g rearrange masks hm sid rng
  refine ⟨outs, hy, safe_of_sessions (hn := four_pos b) hy fun p hp => ?_, ho⟩
  obtain ⟨rs, hs, -⟩ := dIfft_session hpp hp a ha hdom hsh g rearrange hm sid rng
  exact ⟨_, _, hs⟩

/-- **C67** `deg_red` against one arbitrary client. -/
theorem C67_deg_red {T : Type} [AddCommGroup T] [Module F T] [DecidableEq T] [FixedWire T] {dbg₀ : Bool} {b : Nat} {pp : PSS F}
    (hpp : PSS.new dbg₀ (2 ^ b) = .ok pp) {N d : Nat}
    (hN : 0 < N) (hN64 : N < 2 ^ 64) (hd2 : 2 * 2 ^ b ≤ d) (hd4 : d ≤ 4 * 2 ^ b - 1) (sh sec : Nat → List T)
    (hsh : Spec.SharedVec pp.share.groupGen pp.secret.offset (2 ^ b) d N sh sec)
    (masks : Nat → DegRedMask T) (hm : IsDegRedMasks pp N masks) (sid : Sid) (rng : Nat → Nat → T) :
    ∃ outs : Nat → List T,
      AlwaysYields (Net.init fun i : Fin (4 * 2 ^ b) => pp.degRed true (4 * 2 ^ b) i (sh i) (masks i) sid rng)
        (fun i => outs i) ∧
      (∀ p, p ≠ 0 → SafeAgainst (fun i => i = p)
        (fun i : Fin (4 * 2 ^ b) => pp.degRed true (4 * 2 ^ b) i (sh i) (masks i) sid rng) (fun i => outs i)) ∧
      Spec.SharedVec pp.share.groupGen pp.secret.offset (2 ^ b) (2 * 2 ^ b) N outs sec := by
  obtain ⟨outs, hy, ho, -⟩ := C24_deg_red hpp true hN hN64 hd2 hd4 sh sec hsh masks hm sid rng
  refine ⟨outs, hy, safe_of_sessions (hn := four_pos b) hy fun p hp => ?_, ho⟩
  have hle := l_eq hpp
  rw [← hle] at hd2 hd4 hsh
  obtain ⟨rs, hs, -⟩ := PSS.degRed_session (n := 4 * 2 ^ b) (PSS.good_of_new hpp) (by rw [hle]) (four_pos b) hp hN hN64 hd2 hd4 hsh
    (hm.ok hpp hN) sid rng
  exact ⟨_, _, hs⟩

/-- **C67** `d_msm` on dealt vectors against one arbitrary client. -/
theorem C67_d_msm {G : Type} [AddCommGroup G] [Module F G] [DecidableEq G] [FixedWire G] {dbg₀ : Bool} {b : Nat} {pp : PSS F}
    (hpp : PSS.new dbg₀ (2 ^ b) = .ok pp) {N : Nat}
    (hN : 0 < N) (bases : List G) (scalars : List F) (hb : bases.length = N * 2 ^ b) (hs : scalars.length = N * 2 ^ b)
    (masks : Nat → MsmMask G) (hm : IsMsmMasks pp masks) (sid : Sid) (rngb : Nat → Nat → G) (rngs : Nat → Nat → F) :
    ∃ (sb : List (List G)) (ss : List (List F)) (outs : Nat → G),
      (do let rows ← pp.packVec true bases rngb; transpose rows) = .ok sb ∧
      (do let rows ← pp.packVec true scalars rngs; transpose rows) = .ok ss ∧
      AlwaysYields (Net.init fun i : Fin (4 * 2 ^ b) =>
        pp.dMsm true (4 * 2 ^ b) i (sb.getD i []) (ss.getD i []) (masks i) sid) (fun i => outs i) ∧
      (∀ p, p ≠ 0 → SafeAgainst (fun i => i = p)
        (fun i : Fin (4 * 2 ^ b) => pp.dMsm true (4 * 2 ^ b) i (sb.getD i []) (ss.getD i []) (masks i) sid) (fun i => outs i)) ∧
      Spec.Sharing pp.share.groupGen pp.secret.offset (2 ^ b) (2 * 2 ^ b) ((List.range (4 * 2 ^ b)).map outs)
        (List.replicate (2 ^ b) (∑ i ∈ range (N * 2 ^ b), scalars.getD i 0 • bases.getD i 0)) := by
  obtain ⟨sb, ss, outs, e1, e2, hy, ho, -, -⟩ := C25_d_msm hpp true hN bases scalars hb hs masks hm sid rngb rngs
  refine ⟨sb, ss, outs, e1, e2, hy, safe_of_sessions (hn := four_pos b) hy fun p hp => ?_, ho⟩
  have hle := l_eq hpp
  have hg := PSS.good_of_new hpp
  have hl := hg.lpos
  obtain ⟨sb', e1', hsb⟩ := deal hpp true hN bases hb rngb
  obtain ⟨ss', e2', hss⟩ := deal hpp true hN scalars hs rngs
  cases e1.symm.trans e1'
  cases e2.symm.trans e2'
  rw [← hle] at hsb hss
  obtain ⟨rs, h, -⟩ := PSS.dMsm_session (n := 4 * 2 ^ b) hg (by rw [hle]) (four_pos b) hp (by omega) (by omega) hsb hss (hm.ok hpp) sid
  exact ⟨_, _, h⟩

/-- **C67** `d_pp` on dealt vectors without zero denominators against one arbitrary client. -/
theorem C67_d_pp {dbg₀ : Bool} {b : Nat} {pp : PSS F} (hpp : PSS.new dbg₀ (2 ^ b) = .ok pp) {N : Nat}
    (hN : 0 < N) (hN64 : N + N < 2 ^ 64) (num den : List F) (hnum : num.length = N * 2 ^ b) (hden : den.length = N * 2 ^ b)
    (h0 : ∀ y ∈ den, y ≠ 0) (masks : Nat → DegRedMask F) (hm : IsDegRedMasks pp N masks) (sid : Sid)
    (rngn rngd rng rng' : Nat → Nat → F) :
    ∃ (sn sd : List (List F)) (outs : Nat → List F),
      (do let rows ← pp.packVec true num rngn; transpose rows) = .ok sn ∧
      (do let rows ← pp.packVec true den rngd; transpose rows) = .ok sd ∧
      AlwaysYields (Net.init fun i : Fin (4 * 2 ^ b) =>
        pp.dPp true (4 * 2 ^ b) i (sn.getD i []) (sd.getD i []) (masks i) sid rng rng') (fun i => outs i) ∧
      (∀ p, p ≠ 0 → SafeAgainst (fun i => i = p)
        (fun i : Fin (4 * 2 ^ b) => pp.dPp true (4 * 2 ^ b) i (sn.getD i []) (sd.getD i []) (masks i) sid rng rng')
        (fun i => outs i)) ∧
      opened pp N outs = (List.range (N * 2 ^ b)).map fun i => ∏ j ∈ range (i + 1), num.getD j 0 / den.getD j 0 := by
  obtain ⟨sn, sd, outs, e1, e2, hy, ho⟩ := C26_d_pp hpp true hN hN64 num den hnum hden h0 masks hm sid rngn rngd rng rng'
  refine ⟨sn, sd, outs, e1, e2, hy, safe_of_sessions (hn := four_pos b) hy fun p hp => ?_, ho⟩
  have hle := l_eq hpp
  have hg := PSS.good_of_new hpp
  have hl := hg.lpos
  obtain ⟨sn', e1', hsn⟩ := deal hpp true hN num hnum rngn
  obtain ⟨sd', e2', hsd⟩ := deal hpp true hN den hden rngd
  cases e1.symm.trans e1'
  cases e2.symm.trans e2'
  rw [← hle] at hsn hsd
  obtain ⟨rs, h, -⟩ := PSS.dPp_session (n := 4 * 2 ^ b) hg (by rw [hle]) (four_pos b) hp hN hN64 (by omega) (by omega)
    (fun i => num.getD i 0) (fun i => den.getD i 0)
    (fun i hi => by
      rw [hle] at hi
      rw [List.getD_eq_getElem _ _ (by omega)]
      exact h0 _ (List.getElem_mem _)) hsn hsd (hm.ok hpp hN) sid rng rng'
  exact ⟨_, _, h⟩

/-- **C67** `circom_h` against one arbitrary client. -/
theorem C67_circom_h {dbg₀ : Bool} {b : Nat} {pp : PSS F} (hpp : PSS.new dbg₀ (2 ^ b) = .ok pp) (a : Nat)
    (ha : a < 64) {dom dom2 : Domain F} (hdom : Domain.new (2 ^ (a + b)) = some dom)
    (hdom2 : Domain.new (2 ^ (a + b + 1)) = some dom2) (q : Nat → PackedQAPShare F) (hq : ∀ p < 4 * 2 ^ b, (q p).domain = dom)
    (va vb vc : List F) (hva : HoldsInput pp a b (fun p => (q p).a) va) (hvb : HoldsInput pp a b (fun p => (q p).b) vb)
    (hvc : HoldsInput pp a b (fun p => (q p).c) vc) (A B C : F[X])
    (hA : Interpolates dom.groupGen (2 ^ (a + b)) (fun i => va.getD i 0) A)
    (hB : Interpolates dom.groupGen (2 ^ (a + b)) (fun i => vb.getD i 0) B)
    (hC : Interpolates dom.groupGen (2 ^ (a + b)) (fun i => vc.getD i 0) C)
    (masks : Nat → Nat → FftMask F) (hm : IsCircomMasks pp dom2.groupGen dom masks)
    (dmask : Nat → DegRedMask F) (hd : IsDegRedMasks pp (2 ^ a) dmask) (rng : Nat → Nat → Nat → F) :
    ∃ outs : Nat → List F,
      AlwaysYields (Net.init fun i : Fin (4 * 2 ^ b) => pp.circomH true (4 * 2 ^ b) i (q i) (masks i) (dmask i) rng)
        (fun i => outs i) ∧
      (∀ p, p ≠ 0 → SafeAgainst (fun i => i = p)
        (fun i : Fin (4 * 2 ^ b) => pp.circomH true (4 * 2 ^ b) i (q i) (masks i) (dmask i) rng) (fun i => outs i)) ∧
      HoldsOutput pp false a b outs ((List.range (2 ^ (a + b))).map fun i => (A * B - C).eval (dom2.groupGen ^ (2 * i + 1))) := by
  obtain ⟨outs, hy, -, -, -, ho, -⟩ := C31_circom_h hpp true a ha hdom hdom2 q hq va vb vc hva hvb hvc A B C hA hB hC masks hm dmask hd rng
  refine ⟨outs, hy, safe_of_sessions (hn := four_pos b) hy fun p hp => ?_, ho⟩
  obtain ⟨rs, hs, -⟩ := circomH_session hpp hp a ha hdom hdom2 hq hva hvb hvc hA hB hC hm hd rng
  exact ⟨_, _, hs⟩

/-- **C67** `libsnark_h` against one arbitrary client. -/
theorem C67_libsnark_h {dbg₀ : Bool} {b : Nat} {pp : PSS F} (hpp : PSS.new dbg₀ (2 ^ b) = .ok pp) (a : Nat)
    (ha : a < 64) {dom : Domain F} (hdom : Domain.new (2 ^ (a + b)) = some dom) (hcos : ∃ x : F, x ≠ 0 ∧ x ^ 2 ^ (a + b) ≠ 1)
    (q : Nat → PackedQAPShare F) (hq : ∀ p < 4 * 2 ^ b, (q p).domain = dom)
    (va vb vc : List F) (hva : HoldsInput pp a b (fun p => (q p).a) va) (hvb : HoldsInput pp a b (fun p => (q p).b) vb)
    (hvc : HoldsInput pp a b (fun p => (q p).c) vc) (A B C : F[X])
    (hA : Interpolates dom.groupGen (2 ^ (a + b)) (fun i => va.getD i 0) A)
    (hB : Interpolates dom.groupGen (2 ^ (a + b)) (fun i => vb.getD i 0) B)
    (hC : Interpolates dom.groupGen (2 ^ (a + b)) (fun i => vc.getD i 0) C)
    (hsat : ∀ i < 2 ^ (a + b), va.getD i 0 * vb.getD i 0 = vc.getD i 0)
    (masks : Nat → Nat → FftMask F) (hm : IsLibsnarkMasks pp dom masks) (rng : Nat → Nat → Nat → F) :
    ∃ (H : F[X]) (outs : Nat → List F),
      AlwaysYields (Net.init fun i : Fin (4 * 2 ^ b) => pp.libsnarkH true (4 * 2 ^ b) i (q i) (masks i) rng) (fun i => outs i) ∧
      (∀ p, p ≠ 0 → SafeAgainst (fun i => i = p)
        (fun i : Fin (4 * 2 ^ b) => pp.libsnarkH true (4 * 2 ^ b) i (q i) (masks i) rng) (fun i => outs i)) ∧
      A * B - C = H * (X ^ 2 ^ (a + b) - 1) ∧
      HoldsOutput pp false a b outs ((List.range (2 ^ (a + b))).map H.coeff) := by
  obtain ⟨H, outs, hy, hH, -, ho, -⟩ := C32_libsnark_h hpp true a ha hdom hcos q hq va vb vc hva hvb hvc A B C hA hB hC hsat masks hm rng
  refine ⟨H, outs, hy, safe_of_sessions (hn := four_pos b) hy fun p hp => ?_, hH, ho⟩
  obtain ⟨rs, hs, -⟩ := libsnarkH_session_any hpp hp a ha hdom hcos hq hva hvb hvc hA hB hC hm rng
  exact ⟨_, _, hs⟩

/-- **C67** The proof elements `A` (and, with other names, `B`) against one arbitrary client. -/
theorem C67_A {G : Type} [AddCommGroup G] [Module F G] [DecidableEq G] [FixedWire G] {dbg₀ : Bool} {b : Nat} {pp : PSS F}
    (hpp : PSS.new dbg₀ (2 ^ b) = .ok pp) (L N AG1 : G)
    (S : List G) (a : List F) (hlen : a.length = S.length) (Ssh : Nat → List G) (ash : Nat → List F) (hS : HoldsChunks pp b Ssh S)
    (ha : HoldsChunks pp b ash a) (rsh : Nat → F) (r : F) (hr : HoldsValue pp b rsh r) (masks : Nat → MsmMask G)
    (hm : IsMsmMasks pp masks) (sid : Sid) :
    ∃ outs : Nat → G,
      AlwaysYields (Net.init fun i : Fin (4 * 2 ^ b) =>
        pp.proveA true (4 * 2 ^ b) i L N AG1 (Ssh i) (ash i) (rsh i) (masks i) sid) (fun i => outs i) ∧
      (∀ p, p ≠ 0 → SafeAgainst (fun i => i = p) (fun i : Fin (4 * 2 ^ b) =>
        pp.proveA true (4 * 2 ^ b) i L N AG1 (Ssh i) (ash i) (rsh i) (masks i) sid) (fun i => outs i)) ∧
      HoldsValue pp b outs (L + r • N + (∑ i ∈ range S.length, a.getD i 0 • S.getD i 0) + AG1) := by
  obtain ⟨outs, hy, ho, -⟩ := C34_A hpp true L N AG1 S a hlen Ssh ash hS ha rsh r hr masks hm sid
  refine ⟨outs, hy, safe_of_sessions (hn := four_pos b) hy fun p hp => ?_, ho⟩
  obtain ⟨rs, hs, -⟩ := proveA_session hpp hp L N AG1 hlen hS ha hr hm sid
  exact ⟨_, _, hs⟩

/-- **C67** The proof element `C` against one arbitrary client. -/
theorem C67_C {G : Type} [AddCommGroup G] [Module F G] [DecidableEq G] [FixedWire G] {dbg₀ : Bool} {b : Nat} {pp : PSS F}
    (hpp : PSS.new dbg₀ (2 ^ b) = .ok pp) (M : G)
    (Ash Bsh : Nat → G) (A B : G) (hA : HoldsValue pp b Ash A) (hB : HoldsValue pp b Bsh B)
    (rsh ssh : Nat → F) (r s : F) (hr : HoldsValue pp b rsh r) (hs : HoldsValue pp b ssh s)
    (W U : List G) (ax h : List F) (hWl : ax.length = W.length) (hUl : h.length = U.length) (Wsh Ush : Nat → List G)
    (axsh hsh : Nat → List F) (hW : HoldsChunks pp b Wsh W) (hU : HoldsChunks pp b Ush U) (hax : HoldsChunks pp b axsh ax)
    (hh : HoldsChunks pp b hsh h) (m0 m1 : Nat → MsmMask G) (hm0 : IsMsmMasks pp m0) (hm1 : IsMsmMasks pp m1) :
    ∃ outs : Nat → G,
      AlwaysYields (Net.init fun i : Fin (4 * 2 ^ b) => pp.proveC true (4 * 2 ^ b) i (Ash i) (Bsh i) (ssh i) (rsh i) M (Wsh i) (Ush i)
        (axsh i) (hsh i) (m0 i) (m1 i)) (fun i => outs i) ∧
      (∀ p, p ≠ 0 → SafeAgainst (fun i => i = p) (fun i : Fin (4 * 2 ^ b) => pp.proveC true (4 * 2 ^ b) i (Ash i) (Bsh i) (ssh i)
        (rsh i) M (Wsh i) (Ush i) (axsh i) (hsh i) (m0 i) (m1 i)) (fun i => outs i)) ∧
      pp.unpack2 true ((List.range (4 * 2 ^ b)).map outs) = .ok (List.replicate (2 ^ b)
        (s • A + r • B - (r * s) • M + (∑ i ∈ range W.length, ax.getD i 0 • W.getD i 0) +
          ∑ i ∈ range U.length, h.getD i 0 • U.getD i 0)) := by
  obtain ⟨outs, hy, ho⟩ := C34_C hpp true M Ash Bsh A B hA hB rsh ssh r s hr hs W U ax h hWl hUl Wsh Ush axsh hsh hW hU hax hh m0 m1 hm0 hm1
  refine ⟨outs, hy, safe_of_sessions (hn := four_pos b) hy fun p hp => ?_, ho⟩
  obtain ⟨rs, hs, -⟩ := proveC_session hpp hp M hA hr hs (hr.mul hpp hB) hWl hUl hW hU hax hh hm0 hm1
  exact ⟨_, _, hs⟩

/-- **C67** The cheater is noticed: in a debug build a client that runs `deg_red` on any share other than its own makes the king panic
under every schedule. -/
theorem C67_detected {T : Type} [AddCommGroup T] [Module F T] [DecidableEq T] [FixedWire T] {dbg₀ : Bool} {b : Nat} {pp : PSS F}
    (hpp : PSS.new dbg₀ (2 ^ b) = .ok pp) {N d : Nat}
    (hN : 0 < N) (hN64 : N < 2 ^ 64) (hd2 : 2 * 2 ^ b ≤ d) (hd4 : d ≤ 4 * 2 ^ b - 1) (sh sec : Nat → List T)
    (hsh : Spec.SharedVec pp.share.groupGen pp.secret.offset (2 ^ b) d N sh sec)
    (masks : Nat → DegRedMask T) (hm : IsDegRedMasks pp N masks) (sid : Sid) (rng : Nat → Nat → T)
    (p : Nat) (hp : p < 4 * 2 ^ b) (sh' : Nat → List T) (heq : ∀ i < 4 * 2 ^ b, i ≠ p → sh' i = sh i) (hlen : (sh' p).length = N)
    (hne : sh' p ≠ sh p) :
    AlwaysKingFails (Net.init fun i : Fin (4 * 2 ^ b) => pp.degRed true (4 * 2 ^ b) i (sh' i) (masks i) sid rng) .panic := by
  have hle := l_eq hpp
  have hg := PSS.good_of_new hpp
  have hl := hg.lpos
  rw [← hle] at hd2 hd4 hsh hp heq
  obtain ⟨v, hin, hout⟩ := hm.ok hpp hN
  have hl' : ∀ i < 4 * pp.l, (sh' i).length = N := fun i hi => by
    by_cases hip : i = p
    · rw [hip, hlen]
    · rw [heq i hi hip, hsh.1 i hi]
  have hsum := SharedVec.add hsh (SharedVec.mono hd2 hin)
  have hml : ∀ i < 4 * pp.l, (addMask (sh' i) (masks i).inMask).length = N := fun i hi => by
    have := hin.1 i hi
    simp only at this
    rw [addMask, List.length_zipWith, hl' i hi, this, Nat.min_self]
  have hprog : (fun i : Fin (4 * 2 ^ b) => pp.degRed true (4 * 2 ^ b) i (sh' i) (masks i) sid rng) =
      fun i : Fin (4 * 2 ^ b) => (clientSendOrKingReceiveSer (4 * 2 ^ b) i (addMask (sh' i) (masks i).inMask) sid pp.t).bind fun r =>
        (Proc.done (kingDo (fun rs : ReceivedShares (List T) => pp.degRedKing true rs.shares rs.parties rng) r)).bind fun a =>
          (clientReceiveOrKingSendSer (4 * 2 ^ b) i a sid).bind fun y => .done (.ok (addMask y (masks i).outMask)) := by
    funext i
    have hi : i.val < 4 * pp.l := by rw [hle]; exact i.2
    unfold PSS.degRed
    rw [debugAssert_of (by rw [hl' i hi, hin.1 i hi]; simp), debugAssert_of (by rw [hl' i hi, hout.1 i hi]; simp)]
    rfl
  rw [hprog]
  refine round_king_fails (by positivity) sid pp.t (fun i => addMask (sh' i) (masks i).inMask)
    (fun i hi => Wire.ok_list _ (by rw [hml i (by rw [hle]; exact hi)]; exact hN64))
    (fun _ rs => pp.degRedKing true rs.shares rs.parties rng) .panic ?_ (fun i y => .done (.ok (addMask y (masks i).outMask)))
    fun i y => .done _ _
  rw [← hle]
  -- the changed column
  obtain ⟨c₀, hc₀, hcne⟩ : ∃ c < N, (sh' p).getD c 0 ≠ (sh p).getD c 0 := by
    by_contra h
    push Not at h
    exact hne (list_ext_getD 0 (by rw [hlen, hsh.1 p hp]) fun c hc => h c (by omega))
  have hcol : ∀ c < N, ∀ i < 4 * pp.l, (addMask (sh' i) (masks i).inMask).getD c 0 =
      (sh' i).getD c 0 + ((masks i).inMask).getD c 0 := fun c hc i hi => by
    rw [addMask, getD_zipWith _ _ _ _ 0 0 _ (by rw [hl' i hi]; exact hc) (by have := hin.1 i hi; simp only at this; omega)]
  have hcol' : ∀ c < N, ∀ i < 4 * pp.l, (addMask (sh i) (masks i).inMask).getD c 0 =
      (sh i).getD c 0 + ((masks i).inMask).getD c 0 := fun c hc i hi => by
    rw [addMask, getD_zipWith _ _ _ _ 0 0 _ (by rw [hsh.1 i hi]; exact hc) (by have := hin.1 i hi; simp only at this; omega)]
  have hun : ∀ c < N, ((sh' p).getD c 0 ≠ (sh p).getD c 0 →
      pp.unpack2 true ((List.range (4 * pp.l)).map fun i => (addMask (sh' i) (masks i).inMask).getD c 0) = panic') ∧
      ((sh' p).getD c 0 = (sh p).getD c 0 → ∃ s, s.length = pp.l ∧
      pp.unpack2 true ((List.range (4 * pp.l)).map fun i => (addMask (sh' i) (masks i).inMask).getD c 0) = .ok s) := by
    intro c hc
    refine ⟨fun h => PSS.unpack2_panics hg fun r hr => ?_, fun h => ⟨_, (hsum.2 c hc).2.1, ?_⟩⟩
    · have := PSS.unpack2_detects hg hd4 (hsum.2 c hc) (p := p) (fun i hi hip => by
        simp only
        rw [heq i hi hip]) hr p hp
      simp only at this
      rw [hcol c hc p hp, hcol' c hc p hp] at this
      exact h (add_right_cancel this)
    · rw [← PSS.unpack2_of_shares hg true hd4 (hsum.2 c hc)]
      congr 1
      apply List.map_congr_left
      intro i hi
      have hi := List.mem_range.1 hi
      rw [hcol c hc i hi, hcol' c hc i hi]
      by_cases hip : i = p
      · rw [hip, h]
      · rw [heq i hi hip]
  have hf : ∀ c < N, ∀ (R : List (List T)), R = ((List.range N).map fun c => (List.range (4 * pp.l)).map fun i =>
        (addMask (sh' i) (masks i).inMask).getD c 0) →
      ((sh' p).getD c 0 ≠ (sh p).getD c 0 → (do
        let xShare ← rd R c
        let xi ← pp.unpackMissingShares true xShare (List.range (4 * pp.l))
        pp.pack true xi (rng c)) = panic') ∧
      ((sh' p).getD c 0 = (sh p).getD c 0 → ∃ row, (do
        let xShare ← rd R c
        let xi ← pp.unpackMissingShares true xShare (List.range (4 * pp.l))
        pp.pack true xi (rng c)) = .ok row) := by
    rintro c hc R rfl
    rw [rd_ok (by simpa using hc) [], ok_bind, getD_map_range, if_pos hc]
    unfold PSS.unpackMissingShares
    rw [debugAssert_of (by simp), ok_bind, if_pos (by simp [hg.n_eq])]
    refine ⟨fun h => by rw [(hun c hc).1 h]; rfl, fun h => ?_⟩
    obtain ⟨s, hs, e⟩ := (hun c hc).2 h
    obtain ⟨row, e', -⟩ := PSS.pack_shares hg true hs (rng c)
    exact ⟨row, by rw [e, ok_bind, e']⟩
  unfold PSS.degRedKing
  rw [transpose_received hg (by omega : 0 < 4 * pp.l) hN (Or.inl rfl : pp.Decodable true (4 * pp.l) _) hml, ok_bind,
    mapM_panic (x := c₀) (by simpa using hc₀) ((hf c₀ hc₀ _ rfl).1 hcne)]
  · rfl
  · intro c hc
    rw [List.length_map, List.length_range] at hc
    have hc := List.mem_range.1 hc
    by_cases h : (sh' p).getD c 0 = (sh p).getD c 0
    · exact Or.inr ((hf c hc _ rfl).2 h)
    · exact Or.inl ((hf c hc _ rfl).1 h)

/-! ### The whole proof -/

section session
variable {G1 G2 GT : Type} [AddCommGroup G1] [Module F G1] [DecidableEq G1] [FixedWire G1] [AddCommGroup G2] [Module F G2]
  [DecidableEq G2] [FixedWire G2] [AddCommGroup GT] [Module F GT]

/-- **C67** Security with abort of a proving session of debug builds. Let server `p`, not the king, run any program, let sends and
receives fail at any time, and let all the other servers finish. The client collects the results of those, and anything from
`p`. If it can open a proof at all, then it is the proof of the honest session, and it verifies. -/
theorem C67_proof {dbg₀ : Bool} {b : Nat} {pp : PSS F} (hpp : PSS.new dbg₀ (2 ^ b) = .ok pp) (a : Nat) (ha : a < 64)
    {mats : ConstraintMatrices F} {z : List F} {dom dom2 : Domain F} (hcirc : Circuit a b mats z dom dom2)
    (hsat : Satisfies mats.numConstraints mats.a mats.b mats.c z) {pa pb pc : Nat → F[X]}
    (hqap : IsQap mats z.length dom.groupGen (2 ^ (a + b)) pa pb pc) {t : Toxic F} {g1 : G1} {g2 : G2} {pk : ProvingKey G1 G2}
    (hk : IsCircomKey t g1 g2 z.length mats.numInstanceVariables (2 ^ (a + b)) dom2.groupGen pa pb pc pk) (hγ : t.gamma ≠ 0)
    (hδ : t.delta ≠ 0) (hal : KeyAligned (2 ^ b) pk) (gen1 : G1) (gen2 : G2) (r s : F) (tape : ClientTape F G1 G2)
    (hr0 : ∀ rs, pp.pack true (List.replicate (2 ^ b) r) tape.r = .ok rs → (∀ x ∈ rs, x ≠ 0) ∨ ∀ x ∈ rs, x = 0)
    (rng : Nat → Nat → Nat → F) :
    ∃ (ins : Nat → ServerInput F G1 G2) (outs : Nat → G1 × G2 × G1) (pA : G1) (pB : G2) (pC : G1),
      pp.deal true (2 ^ b) mats z pk gen1 gen2 r s tape = .ok ((List.range (4 * 2 ^ b)).map ins) ∧
      AlwaysYields (Net.init fun i : Fin (4 * 2 ^ b) => (ins i).run pp true (4 * 2 ^ b) i rng) (fun i => outs i) ∧
      (∀ p, p ≠ 0 → SafeAgainst (fun i => i = p)
        (fun i : Fin (4 * 2 ^ b) => (ins i).run pp true (4 * 2 ^ b) i rng) (fun i => outs i)) ∧
      pp.openProof true ((List.range (4 * 2 ^ b)).map outs) = .ok (pA, pB, pC) ∧
      (∀ e : G1 →ₗ[F] G2 →ₗ[F] GT, Verifies e pk.vk ((z.take mats.numInstanceVariables).drop 1) pA pB pC) ∧
      ∀ p, p ≠ 0 → ∀ procs : Fin (4 * 2 ^ b) → Proc (G1 × G2 × G1),
        (∀ i : Fin (4 * 2 ^ b), i.val ≠ p → procs i = (ins i).run pp true (4 * 2 ^ b) i rng) →
        ∀ c, TReach (fun i => i = p) (Net.init procs) c →
        ∀ res : Nat → G1 × G2 × G1, (∀ i : Fin (4 * 2 ^ b), i.val ≠ p → c.procs i = .done (.ok (res i))) →
        ∀ π, pp.openProof true ((List.range (4 * 2 ^ b)).map res) = .ok π → π = (pA, pB, pC) := by
  obtain ⟨rs, er, lr, hr⟩ := pack_holdsValue hpp true r tape.r
  obtain ⟨ss, es, ls, hs⟩ := pack_holdsValue hpp true s tape.s
  obtain ⟨ins, outs, D, pA, pB, pC, h1, h2, -, -, h3, h4, h5, h6, -, -, h7, -, -, -, -⟩ := session_full (GT := GT) hpp true a ha hcirc hqap hk hγ hδ
    (fun _ => hal) gen1 gen2 tape er es lr ls hr hs
    (by
      refine (hr0 rs er).imp (fun h p hp => ?_) (fun h p hp => ?_) <;>
        exact h _ (by rw [List.getD_eq_getElem _ _ (by omega)]; exact List.getElem_mem _)) rng
  have hD : D = 0 := (errors_zero hcirc.prim hcirc.le h4).2 hsat
  have hsafe := safe_of_sessions (hn := four_pos b) h2 fun p hp => ⟨_, _, (h7 p hp rfl).1⟩
  refine ⟨ins, outs, pA, pB, pC, h1, h2, hsafe, h3, fun e => ⟨h5, ?_⟩, ?_⟩
  · rw [h6 e, hD, eval_zero, zero_smul, add_zero]
  · intro p hp procs hprocs c hc res hres π hπ
    exact (h7 p hp rfl).2 res π (fun i hi hip => hsafe p hp procs hprocs c hc ⟨i, hi⟩ hip _ (hres ⟨i, hi⟩ hip)) hπ

end session

/-! ### Where it stops -/

section negations
variable {T : Type} [AddCommGroup T] [Module F T] [DecidableEq T] [FixedWire T]

omit [FixedWire F] in
theorem offset_ne {dbg₀ : Bool} {b : Nat} {pp : PSS F} (hpp : PSS.new dbg₀ (2 ^ b) = .ok pp)
    (hgen : (FftField.GENERATOR : F) ^ (4 * 2 ^ b) ≠ 1) : pp.secret.offset ^ (4 * pp.l) ≠ 1 := by
  have hoff : pp.secret.offset = FftField.GENERATOR := by
    by_cases hb : b + 2 ≤ FftField.TWO_ADICITY F
    · rw [PSS.new_pow2 dbg₀ hb] at hpp; cases hpp; rfl
    · have := PSS.new_too_large (F := F) dbg₀ (l := 2 ^ b) (by
        rw [show 2 ^ b * 4 = 2 ^ (b + 2) by rw [pow_add]; norm_num, clog_two_pow]; omega)
      rw [this] at hpp; cases hpp
  rw [hoff, l_eq hpp]
  exact hgen

/-- The opened value of a column in which one slot was shifted. -/
theorem shifted_opened {pp : PSS F} (hg : pp.Good) {N c₀ d : Nat} (hc₀ : c₀ < N) {sec : Nat → List T} (hsec : ∀ c < N, (sec c).length = pp.l)
    {e : Nat → F} {j : Nat} (hj : j < pp.l) (he : pval e d (pp.secret.offset * (pp.share.groupGen ^ 2) ^ j) = 1) {v : T}
    {outs : Nat → List T} (h : pp.SharedVec (2 * pp.l) N outs fun c => List.zipWith (· + ·) (sec c) ((List.range pp.l).map fun k =>
      if c = c₀ then pval e d (pp.secret.offset * (pp.share.groupGen ^ 2) ^ k) • v else 0)) :
    (pp.unpack ((List.range (4 * pp.l)).map fun p => (outs p).getD c₀ 0)).getD j 0 = (sec c₀).getD j 0 + v ∧
      ∀ c < N, c ≠ c₀ → pp.unpack ((List.range (4 * pp.l)).map fun p => (outs p).getD c 0) = sec c := by
  refine ⟨?_, fun c hc hne => ?_⟩
  · rw [PSS.unpack_of_shares hg le_rfl (h.2 c₀ hc₀), getD_zipWith _ _ _ _ 0 0 _ (by rw [hsec c₀ hc₀]; exact hj) (by simpa using hj),
      getD_map_range, if_pos hj, if_pos rfl, he, one_smul]
  · rw [PSS.unpack_of_shares hg le_rfl (h.2 c hc)]
    simp only [if_neg hne]
    apply list_ext_getD 0 (by simp [hsec c hc])
    intro k hk
    simp [hsec c hc] at hk
    rw [getD_zipWith _ _ _ _ 0 0 _ (by rw [hsec c hc]; exact hk) (by simpa using hk), getD_map_range, if_pos hk, add_zero]

/-- **C67** (negation) Two colluding clients are not detected, in any build: they can add any chosen value to any chosen slot of
the result of `deg_red` without touching the other columns, just by running the protocol on other shares than theirs. -/
theorem C67_two_cheaters {dbg₀ : Bool} {b : Nat} {pp : PSS F} (hpp : PSS.new dbg₀ (2 ^ b) = .ok pp) (dbg : Bool)
    (hgen : (FftField.GENERATOR : F) ^ (4 * 2 ^ b) ≠ 1) {N d : Nat} (hN64 : N < 2 ^ 64) (hd2 : 2 * 2 ^ b ≤ d)
    (hd4 : d ≤ 4 * 2 ^ b - 1) (sh sec : Nat → List T)
    (hsh : Spec.SharedVec pp.share.groupGen pp.secret.offset (2 ^ b) d N sh sec)
    (masks : Nat → DegRedMask T) (hm : IsDegRedMasks pp N masks) (sid : Sid) (rng : Nat → Nat → T)
    (p q : Nat) (hp : p < 4 * 2 ^ b) (hq : q < 4 * 2 ^ b) (hpq : p ≠ q) (c₀ j : Nat) (hc₀ : c₀ < N) (hj : j < 2 ^ b) (v : T) :
    ∃ sh' outs : Nat → List T, (∀ i < 4 * 2 ^ b, i ≠ p → i ≠ q → sh' i = sh i) ∧
      AlwaysYields (Net.init fun i : Fin (4 * 2 ^ b) => pp.degRed dbg (4 * 2 ^ b) i (sh' i) (masks i) sid rng) (fun i => outs i) ∧
      (pp.unpack ((List.range (4 * 2 ^ b)).map fun p => (outs p).getD c₀ 0)).getD j 0 = (sec c₀).getD j 0 + v ∧
      ∀ c < N, c ≠ c₀ → pp.unpack ((List.range (4 * 2 ^ b)).map fun p => (outs p).getD c 0) = sec c := by
  have hle := l_eq hpp
  have hg := PSS.good_of_new hpp
  have hl := hg.lpos
  have hoff := offset_ne hpp hgen
  have hN : 0 < N := by omega
  rw [← hle] at hd2 hd4 hsh hp hq hj
  obtain ⟨e, he0, he1⟩ := PSS.error_poly hg hoff (((List.range (4 * pp.l)).erase p).erase q) (d := 4 * pp.l - 1) (by
    rw [List.length_erase_of_mem, List.length_erase_of_mem (List.mem_range.2 hp), List.length_range]
    · omega
    · rw [List.nodup_range.mem_erase_iff]
      exact ⟨hpq.symm, List.mem_range.2 hq⟩) j
  have hsum := SharedVec.add (SharedVec.mono hd4 hsh) (errorShares_shared pp N c₀ e (4 * pp.l - 1) v)
  obtain ⟨outs, hr, ho⟩ := PSS.degRed_runs (n := 4 * 2 ^ b) hg dbg (by rw [hle]) hN hN64 (by omega : 2 * pp.l ≤ 4 * pp.l - 1) le_rfl hsum
    (hm.ok hpp hN) sid rng
  refine ⟨fun i => addMask (sh i) (errorShares pp N c₀ e (4 * pp.l - 1) v i), outs, fun i hi h1 h2 => ?_, hr.alwaysYields fun i => PSS.degRed_wf _ (by positivity) _ _ _ _ _, ?_⟩
  · rw [← hle] at hi
    exact addMask_errorShares (he0 i (by
      rw [(List.nodup_range.erase p).mem_erase_iff, List.nodup_range.mem_erase_iff]
      exact ⟨h2, h1, List.mem_range.2 hi⟩)) (hsh.1 i hi)
  · have := shifted_opened hg hc₀ (fun c hc => (hsh.2 c hc).2.1) hj he1 ho
    rwa [hle] at this

/-- **C67** (negation, release builds) In a release build the king does not check anything, and already one client, following the
protocol on another share than its own, adds any chosen value to any chosen slot of the result of `deg_red`. -/
theorem C67_release_cheater {dbg₀ : Bool} {b : Nat} {pp : PSS F} (hpp : PSS.new dbg₀ (2 ^ b) = .ok pp)
    (hgen : (FftField.GENERATOR : F) ^ (4 * 2 ^ b) ≠ 1) {N d : Nat} (hN64 : N < 2 ^ 64)
    (hd4 : d ≤ 4 * 2 ^ b - 1) (sh sec : Nat → List T)
    (hsh : Spec.SharedVec pp.share.groupGen pp.secret.offset (2 ^ b) d N sh sec)
    (masks : Nat → DegRedMask T) (hm : IsDegRedMasks pp N masks) (sid : Sid) (rng : Nat → Nat → T)
    (p : Nat) (hp : p < 4 * 2 ^ b) (c₀ j : Nat) (hc₀ : c₀ < N) (hj : j < 2 ^ b) (v : T) :
    ∃ sh' outs : Nat → List T, (∀ i < 4 * 2 ^ b, i ≠ p → sh' i = sh i) ∧
      AlwaysYields (Net.init fun i : Fin (4 * 2 ^ b) => pp.degRed false (4 * 2 ^ b) i (sh' i) (masks i) sid rng) (fun i => outs i) ∧
      (pp.unpack ((List.range (4 * 2 ^ b)).map fun p => (outs p).getD c₀ 0)).getD j 0 = (sec c₀).getD j 0 + v ∧
      ∀ c < N, c ≠ c₀ → pp.unpack ((List.range (4 * 2 ^ b)).map fun p => (outs p).getD c 0) = sec c := by
  have hle := l_eq hpp
  have hg := PSS.good_of_new hpp
  have hl := hg.lpos
  have hoff := offset_ne hpp hgen
  have hN : 0 < N := by omega
  rw [← hle] at hd4 hsh hp hj
  obtain ⟨e, he0, he1⟩ := PSS.error_poly hg hoff ((List.range (4 * pp.l)).erase p) (d := 4 * pp.l) (by
    rw [List.length_erase_of_mem (List.mem_range.2 hp), List.length_range]; omega) j
  have hsum := SharedVec.add (SharedVec.mono (by omega) hsh) (errorShares_shared pp N c₀ e (4 * pp.l) v)
  obtain ⟨outs, hr, ho⟩ := PSS.degRed_runs_release (n := 4 * 2 ^ b) hg (by rw [hle]) hN hN64 hsum (hm.ok hpp hN) sid rng
  refine ⟨fun i => addMask (sh i) (errorShares pp N c₀ e (4 * pp.l) v i), outs, fun i hi h1 => ?_, hr.alwaysYields fun i => PSS.degRed_wf _ (by positivity) _ _ _ _ _, ?_⟩
  · rw [← hle] at hi
    exact addMask_errorShares (he0 i (by
      rw [List.nodup_range.mem_erase_iff]
      exact ⟨h1, List.mem_range.2 hi⟩)) (hsh.1 i hi)
  · have := shifted_opened hg hc₀ (fun c hc => (hsh.2 c hc).2.1) hj he1 ho
    rwa [hle] at this

/-- **C67** (negation) The king must have heard all honest parties: if its time-out fires while the message of one honest party
`q` is still on its way, client `p` gets away with any error, in debug builds too. -/
theorem C67_late_party {dbg₀ : Bool} {b : Nat} {pp : PSS F} (hpp : PSS.new dbg₀ (2 ^ b) = .ok pp) (dbg : Bool)
    (hgen : (FftField.GENERATOR : F) ^ (4 * 2 ^ b) ≠ 1) {N d : Nat} (hN64 : N < 2 ^ 64)
    (hd4 : d ≤ 4 * 2 ^ b - 1) (sh sec : Nat → List T)
    (hsh : Spec.SharedVec pp.share.groupGen pp.secret.offset (2 ^ b) d N sh sec)
    (masks : Nat → DegRedMask T) (hm : IsDegRedMasks pp N masks) (sid : Sid) (rng : Nat → Nat → T)
    (p q : Nat) (hp : p < 4 * 2 ^ b) (hq : q < 4 * 2 ^ b) (hq0 : q ≠ 0) (hpq : p ≠ q) (c₀ j : Nat) (hc₀ : c₀ < N)
    (hj : j < 2 ^ b) (v : T) :
    ∃ (sh' outs : Nat → List T) (k : Nat) (Q : Queues), (∀ i < 4 * 2 ^ b, i ≠ p → sh' i = sh i) ∧
      GSteps Any k (Net.init fun i : Fin (4 * 2 ^ b) => pp.degRed dbg (4 * 2 ^ b) i (sh' i) (masks i) sid rng)
        ⟨fun i => .done (.ok (outs i)), Q⟩ ∧
      (pp.unpack ((List.range (4 * 2 ^ b)).map fun p => (outs p).getD c₀ 0)).getD j 0 = (sec c₀).getD j 0 + v ∧
      ∀ c < N, c ≠ c₀ → pp.unpack ((List.range (4 * 2 ^ b)).map fun p => (outs p).getD c 0) = sec c := by
  have hle := l_eq hpp
  have hg := PSS.good_of_new hpp
  have hl := hg.lpos
  have hoff := offset_ne hpp hgen
  have hN : 0 < N := by omega
  rw [← hle] at hd4 hsh hp hq hj
  obtain ⟨e, he0, he1⟩ := PSS.error_poly hg hoff (((List.range (4 * pp.l)).erase p).erase q) (d := 4 * pp.l - 1) (by
    rw [List.length_erase_of_mem, List.length_erase_of_mem (List.mem_range.2 hp), List.length_range]
    · omega
    · rw [List.nodup_range.mem_erase_iff]
      exact ⟨hpq.symm, List.mem_range.2 hq⟩) j
  have hsum := SharedVec.add (SharedVec.mono hd4 hsh) (errorShares_shared pp N c₀ e (4 * pp.l - 1) v)
  have hlen := errorShares_shared pp N c₀ e (4 * pp.l - 1) v
  obtain ⟨k, outs, Q, hk, ho⟩ := PSS.degRed_timeout (n := 4 * 2 ^ b) hg dbg (by rw [hle]) hN hN64
    (parties := (List.range (4 * pp.l)).erase q) (List.nodup_range.erase q)
    (fun i hi => by rw [← hle]; exact List.mem_range.1 (List.mem_of_mem_erase hi))
    (by rw [List.nodup_range.mem_erase_iff]; exact ⟨hq0.symm, List.mem_range.2 (by omega)⟩)
    (by rw [List.length_erase_of_mem (List.mem_range.2 hq), List.length_range, hle])
    (sh := fun i => if i = p then addMask (sh i) (errorShares pp N c₀ e (4 * pp.l - 1) v i) else sh i) hsum
    (fun i hi => by
      rw [List.nodup_range.mem_erase_iff, List.mem_range] at hi
      split
      · rfl
      · rename_i h
        exact (addMask_errorShares (he0 i (by
          rw [(List.nodup_range.erase p).mem_erase_iff, List.nodup_range.mem_erase_iff, List.mem_range]
          exact ⟨hi.1, h, hi.2⟩)) (hsh.1 i hi.2)).symm)
    (fun i hi => by
      rw [← hle] at hi
      split
      · rw [addMask, List.length_zipWith, hsh.1 i hi, hlen.1 i hi, Nat.min_self]
      · exact hsh.1 i hi) (hm.ok hpp hN) sid rng
  refine ⟨fun i => if i = p then addMask (sh i) (errorShares pp N c₀ e (4 * pp.l - 1) v i) else sh i, outs, k, Q,
    fun i hi h1 => if_neg h1, hk, ?_⟩
  have := shifted_opened hg hc₀ (fun c hc => (hsh.2 c hc).2.1) hj he1 ho
  rwa [hle] at this

end negations

/-! ### Examples -/

/-- C67: eight servers re-share `[6, 0, 8, 1]`, one of them cheats. -/
example (sid : Sid) (rngx rng : Nat → Nat → ZMod 17) : ∃ (sh outs : Nat → List (ZMod 17)),
    Spec.SharedVec pp17.share.groupGen pp17.secret.offset 2 4 2 sh (chunks 2 fun i => [6, 0, 8, 1].getD i 0) ∧
    (∀ p, p ≠ 0 → SafeAgainst (fun i => i = p)
      (fun i : Fin (4 * 2 ^ 1) => pp17.degRed true (4 * 2 ^ 1) i (sh i) (DegRedMask.zero 2) sid rng) (fun i => outs i)) ∧
    opened pp17 2 outs = [6, 0, 8, 1] := by
  have hg := PSS.good_of_new (pp17_eq true)
  obtain ⟨sx, -, hx⟩ := deal (b := 1) (pp17_eq true) true (N := 2) (by omega) ([6, 0, 8, 1] : List (ZMod 17)) rfl rngx
  obtain ⟨outs, h1, h2, h3⟩ := C67_deg_red (b := 1) (pp17_eq true) (N := 2) (d := 4) (by omega) (by omega) (by omega) (by omega)
    _ _ hx (fun _ => DegRedMask.zero 2) (Or.inr fun _ => rfl) sid rng
  exact ⟨_, outs, hx, h2, (opened_shared hg le_rfl h3).trans (by decide +kernel)⟩

/-- C67: server 3 runs `deg_red` on zeros. -/
example (sid : Sid) (rngx rng : Nat → Nat → ZMod 17) : ∃ (sh : Nat → List (ZMod 17)),
    Spec.SharedVec pp17.share.groupGen pp17.secret.offset 2 4 2 sh (chunks 2 fun i => [6, 0, 8, 1].getD i 0) ∧
    ∀ y : List (ZMod 17), y.length = 2 → y ≠ sh 3 → AlwaysKingFails (Net.init
      (fun i : Fin (4 * 2 ^ 1) => pp17.degRed true (4 * 2 ^ 1) i (if i.val = 3 then y else sh i) (DegRedMask.zero 2) sid rng)) .panic := by
  obtain ⟨sx, -, hx⟩ := deal (b := 1) (pp17_eq true) true (N := 2) (by omega) ([6, 0, 8, 1] : List (ZMod 17)) rfl rngx
  exact ⟨_, hx, fun y hl hy => C67_detected (b := 1) (pp17_eq true) (N := 2) (d := 4) (by omega) (by omega) (by omega) (by omega)
    _ _ hx (fun _ => DegRedMask.zero 2) (Or.inr fun _ => rfl) sid rng 3 (by omega) (fun i => if i = 3 then y else sx.getD i [])
    (fun i _ hi => if_neg hi) hl hy⟩

/-- C67: the generator of the field and eight servers are as the negations assume. -/
example : (FftField.GENERATOR : ZMod 17) ^ (4 * 2 ^ 1) ≠ 1 := by decide +kernel

/-- C67: in a release build server 5 turns `[6, 0, 8, 1]` into a vector with a last entry of 9. -/
example (sid : Sid) (rngx rng : Nat → Nat → ZMod 17) : ∃ (sh sh' outs : Nat → List (ZMod 17)),
    Spec.SharedVec pp17.share.groupGen pp17.secret.offset 2 4 2 sh (chunks 2 fun i => [6, 0, 8, 1].getD i 0) ∧
    (∀ i < 8, i ≠ 5 → sh' i = sh i) ∧
    AlwaysYields (Net.init fun i : Fin (4 * 2 ^ 1) => pp17.degRed false (4 * 2 ^ 1) i (sh' i) (DegRedMask.zero 2) sid rng) (fun i => outs i) ∧
    (pp17.unpack ((List.range 8).map fun p => (outs p).getD 1 0)).getD 1 0 = 9 ∧
    pp17.unpack ((List.range 8).map fun p => (outs p).getD 0 0) = [6, 0] := by
  obtain ⟨sx, -, hx⟩ := deal (b := 1) (pp17_eq true) true (N := 2) (by omega) ([6, 0, 8, 1] : List (ZMod 17)) rfl rngx
  obtain ⟨sh', outs, h1, h2, h3, h4⟩ := C67_release_cheater (b := 1) (pp17_eq true) (by decide +kernel) (N := 2) (d := 4) (by omega) (by omega)
    _ _ hx (fun _ => DegRedMask.zero 2) (Or.inr fun _ => rfl) sid rng 5 (by omega) 1 1 (by omega) (by omega) (8 : ZMod 17)
  exact ⟨_, sh', outs, hx, h1, h2, h3.trans (by decide +kernel), (h4 0 (by omega) (by omega)).trans (by decide +kernel)⟩

/-- C67: in a debug build servers 2 and 5 do the same, and server 5 alone if the message of server 2 is late. -/
example (dbg : Bool) (sid : Sid) (rngx rng : Nat → Nat → ZMod 17) : ∃ (sh sh' outs sh'' outs' : Nat → List (ZMod 17)) (k : Nat) (Q : Queues),
    Spec.SharedVec pp17.share.groupGen pp17.secret.offset 2 4 2 sh (chunks 2 fun i => [6, 0, 8, 1].getD i 0) ∧
    (∀ i < 8, i ≠ 2 → i ≠ 5 → sh' i = sh i) ∧
    AlwaysYields (Net.init fun i : Fin (4 * 2 ^ 1) => pp17.degRed dbg (4 * 2 ^ 1) i (sh' i) (DegRedMask.zero 2) sid rng) (fun i => outs i) ∧
    (pp17.unpack ((List.range 8).map fun p => (outs p).getD 1 0)).getD 1 0 = 9 ∧
    (∀ i < 8, i ≠ 5 → sh'' i = sh i) ∧
    GSteps Any k (Net.init fun i : Fin (4 * 2 ^ 1) => pp17.degRed dbg (4 * 2 ^ 1) i (sh'' i) (DegRedMask.zero 2) sid rng)
      ⟨fun i => .done (.ok (outs' i)), Q⟩ ∧
    (pp17.unpack ((List.range 8).map fun p => (outs' p).getD 1 0)).getD 1 0 = 9 := by
  obtain ⟨sx, -, hx⟩ := deal (b := 1) (pp17_eq true) true (N := 2) (by omega) ([6, 0, 8, 1] : List (ZMod 17)) rfl rngx
  obtain ⟨sh', outs, h1, h2, h3, -⟩ := C67_two_cheaters (b := 1) (pp17_eq true) dbg (by decide +kernel) (N := 2) (d := 4) (by omega) (by omega)
    (by omega) _ _ hx (fun _ => DegRedMask.zero 2) (Or.inr fun _ => rfl) sid rng 2 5 (by omega) (by omega) (by omega) 1 1 (by omega) (by omega)
    (8 : ZMod 17)
  obtain ⟨sh'', outs', k, Q, h1', h2', h3', -⟩ := C67_late_party (b := 1) (pp17_eq true) dbg (by decide +kernel) (N := 2) (d := 4) (by omega)
    (by omega) _ _ hx (fun _ => DegRedMask.zero 2) (Or.inr fun _ => rfl) sid rng 5 2 (by omega) (by omega) (by omega) (by omega) 1 1 (by omega)
    (by omega) (8 : ZMod 17)
  exact ⟨_, sh', outs, sh'', outs', k, Q, hx, h1, h2, h3.trans (by decide +kernel), h1', h2', h3'.trans (by decide +kernel)⟩

/-- `x·w = y`, with the instance `(1, y, v)` and the witness `(x, w)`: the vectors of its key have even lengths. -/
def mats17e : ConstraintMatrices (ZMod 17) :=
  { numInstanceVariables := 3, numConstraints := 1, a := [[(1, 3)]], b := [[(1, 4)]], c := [[(1, 1)]] }

/-- `y = 12`, `v = 5`, `x = 3`, `w = 4`. -/
def z17e : List (ZMod 17) := [1, 12, 5, 3, 4]

theorem circuit17e : Circuit 1 1 mats17e z17e dom17 dom17b where
  domain := by decide +kernel
  size := rfl
  double := dom17b_eq
  rowsA := rfl
  rowsB := rfl
  colsA := by intro row hr t ht; simp [mats17e] at hr; subst hr; simp at ht; subst ht; decide
  colsB := by intro row hr t ht; simp [mats17e] at hr; subst hr; simp at ht; subst ht; decide
  colsC := by intro row hr t ht; simp [mats17e] at hr; subst hr; simp at ht; subst ht; decide
  inputs := by decide
  wires := by decide
  one := rfl

/-- C67: a session of debug builds with one cheating server; the client's `r` is shared by a constant polynomial. -/
example (tape : ClientTape (ZMod 17) (ZMod 17) (ZMod 17)) (htape : tape.r = fun _ => 5) : ∃ (pk : ProvingKey (ZMod 17) (ZMod 17))
    (ins : Nat → ServerInput (ZMod 17) (ZMod 17) (ZMod 17)) (pA pB pC : ZMod 17),
    pp17.deal true 2 mats17e z17e pk 1 1 5 6 tape = .ok ((List.range 8).map ins) ∧
    Verifies (LinearMap.mul (ZMod 17) (ZMod 17)) pk.vk [12, 5] pA pB pC ∧
    ∀ p, p ≠ 0 → ∀ procs : Fin (4 * 2 ^ 1) → Proc (ZMod 17 × ZMod 17 × ZMod 17),
      (∀ i : Fin (4 * 2 ^ 1), i.val ≠ p → procs i = (ins i).run pp17 true (4 * 2 ^ 1) i fun _ i j => i + j) →
      ∀ c, TReach (fun i => i = p) (Net.init procs) c →
      ∀ res : Nat → ZMod 17 × ZMod 17 × ZMod 17, (∀ i : Fin (4 * 2 ^ 1), i.val ≠ p → c.procs i = .done (.ok (res i))) →
      ∀ π, pp17.openProof true ((List.range 8).map res) = .ok π → π = (pA, pB, pC) := by
  obtain ⟨pa, pb, pc, pk, h1, h2⟩ := C35_key_exists circuit17e (⟨2, 3, 4, 5, 6⟩ : Toxic (ZMod 17)) (1 : ZMod 17) (1 : ZMod 17)
  obtain ⟨ins, outs, pA, pB, pC, h3, -, -, -, h6, h7⟩ := C67_proof (GT := ZMod 17) (pp17_eq true) 1 (by norm_num) circuit17e
    (fun i hi => by obtain rfl : i = 0 := by simpa [mats17e] using hi
                    decide +kernel) h1 h2
    (by decide) (by decide)
    (by unfold KeyAligned; rw [h2.aQuery, h2.hQuery, h2.lQuery, h2.bG1Query, h2.bG2Query]; simp only [List.length_map, List.length_range]; decide)
    1 1 5 6 tape (by
      intro rs hrs
      have : pp17.pack true (List.replicate (2 ^ 1) (5 : ZMod 17)) (fun _ => 5) = .ok (List.replicate 8 5) := by decide +kernel
      rw [htape, this] at hrs
      cases hrs
      left
      decide) fun _ i j => i + j
  exact ⟨pk, ins, pA, pB, pC, h3, h6 _, h7⟩

/-- Example for C67: a transform of four values between eight servers, whatever one of the clients sends. -/
example : ∃ (sh outs : Nat → List (ZMod 17)),
    (∀ p, p ≠ 0 → SafeAgainst (fun i => i = p) (fun i : Fin (4 * 2 ^ 1) => pp17.dFft true (4 * 2 ^ 1) i (sh i) (FftMask.zero 2) false dom17 .zero (fun i j => i + j)) (fun i => outs i)) ∧
    opened pp17 2 outs = dom17.fft [1, 2, 3, 4] := by
  obtain ⟨shares, -, -, hs⟩ := C19_input_is_packed (pp17_eq true) true 1 ([1, 2, 3, 4] : List (ZMod 17)) rfl
    fun i j => 3 * (i : ZMod 17) + (j : ZMod 17)
  obtain ⟨outs, -, h1, h2⟩ := C67_d_fft (pp17_eq true) 1 (by norm_num) dom17_eq (fun p => shares.getD p []) ([1, 2, 3, 4] : List (ZMod 17)) hs false (fun _ => FftMask.zero 2) (Or.inr fun _ => rfl) .zero
    (fun i j => i + j)
  exact ⟨fun p => shares.getD p [], outs, h1, h2.opened (pp17_eq true)⟩

/-- Example for C67: a transform of four values between eight servers, whatever one of the clients sends. -/
example : ∃ (sh outs : Nat → List (ZMod 17)),
    (∀ p, p ≠ 0 → SafeAgainst (fun i => i = p) (fun i : Fin (4 * 2 ^ 1) => pp17.dIfft true (4 * 2 ^ 1) i (sh i) (FftMask.zero 2) false dom17 3 .zero (fun i j => i + j)) (fun i => outs i)) ∧
    opened pp17 2 outs = (List.range 4).map fun k => 3 ^ k * (dom17.ifft [1, 2, 3, 4]).getD k 0 := by
  obtain ⟨shares, -, -, hs⟩ := C19_input_is_packed (pp17_eq true) true 1 ([1, 2, 3, 4] : List (ZMod 17)) rfl
    fun i j => 3 * (i : ZMod 17) + (j : ZMod 17)
  obtain ⟨outs, -, h1, h2⟩ := C67_d_ifft (pp17_eq true) 1 (by norm_num) dom17_eq (fun p => shares.getD p []) ([1, 2, 3, 4] : List (ZMod 17)) hs 3 false (fun _ => FftMask.zero 2) (Or.inr fun _ => rfl) .zero
    (fun i j => i + j)
  exact ⟨fun p => shares.getD p [], outs, h1, h2.opened (pp17_eq true)⟩

/-- Example for C67: `3·1 + 5·4`, whatever one of the clients sends. -/
example : ∃ (sb ss : List (List (ZMod 17))) (outs : Nat → ZMod 17),
    (do let rows ← pp17.packVec true ([1, 4] : List (ZMod 17)) fun i j => i + j; transpose rows) = .ok sb ∧
    (∀ p, p ≠ 0 → SafeAgainst (fun i => i = p) (fun i : Fin (4 * 2 ^ 1) => pp17.dMsm true (4 * 2 ^ 1) i (sb.getD i []) (ss.getD i []) MsmMask.zero .zero) (fun i => outs i)) ∧
    pp17.unpack ((List.range (4 * 2 ^ 1)).map outs) = [6, 6] := by
  have hg := PSS.good_of_new (pp17_eq true)
  obtain ⟨sb, ss, outs, h1, -, -, h2, h3⟩ := C67_d_msm (G := ZMod 17) (b := 1) (pp17_eq true) (N := 1) (by norm_num) [1, 4] [3, 5] rfl rfl
    (fun _ => MsmMask.zero) (.inr fun _ => rfl) .zero (fun i j => i + j) (fun i j => i + j)
  exact ⟨sb, ss, outs, h1, h2, (PSS.unpack_of_shares hg (d := 4) (by decide) h3).trans (by decide +kernel)⟩

/-- Example for C67: the partial products of `3/2` and `5/7`, whatever one of the clients sends. -/
example : ∃ (sn sd : List (List (ZMod 17))) (outs : Nat → List (ZMod 17)),
    (∀ p, p ≠ 0 → SafeAgainst (fun i => i = p) (fun i : Fin (4 * 2 ^ 1) => pp17.dPp true (4 * 2 ^ 1) i (sn.getD i []) (sd.getD i []) (DegRedMask.zero 1) .zero (fun i j => i + j) (fun i j => i * j)) (fun i => outs i)) ∧
    opened pp17 1 outs = [10, 12] := by
  obtain ⟨sn, sd, outs, -, -, -, h1, h2⟩ := C67_d_pp (pp17_eq true) (N := 1) (by norm_num) (by norm_num) [3, 5] [2, 7] rfl rfl (by decide)
    (fun _ => DegRedMask.zero 1) (.inr fun _ => rfl) .zero (fun i j => i + j) (fun i j => i + j) (fun i j => i + j) (fun i j => i * j)
  exact ⟨sn, sd, outs, h1, h2.trans (by decide +kernel)⟩

/-- Example for C67: `h` of the example circuit as Circom computes it, whatever one of the clients sends. -/
example : ∃ (q : Nat → PackedQAPShare (ZMod 17)) (A B C : (ZMod 17)[X]) (outs : Nat → List (ZMod 17)),
    (∀ p, p ≠ 0 → SafeAgainst (fun i => i = p) (fun i : Fin (4 * 2 ^ 1) => pp17.circomH true (4 * 2 ^ 1) i (q i) (fun _ => FftMask.zero 2) (DegRedMask.zero 2) fun _ i j => i + j) (fun i => outs i)) ∧
    opened pp17 2 outs = (List.range 4).map (fun i => (A * B - C).eval (dom17b.groupGen ^ (2 * i + 1))) := by
  obtain ⟨q, A, B, C, hq, h1, h2, h3, iA, iB, iC⟩ := shares17
  obtain ⟨outs, -, h4, h5⟩ := C67_circom_h (pp17_eq true) 1 (by norm_num) dom17_eq dom17b_eq q hq _ _ _ h1 h2 h3 A B C iA iB iC
    (fun _ _ => FftMask.zero 2) ⟨fun _ _ => .inr fun _ => rfl, fun _ _ => .inr fun _ => rfl⟩ (fun _ => DegRedMask.zero 2) (.inr fun _ => rfl)
    fun _ i j => i + j
  exact ⟨q, A, B, C, outs, h4, h5.opened (pp17_eq true)⟩

/-- Example for C67: `h` of the example circuit as libsnark computes it, whatever one of the clients sends. -/
example : ∃ (q : Nat → PackedQAPShare (ZMod 17)) (A B C H : (ZMod 17)[X]) (outs : Nat → List (ZMod 17)),
    (∀ p, p ≠ 0 → SafeAgainst (fun i => i = p) (fun i : Fin (4 * 2 ^ 1) => pp17.libsnarkH true (4 * 2 ^ 1) i (q i) (fun _ => FftMask.zero 2) fun _ i j => i + j) (fun i => outs i)) ∧
    A * B - C = H * (X ^ 4 - 1) ∧ opened pp17 2 outs = (List.range 4).map H.coeff := by
  obtain ⟨q, A, B, C, hq, h1, h2, h3, iA, iB, iC⟩ := shares17
  obtain ⟨H, outs, -, h4, h5, h6⟩ := C67_libsnark_h (pp17_eq true) 1 (by norm_num) dom17_eq ⟨3, by decide, by decide⟩ q hq _ _ _ h1 h2 h3
    A B C iA iB iC (by decide) (fun _ _ => FftMask.zero 2)
    ⟨fun _ _ => .inr fun _ => rfl, fun _ _ => .inr fun _ => rfl, .inr fun _ => rfl⟩ fun _ i j => i + j
  exact ⟨q, A, B, C, H, outs, h4, h5, h6.opened (pp17_eq true)⟩

/-- Example for C67: `A` with `L = 3`, `N = 5`, `r = 4`, `S = [2, 3, 5]`, `a = [1, 1, 2]`, `α = 7`, whatever one of the clients sends. -/
example : ∃ (Ssh ash : Nat → List (ZMod 17)) (rsh : List (ZMod 17)) (outs : Nat → ZMod 17),
    (∀ p, p ≠ 0 → SafeAgainst (fun i => i = p) (fun i : Fin (4 * 2 ^ 1) => pp17.proveA true (4 * 2 ^ 1) i 3 5 7 (Ssh i) (ash i) (rsh.getD i 0) MsmMask.zero .zero) (fun i => outs i)) ∧
    HoldsValue pp17 1 outs (11 : ZMod 17) := by
  obtain ⟨Ssh, -, h1⟩ := packFromWitness_holds (b := 1) (pp17_eq true) true ([2, 3, 5] : List (ZMod 17)) fun _ _ => 1
  obtain ⟨ash, -, h2⟩ := packFromWitness_holds (b := 1) (pp17_eq true) true ([1, 1, 2] : List (ZMod 17)) fun i j => i + j
  obtain ⟨rsh, -, -, h3⟩ := pack_holdsValue (b := 1) (pp17_eq true) true (4 : ZMod 17) fun _ => 3
  obtain ⟨outs, -, h4, h5⟩ := C67_A (G := ZMod 17) (b := 1) (pp17_eq true) 3 5 7 [2, 3, 5] [1, 1, 2] rfl Ssh ash h1 h2
    (fun i => rsh.getD i 0) 4 h3 (fun _ => MsmMask.zero) (Or.inr fun _ => rfl) .zero
  refine ⟨Ssh, ash, rsh, outs, h4, ?_⟩
  have e : (3 + (4 : ZMod 17) • 5 + (∑ i ∈ range ([2, 3, 5] : List (ZMod 17)).length, ([1, 1, 2] : List (ZMod 17)).getD i 0 •
    ([2, 3, 5] : List (ZMod 17)).getD i 0) + 7 : ZMod 17) = 11 := by decide +kernel
  rwa [e] at h5

/-- Example for C67: `C` with `A = 3`, `B = 5`, `r = 4`, `s = 6`, `M = 2`, `W = [2, 3, 5]`, `ax = [1, 1, 2]`, `U = [7, 1]`, `h = [1, 2]`,
whatever one of the clients sends. -/
example : ∃ (Ash Bsh rsh ssh : List (ZMod 17)) (Wsh Ush axsh hsh : Nat → List (ZMod 17)) (outs : Nat → ZMod 17),
    (∀ p, p ≠ 0 → SafeAgainst (fun i => i = p) (fun i : Fin (4 * 2 ^ 1) => pp17.proveC true (4 * 2 ^ 1) i (Ash.getD i 0) (Bsh.getD i 0) (ssh.getD i 0) (rsh.getD i 0) 2 (Wsh i) (Ush i) (axsh i) (hsh i) MsmMask.zero MsmMask.zero) (fun i => outs i)) ∧
    pp17.unpack2 true ((List.range (4 * 2 ^ 1)).map outs) = .ok [14, 14] := by
  obtain ⟨Wsh, -, h1⟩ := packFromWitness_holds (b := 1) (pp17_eq true) true ([2, 3, 5] : List (ZMod 17)) fun _ _ => 1
  obtain ⟨axsh, -, h2⟩ := packFromWitness_holds (b := 1) (pp17_eq true) true ([1, 1, 2] : List (ZMod 17)) fun i j => i + j
  obtain ⟨Ush, -, h3⟩ := packFromWitness_holds (b := 1) (pp17_eq true) true ([7, 1] : List (ZMod 17)) fun _ _ => 1
  obtain ⟨hsh, -, h4⟩ := packFromWitness_holds (b := 1) (pp17_eq true) true ([1, 2] : List (ZMod 17)) fun i j => i + j
  obtain ⟨rsh, -, -, h5⟩ := pack_holdsValue (b := 1) (pp17_eq true) true (4 : ZMod 17) fun _ => 3
  obtain ⟨ssh, -, -, h6⟩ := pack_holdsValue (b := 1) (pp17_eq true) true (6 : ZMod 17) fun _ => 3
  obtain ⟨Ash, -, -, h7⟩ := pack_holdsValue (b := 1) (pp17_eq true) true (3 : ZMod 17) fun _ => 3
  obtain ⟨Bsh, -, -, h8⟩ := pack_holdsValue (b := 1) (pp17_eq true) true (5 : ZMod 17) fun _ => 3
  obtain ⟨outs, -, h9, h10⟩ := C67_C (G := ZMod 17) (b := 1) (pp17_eq true) 2 (fun i => Ash.getD i 0) (fun i => Bsh.getD i 0) 3 5 h7 h8
    (fun i => rsh.getD i 0) (fun i => ssh.getD i 0) 4 6 h5 h6 [2, 3, 5] [7, 1] [1, 1, 2] [1, 2] rfl rfl Wsh Ush axsh hsh h1 h3 h2 h4
    (fun _ => MsmMask.zero) (fun _ => MsmMask.zero) (Or.inr fun _ => rfl) (Or.inr fun _ => rfl)
  exact ⟨Ash, Bsh, rsh, ssh, Wsh, Ush, axsh, hsh, outs, h9, h10.trans (by decide +kernel)⟩

end ZkSaas.Properties
