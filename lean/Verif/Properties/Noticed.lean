import Verif.Properties.Cheaters
import Verif.Spec.Noticed

/-!
# C108: which errors a debug build notices does not depend on what is shared
-/

set_option linter.unusedSectionVars false

namespace ZkSaas.Properties

open Finset Polynomial Spec

variable {F : Type} [Field F] [FftField F] [DecidableEq F] [FixedWire F]

theorem unpack_err_panics {T : Type} [AddCommGroup T] [Module F T] [DecidableEq T] {dbg₀ : Bool} {b : Nat} {pp : PSS F}
    (hpp : PSS.new dbg₀ (2 ^ b) = .ok pp) (hgen : (FftField.GENERATOR : F) ^ (4 * 2 ^ b) ≠ 1) {d : Nat} (hd : d ≤ 4 * pp.l - 1) {x : Nat → T}
    {sec : List T} (hx : pp.Shares d ((List.range (4 * pp.l)).map x) sec) {e : Nat → T}
    (he : ∑ p ∈ range (4 * 2 ^ b), pp.share.groupGen ^ p • e p ≠ 0) :
    pp.unpackMissingShares true ((List.range (4 * pp.l)).map fun i => x i + e i) (List.range (4 * pp.l)) = panic' := by
  have hg := PSS.good_of_new hpp
  have hle := l_eq hpp
  have h0 := PSS.unpack2_of_shares hg true (by omega) hx
  obtain ⟨-, a2⟩ := C88_unpack2 hpp hgen x
  obtain ⟨-, b2⟩ := C88_unpack2 hpp hgen fun i => x i + e i
  rw [← hle] at a2 b2 he
  have hck : ∑ i ∈ range (4 * pp.l), pp.share.groupGen ^ i • x i = 0 := by
    by_contra h
    rw [a2, if_neg h] at h0
    cases h0
  unfold PSS.unpackMissingShares
  rw [debugAssert_of (by simp), ok_bind, if_pos (by simp [hg.n_eq]), b2, if_neg]
  simp only [smul_add, sum_add_distrib]
  rwa [hck, zero_add]

theorem fft2King_notices {dbg₀ : Bool} {b : Nat} {pp : PSS F} (hpp : PSS.new dbg₀ (2 ^ b) = .ok pp)
    (hgen : (FftField.GENERATOR : F) ^ (4 * 2 ^ b) ≠ 1) {d N : Nat} (hN : 0 < N) (hd : d ≤ 4 * pp.l - 1) {x sec : Nat → List F}
    (hx : pp.SharedVec d N x sec) {e : Nat → Nat → F} (he : Notices pp.share.groupGen (4 * 2 ^ b) N e) (g gen : F) (rearrange : Bool)
    (rng : Nat → Nat → F) :
    pp.fft2King true N N g gen rearrange ((List.range (4 * pp.l)).map fun p => addErr (x p) (e p)) (List.range (4 * pp.l)) rng = panic' := by
  have hg := PSS.good_of_new hpp
  have hl := hg.lpos
  have hle := l_eq hpp
  have hq : pp.Decodable true (2 * pp.l) (List.range (4 * pp.l)) := Or.inl rfl
  unfold PSS.fft2King
  rw [transpose_received (N := N) hg (by omega) hN hq fun p hp => by rw [addErr_length]; exact hx.1 p hp, ok_bind]
  dsimp only
  rw [List.length_map, List.length_range, Nat.min_self]
  have hrow : ∀ c < N, (List.range (4 * pp.l)).map (fun p => (addErr (x p) (e p)).getD c 0) =
      (List.range (4 * pp.l)).map fun p => (x p).getD c 0 + e p c := fun c hc => by
    apply List.map_congr_left
    intro p hp
    rw [addErr_getD _ (by rw [hx.1 p (List.mem_range.1 hp)]; exact hc)]
  rcases forUp_panic_inv (n := N) (s := List.replicate (N * pp.l) (0 : F))
    (body := fun i s1 => do
      let share ← rd ((List.range N).map fun c => (List.range (4 * pp.l)).map fun p => (addErr (x p) (e p)).getD c 0) i
      let tmp ← pp.unpackMissingShares true share (List.range (4 * pp.l))
      forUp pp.l (fun j s1 => do
        let x ← rd tmp j
        wr s1 (i * pp.l + j) x) s1)
    (P := fun i v => v.length = N * pp.l ∧ ∀ c < i, ∑ p ∈ range (4 * 2 ^ b), pp.share.groupGen ^ p • e p c = 0) ⟨by simp, by simp⟩
    (by
      rintro c hc v ⟨hv, hs⟩
      rw [rd_ok (by simpa using hc) [], ok_bind, getD_map_range, if_pos hc, hrow c hc]
      by_cases h : ∑ p ∈ range (4 * 2 ^ b), pp.share.groupGen ^ p • e p c = 0
      · right
        rw [unpack_err hpp hgen true hd (hx.2 c hc) (e := fun p => e p c) fun _ => h, ok_bind]
        obtain ⟨w, e1, hw⟩ := forUp_inv (n := pp.l) (s := v) (P := fun _ w => w.length = N * pp.l)
          (body := fun j s1 => do
            let y ← rd (List.zipWith (· + ·) (sec c) (errSec pp b fun p => e p c)) j
            wr s1 (c * pp.l + j) y) hv fun j hj w hw => by
          have : c * pp.l + j < N * pp.l := by
            calc c * pp.l + j < c * pp.l + pp.l := by omega
              _ = (c + 1) * pp.l := by ring
              _ ≤ N * pp.l := Nat.mul_le_mul_right _ hc
          rw [rd_ok (by simp [(hx.2 c hc).2.1, errSec, ← hle, hj]) 0, ok_bind, wr_ok (by omega)]
          exact ⟨_, rfl, by simpa using hw⟩
        refine ⟨w, e1, hw, fun c' hc' => ?_⟩
        rcases Nat.lt_succ_iff_lt_or_eq.1 hc' with h' | rfl
        · exact hs c' h'
        · exact h
      · left
        rw [unpack_err_panics hpp hgen hd (hx.2 c hc) (e := fun p => e p c) h]
        rfl) with h | ⟨v, -, -, h⟩
  · rw [h]; rfl
  · obtain ⟨c, hc, hne⟩ := he
    exact absurd (h c hc) hne

theorem degRedKing_notices {dbg₀ : Bool} {b : Nat} {pp : PSS F} (hpp : PSS.new dbg₀ (2 ^ b) = .ok pp)
    (hgen : (FftField.GENERATOR : F) ^ (4 * 2 ^ b) ≠ 1) {d N : Nat} (hN : 0 < N) (hd : d ≤ 4 * pp.l - 1) {x sec : Nat → List F}
    (hx : pp.SharedVec d N x sec) {e : Nat → Nat → F} (he : Notices pp.share.groupGen (4 * 2 ^ b) N e) (rng : Nat → Nat → F) :
    pp.degRedKing true ((List.range (4 * pp.l)).map fun p => addErr (x p) (e p)) (List.range (4 * pp.l)) rng = panic' := by
  have hg := PSS.good_of_new hpp
  have hl := hg.lpos
  have hle := l_eq hpp
  have hq : pp.Decodable true (2 * pp.l) (List.range (4 * pp.l)) := Or.inl rfl
  obtain ⟨c₀, hc₀, hne⟩ := he
  unfold PSS.degRedKing
  rw [transpose_received (N := N) hg (by omega) hN hq fun p hp => by rw [addErr_length]; exact hx.1 p hp, ok_bind, List.length_map, List.length_range]
  have hrow : ∀ c < N, (List.range (4 * pp.l)).map (fun p => (addErr (x p) (e p)).getD c 0) =
      (List.range (4 * pp.l)).map fun p => (x p).getD c 0 + e p c := fun c hc => by
    apply List.map_congr_left
    intro p hp
    rw [addErr_getD _ (by rw [hx.1 p (List.mem_range.1 hp)]; exact hc)]
  rw [mapM_panic (x := c₀) (List.mem_range.2 hc₀)]
  · rfl
  · rw [rd_ok (by simpa using hc₀) [], ok_bind, getD_map_range, if_pos hc₀, hrow c₀ hc₀,
      unpack_err_panics hpp hgen hd (hx.2 c₀ hc₀) (e := fun p => e p c₀) hne]
    rfl
  · intro c hc
    have hc := List.mem_range.1 hc
    rw [rd_ok (by simpa using hc) [], ok_bind, getD_map_range, if_pos hc, hrow c hc]
    by_cases h : ∑ p ∈ range (4 * 2 ^ b), pp.share.groupGen ^ p • e p c = 0
    · right
      rw [unpack_err hpp hgen true hd (hx.2 c hc) (e := fun p => e p c) fun _ => h, ok_bind,
        PSS.pack_eq hg true (by simp [(hx.2 c hc).2.1, errSec, hle])]
      exact ⟨_, rfl⟩
    · left
      rw [unpack_err_panics hpp hgen hd (hx.2 c hc) (e := fun p => e p c) h]
      rfl

/-- Errors outside of the columns make no difference. -/
theorem addErr_cut {N : Nat} (v : List F) (hv : v.length = N) (e : Nat → F) : addErr v e = addErr v fun c => if c < N then e c else 0 := by
  unfold addErr
  apply List.map_congr_left
  intro c hc
  dsimp only
  rw [if_pos (hv ▸ List.mem_range.1 hc)]

theorem cut_sum {ω : F} {n N : Nat} {e : Nat → Nat → F} (he : ¬ Notices ω n N e) (c : Nat) :
    ∑ p ∈ range n, ω ^ p • (if c < N then e p c else 0) = 0 := by
  by_cases hc : c < N
  · simp only [if_pos hc]
    by_contra h
    exact he ⟨c, hc, h⟩
  · simp [if_neg hc]

/-- The second half of the transforms with errors that the king notices. -/
theorem fft2_notices {dbg₀ : Bool} {a b : Nat} {pp : PSS F} (hpp : PSS.new dbg₀ (2 ^ b) = .ok pp)
    (hgen : (FftField.GENERATOR : F) ^ (4 * 2 ^ b) ≠ 1) (ha : a < 64) {d : Nat} (hd2 : 2 * pp.l ≤ d) (hd4 : d ≤ 4 * pp.l - 1)
    {px sec m secm : Nat → List F} (hpx : pp.SharedVec d (2 ^ a) px sec) (hm : pp.SharedVec (2 * pp.l) (2 ^ a) m secm)
    (out : Nat → List F) {e : Nat → Nat → F} (he : Notices pp.share.groupGen (4 * 2 ^ b) (2 ^ a) e) (rearrange : Bool) (g gen : F) (sid : Sid)
    (rng : Nat → Nat → F) :
    AlwaysKingFails (Net.init fun i : Fin (4 * 2 ^ b) =>
      pp.fft2WithRearrange true (4 * 2 ^ b) i (px i) ⟨addErr (m i) (e i), out i⟩ rearrange g gen sid rng) .panic := by
  have hle := l_eq hpp
  have hn : 4 * 2 ^ b = 4 * pp.l := by rw [hle]
  have hn0 : 0 < 4 * 2 ^ b := by positivity
  have hsum := SharedVec.add hpx (SharedVec.mono hd2 hm)
  have hmsg : ∀ p < 4 * pp.l, addMask (px p) (addErr (m p) (e p)) = addErr (addMask (px p) (m p)) (e p) := fun p hp =>
    addMask_addErr (by rw [hpx.1 p hp, hm.1 p hp]) _
  have hlen : ∀ p < 4 * pp.l, (addMask (px p) (addErr (m p) (e p))).length = 2 ^ a := fun p hp => by
    rw [hmsg p hp, addErr_length]; exact hsum.1 p hp
  refine round_king_fails hn0 sid pp.t (fun i => addMask (px i) (addErr (m i) (e i)))
    (fun i hi => Wire.ok_list _ (by rw [hlen i (by omega)]; exact Nat.pow_lt_pow_right (by omega) ha))
    (fun i rs => pp.fft2King true (addMask (px i) (addErr (m i) (e i))).length (px i).length g gen rearrange rs.shares rs.parties rng) .panic ?_
    (fun i y => Proc.done (.ok (addMask y (out i)))) (fun i y => .done _ _)
  dsimp only
  rw [hlen 0 (by omega), hpx.1 0 (by omega), hn, List.map_congr_left fun p hp => hmsg p (List.mem_range.1 hp)]
  exact fft2King_notices hpp hgen (by positivity) hd4 hsum he g gen rearrange rng

theorem fftDealt_in {dbg₀ : Bool} {a b : Nat} {pp : PSS F} (hpp : PSS.new dbg₀ (2 ^ b) = .ok pp) (rearrange : Bool) (g gen : F) (t : VecTape F) :
    pp.SharedVec (2 * pp.l) (2 ^ a) (fun p => (pp.fftDealt a b rearrange g gen t p).inMask) (packed false a b t.vals) :=
  PSS.freshVec_shared (PSS.good_of_new hpp) (fun c _ => by rw [packed_length, l_eq hpp]) t.rngIn

theorem spoilFft_cut {dbg₀ : Bool} {a b : Nat} {pp : PSS F} (hpp : PSS.new dbg₀ (2 ^ b) = .ok pp) (rearrange : Bool) (g gen : F) (t : VecTape F)
    (e : Nat → F) {p : Nat} (hp : p < 4 * 2 ^ b) :
    (⟨addErr (pp.fftDealt a b rearrange g gen t p).inMask e, (pp.fftDealt a b rearrange g gen t p).outMask⟩ : FftMask F) =
      spoilFft (pp.fftDealt a b rearrange g gen t p) fun c => if c < 2 ^ a then e c else 0 := by
  rw [spoilFft, addErr_cut (N := 2 ^ a) _ ((fftDealt_in hpp rearrange g gen t).1 p (by rw [l_eq hpp]; exact hp))]

/-- **C108** `d_fft` in a debug build with errors in what the servers send: under every schedule the king panics and everybody else waits for ever if the
weighted sum of the errors in some column is not zero, and everybody finishes otherwise. What is transformed and what the masks are makes no difference. -/
theorem C108_d_fft {dbg₀ : Bool} {b : Nat} {pp : PSS F} (hpp : PSS.new dbg₀ (2 ^ b) = .ok pp)
    (hgen : (FftField.GENERATOR : F) ^ (4 * 2 ^ b) ≠ 1) (a : Nat) (ha : a < 64) {dom : Domain F} (hdom : Domain.new (2 ^ (a + b)) = some dom)
    (e : Nat → Nat → F) (sh : Nat → List F) (coeffs : List F) (hsh : HoldsInput pp a b sh coeffs) (rearrange : Bool) (t : VecTape F) (sid : Sid)
    (rng : Nat → Nat → F) (run : Fin (4 * 2 ^ b) → Proc (List F))
    (hrun : ∀ i, run i = pp.dFft true (4 * 2 ^ b) i (sh i) ⟨addErr (pp.fftDealt a b rearrange 1 dom.groupGen t i).inMask (e i),
      (pp.fftDealt a b rearrange 1 dom.groupGen t i).outMask⟩ rearrange dom sid rng) :
    (Notices pp.share.groupGen (4 * 2 ^ b) (2 ^ a) e → AlwaysKingFails (Net.init run) .panic) ∧
    (¬ Notices pp.share.groupGen (4 * 2 ^ b) (2 ^ a) e → ∃ outs : Nat → List F, AlwaysYields (Net.init run) (fun i => outs i)) := by
  have hle := l_eq hpp
  have hl := (PSS.good_of_new hpp).lpos
  obtain ⟨hwf, -, -, hsize⟩ := Domain.new_pow2 hdom
  have hprim : IsPrimitiveRoot dom.groupGen (2 ^ (a + b)) := by rw [← hsize]; exact hwf.prim
  obtain ⟨-, d, hd2, hd4, hin⟩ := hsh
  rw [← hle] at hd2 hd4 hin
  have hin : pp.SharedVec d (2 ^ a) sh (packed true a b fun i => coeffs.getD i 0) := hin
  obtain rfl : run = _ := funext hrun
  constructor
  · intro he
    obtain ⟨px, e1, hpx⟩ := PSS.fft1_shared hle hprim _ hin
    have h := fft2_notices hpp hgen ha hd2 hd4 hpx (fftDealt_in hpp rearrange 1 dom.groupGen t)
      (fun i => (pp.fftDealt a b rearrange 1 dom.groupGen t i).outMask) he rearrange 1 dom.groupGen sid rng
    refine cast ?_ h
    congr 2
    funext i
    have hi : i.val < 4 * pp.l := by have := i.2; omega
    unfold PSS.dFft
    rw [debugAssert_of (by rw [hin.1 i hi, hle, hsize, pow_add]; simp), e1 i hi]
    rfl
  · intro he
    obtain ⟨δ, -, y, y', h⟩ := dFft_couple_err hpp hgen true ha hsize hprim (fun i => coeffs.getD i 0) (fun i => coeffs.getD i 0)
      (e := fun p c => if c < 2 ^ a then e p c else 0) (fun _ => cut_sum he) rearrange (fun i : Fin (2 ^ b) => i.val) Fin.val_injective
      (fun i => by have := i.2; omega)
    obtain ⟨o, o', v, v', r, -⟩ := h t sid rng _ sh sh hd2 hd4 hin hin
    refine ⟨o, AlwaysYields.of_recorded (vs := v) ((RunsV.congr r (fun i => ?_) (fun _ => rfl) fun _ => rfl).alwaysYields (S := only sid)
      fun i => PSS.dFft_wf _ (by positivity) _ _ _ _ _ _ _)⟩
    rw [spoilFft_cut hpp _ _ _ _ _ i.2]

/-- **C108** The same of `d_ifft`. -/
theorem C108_d_ifft {dbg₀ : Bool} {b : Nat} {pp : PSS F} (hpp : PSS.new dbg₀ (2 ^ b) = .ok pp)
    (hgen : (FftField.GENERATOR : F) ^ (4 * 2 ^ b) ≠ 1) (a : Nat) (ha : a < 64) {dom : Domain F} (hdom : Domain.new (2 ^ (a + b)) = some dom)
    (e : Nat → Nat → F) (sh : Nat → List F) (evals : List F) (hsh : HoldsInput pp a b sh evals) (g : F) (rearrange : Bool) (t : VecTape F) (sid : Sid)
    (rng : Nat → Nat → F) (run : Fin (4 * 2 ^ b) → Proc (List F))
    (hrun : ∀ i, run i = pp.dIfft true (4 * 2 ^ b) i (sh i) ⟨addErr (pp.fftDealt a b rearrange g dom.groupGenInv t i).inMask (e i),
      (pp.fftDealt a b rearrange g dom.groupGenInv t i).outMask⟩ rearrange dom g sid rng) :
    (Notices pp.share.groupGen (4 * 2 ^ b) (2 ^ a) e → AlwaysKingFails (Net.init run) .panic) ∧
    (¬ Notices pp.share.groupGen (4 * 2 ^ b) (2 ^ a) e → ∃ outs : Nat → List F, AlwaysYields (Net.init run) (fun i => outs i)) := by
  have hle := l_eq hpp
  have hl := (PSS.good_of_new hpp).lpos
  obtain ⟨hwf, -, -, hsize⟩ := Domain.new_pow2 hdom
  have hprim : IsPrimitiveRoot dom.groupGenInv (2 ^ (a + b)) := by rw [hwf.ginv, ← hsize]; exact hwf.prim.inv
  obtain ⟨-, d, hd2, hd4, hin⟩ := hsh
  rw [← hle] at hd2 hd4 hin
  have hin : pp.SharedVec d (2 ^ a) sh (packed true a b fun i => evals.getD i 0) := hin
  obtain rfl : run = _ := funext hrun
  constructor
  · intro he
    have hsc : pp.SharedVec d (2 ^ a) (fun p => (sh p).map fun z => z * dom.sizeInv) (packed true a b fun i => evals.getD i 0 * dom.sizeInv) :=
      SharedVec.congr (SharedVec.scale hin dom.sizeInv) (fun _ _ => rfl) fun c hc => packed_smul _ _ _ _ _ _
    obtain ⟨px, e1, hpx⟩ := PSS.fft1_shared hle hprim _ hsc
    have h := fft2_notices hpp hgen ha hd2 hd4 hpx (fftDealt_in hpp rearrange g dom.groupGenInv t)
      (fun i => (pp.fftDealt a b rearrange g dom.groupGenInv t i).outMask) he rearrange g dom.groupGenInv sid rng
    refine cast ?_ h
    congr 2
    funext i
    have hi : i.val < 4 * pp.l := by have := i.2; omega
    have e := e1 i hi
    unfold PSS.dIfft
    rw [debugAssert_of (by rw [hin.1 i hi, hle, hsize, pow_add]; simp)]
    dsimp only
    rw [e]
    rfl
  · intro he
    obtain ⟨δ, -, y, y', h⟩ := dIfft_couple_err hpp hgen true ha hsize hprim (fun i => evals.getD i 0) (fun i => evals.getD i 0)
      (e := fun p c => if c < 2 ^ a then e p c else 0) (fun _ => cut_sum he) g rearrange (fun i : Fin (2 ^ b) => i.val) Fin.val_injective
      (fun i => by have := i.2; omega)
    obtain ⟨o, o', v, v', r, -⟩ := h t sid rng _ sh sh hd2 hd4 hin hin
    refine ⟨o, AlwaysYields.of_recorded (vs := v) ((RunsV.congr r (fun i => ?_) (fun _ => rfl) fun _ => rfl).alwaysYields (S := only sid)
      fun i => PSS.dIfft_wf _ (by positivity) _ _ _ _ _ _ _ _)⟩
    rw [spoilFft_cut hpp _ _ _ _ _ i.2]

/-- **C108** The same of `deg_red`. -/
theorem C108_deg_red {dbg₀ : Bool} {b : Nat} {pp : PSS F} (hpp : PSS.new dbg₀ (2 ^ b) = .ok pp)
    (hgen : (FftField.GENERATOR : F) ^ (4 * 2 ^ b) ≠ 1) {N d : Nat} (hN : 0 < N) (hN64 : N < 2 ^ 64) (hd2 : 2 * 2 ^ b ≤ d) (hd4 : d ≤ 4 * 2 ^ b - 1)
    (e : Nat → Nat → F) (sh sec : Nat → List F) (hsh : Spec.SharedVec pp.share.groupGen pp.secret.offset (2 ^ b) d N sh sec) (t : VecTape F) (sid : Sid)
    (rng : Nat → Nat → F) (run : Fin (4 * 2 ^ b) → Proc (List F))
    (hrun : ∀ i, run i = pp.degRed true (4 * 2 ^ b) i (sh i) ⟨addErr (pp.degDealt N t i).inMask (e i), (pp.degDealt N t i).outMask⟩ sid rng) :
    (Notices pp.share.groupGen (4 * 2 ^ b) N e → AlwaysKingFails (Net.init run) .panic) ∧
    (¬ Notices pp.share.groupGen (4 * 2 ^ b) N e → ∃ outs : Nat → List F, AlwaysYields (Net.init run) (fun i => outs i)) := by
  have hg := PSS.good_of_new hpp
  have hle := l_eq hpp
  have hl := hg.lpos
  have hn : 4 * 2 ^ b = 4 * pp.l := by rw [hle]
  have hn0 : 0 < 4 * 2 ^ b := by positivity
  have hsh' : pp.SharedVec d N sh sec := by rw [← hle] at hsh; exact hsh
  rw [← hle] at hd2 hd4
  have hin : pp.SharedVec (2 * pp.l) N (fun p => (pp.degDealt N t p).inMask) (chunks pp.l t.vals) :=
    PSS.freshVec_shared hg (fun c _ => chunks_length _ _ _) _
  have hout : pp.SharedVec (2 * pp.l) N (fun p => (pp.degDealt N t p).outMask) (chunks pp.l fun i => -t.vals i) :=
    PSS.freshVec_shared hg (fun c _ => chunks_length _ _ _) _
  obtain rfl : run = _ := funext hrun
  constructor
  · intro he
    have hsum := SharedVec.add hsh' (SharedVec.mono hd2 hin)
    have hmsg : ∀ p < 4 * pp.l, addMask (sh p) (addErr (pp.degDealt N t p).inMask (e p)) = addErr (addMask (sh p) (pp.degDealt N t p).inMask) (e p) :=
      fun p hp => addMask_addErr (by rw [hsh'.1 p hp, hin.1 p hp]) _
    have h := round_king_fails hn0 sid pp.t (fun i => addMask (sh i) (addErr (pp.degDealt N t i).inMask (e i)))
      (fun i hi => Wire.ok_list _ (by rw [hmsg i (by omega), addErr_length]; exact (hsum.1 i (by omega)).symm ▸ hN64))
      (fun _ rs => pp.degRedKing true rs.shares rs.parties rng) .panic
      (by
        rw [hn, List.map_congr_left fun p hp => hmsg p (List.mem_range.1 hp)]
        exact degRedKing_notices hpp hgen hN hd4 hsum he rng)
      (fun i y => .done (.ok (addMask y (pp.degDealt N t i).outMask))) (fun i y => .done _ _)
    refine cast ?_ h
    congr 2
    funext i
    have hi : i.val < 4 * pp.l := by have := i.2; omega
    have hil : (addErr (pp.degDealt N t i).inMask (e i)).length = N := by rw [addErr_length]; exact hin.1 i hi
    unfold PSS.degRed
    rw [debugAssert_of (by rw [hsh'.1 i hi, hil]; simp), debugAssert_of (by rw [hsh'.1 i hi]; simp [hout.1 i hi])]
    rfl
  · intro he
    obtain ⟨v0, r, -⟩ := degRed_view_err hpp hgen true hN hN64 hd2 hd4 hsh' (e := fun p c => if c < N then e p c else 0) (fun _ => cut_sum he) t sid rng
    refine ⟨fun i => addMask (pp.freshVec N (fun c => List.zipWith (· + ·) (List.zipWith (· + ·) (sec c)
        (errSec pp b fun p => if c < N then e p c else 0)) (chunks pp.l t.vals c)) rng i) (pp.degDealt N t i).outMask,
      AlwaysYields.of_recorded (vs := fun i => if i.val = 0 then v0 else [(0, Wire.enc (pp.freshVec N (fun c => List.zipWith (· + ·)
        (List.zipWith (· + ·) (sec c) (errSec pp b fun p => if c < N then e p c else 0)) (chunks pp.l t.vals c)) rng i))])
        ((RunsV.congr r (fun i => ?_) (fun _ => rfl) fun _ => rfl).alwaysYields (S := only sid)
      fun i => PSS.degRed_wf _ hn0 _ _ _ _ _)⟩
    rw [spoilDeg, addErr_cut (N := N) _ (hin.1 i (by have := i.2; omega)) (e i)]

/-- **C108** The same of `d_msm`. -/
theorem C108_d_msm {G : Type} [AddCommGroup G] [Module F G] [DecidableEq G] [FixedWire G] {dbg₀ : Bool} {b : Nat} {pp : PSS F}
    (hpp : PSS.new dbg₀ (2 ^ b) = .ok pp) (hgen : (FftField.GENERATOR : F) ^ (4 * 2 ^ b) ≠ 1) (e : Nat → G) {y : List G} {x : List F}
    (hlen : x.length = y.length) (bs : Nat → List G) (ss : Nat → List F) (hb : HoldsChunks pp b bs y) (hs : HoldsChunks pp b ss x) (gen : G)
    (t : MsmTape F G) (sid : Sid) (run : Fin (4 * 2 ^ b) → Proc G)
    (hrun : ∀ i, run i = pp.dMsm true (4 * 2 ^ b) i (bs i) (ss i) ⟨(pp.msmDealt gen t i).inMask + e i, (pp.msmDealt gen t i).outMask⟩ sid) :
    (∑ p ∈ range (4 * 2 ^ b), pp.share.groupGen ^ p • e p ≠ 0 → AlwaysKingFails (Net.init run) .panic) ∧
    (∑ p ∈ range (4 * 2 ^ b), pp.share.groupGen ^ p • e p = 0 → ∃ outs : Nat → G, AlwaysYields (Net.init run) (fun i => outs i)) := by
  have hg := PSS.good_of_new hpp
  have hle := l_eq hpp
  have hl := hg.lpos
  have hn : 4 * 2 ^ b = 4 * pp.l := by rw [hle]
  have hn0 : 0 < 4 * 2 ^ b := by positivity
  rw [HoldsChunks, ← hle] at hb hs
  rw [hlen] at hs
  obtain rfl : run = _ := funext hrun
  constructor
  · intro he
    obtain ⟨c, e1, hc⟩ := msm_shared hb hs
    have hin : pp.Shares (2 * pp.l) ((List.range (4 * pp.l)).map fun p => (pp.msmDealt gen t p).inMask)
        ((List.range pp.l).map fun i => t.vals i • gen) := PSS.fresh_one hg (by simp) _
    have hsum := Shares.add hc (Shares.mono (by omega) hin)
    rw [List.zipWith_map_left, List.zipWith_map_right, List.zipWith_self] at hsum
    have hK := unpack_err_panics hpp hgen (by omega) hsum he
    have h := round_king_fails hn0 sid pp.t (fun i => c i + ((pp.msmDealt gen t i).inMask + e i)) (fun i hi => Wire.ok_fixed _)
      (fun _ rs => pp.msmKing true (4 * 2 ^ b) rs.shares rs.parties) .panic
      (by
        simp only [← add_assoc]
        rw [hn, PSS.msmKing, hK]
        rfl)
      (fun i y => .done (.ok (y + (pp.msmDealt gen t i).outMask))) (fun i y => .done _ _)
    refine cast ?_ h
    congr 2
    funext i
    have hi : i.val < 4 * pp.l := by have := i.2; omega
    unfold PSS.dMsm
    rw [debugAssert_of (by rw [hb.1 i hi, hs.1 i hi]; simp), e1 i hi]
    rfl
  · intro he
    obtain ⟨v0, r⟩ := dMsm_view_err hpp hgen true (by omega) (by omega) hb hs (fun _ => he) gen t sid rfl
    exact ⟨fun i => _ + (pp.msmDealt gen t i).outMask, AlwaysYields.of_recorded (RunsV.alwaysYields (S := only sid) r fun i => PSS.dMsm_wf _ hn0 _ _ _ _ _)⟩

theorem shareGen_ne {dbg₀ : Bool} {b : Nat} {pp : PSS F} (hpp : PSS.new dbg₀ (2 ^ b) = .ok pp) : pp.share.groupGen ≠ 0 := by
  have hg := PSS.good_of_new hpp
  have hp := hg.share_wf.prim
  rw [hg.share_size] at hp
  exact hp.ne_zero (by have := hg.lpos; omega)

/-- **C108** A single server that makes any error is noticed. -/
theorem C108_one {dbg₀ : Bool} {b : Nat} {pp : PSS F} (hpp : PSS.new dbg₀ (2 ^ b) = .ok pp) {N : Nat} (e : Nat → Nat → F) (p : Nat) (hp : p < 4 * 2 ^ b)
    (hone : ∀ i < 4 * 2 ^ b, i ≠ p → ∀ c, e i c = 0) {c : Nat} (hc : c < N) (hne : e p c ≠ 0) : Notices pp.share.groupGen (4 * 2 ^ b) N e := by
  refine ⟨c, hc, ?_⟩
  rw [sum_eq_single_of_mem p (mem_range.2 hp) fun i hi hip => by rw [hone i (mem_range.1 hi) hip, smul_zero], smul_eq_mul]
  exact mul_ne_zero (pow_ne_zero _ (shareGen_ne hpp)) hne

/-- **C108** Whatever the errors of the other servers are, there is exactly one error of server `q` in a column with which nothing is noticed there. -/
theorem C108_second {G : Type} [AddCommGroup G] [Module F G] {dbg₀ : Bool} {b : Nat} {pp : PSS F} (hpp : PSS.new dbg₀ (2 ^ b) = .ok pp) (e : Nat → G)
    (q : Nat) (hq : q < 4 * 2 ^ b) :
    ∃! x : G, ∑ p ∈ range (4 * 2 ^ b), pp.share.groupGen ^ p • (if p = q then x else e p) = 0 := by
  have hω := pow_ne_zero q (shareGen_ne hpp)
  have key : ∀ x : G, ∑ p ∈ range (4 * 2 ^ b), pp.share.groupGen ^ p • (if p = q then x else e p) =
      pp.share.groupGen ^ q • x + ∑ p ∈ (range (4 * 2 ^ b)).erase q, pp.share.groupGen ^ p • e p := by
    intro x
    rw [← add_sum_erase _ _ (mem_range.2 hq), if_pos rfl]
    congr 1
    exact sum_congr rfl fun p hp => by rw [if_neg (ne_of_mem_erase hp)]
  refine ⟨-((pp.share.groupGen ^ q)⁻¹ • ∑ p ∈ (range (4 * 2 ^ b)).erase q, pp.share.groupGen ^ p • e p), ?_, fun x hx => ?_⟩
  · dsimp only
    rw [key, smul_neg, smul_inv_smul₀ hω, neg_add_cancel]
  · dsimp only at hx
    rw [key] at hx
    rw [← smul_neg, ← eq_neg_of_add_eq_zero_left hx, inv_smul_smul₀ hω]

/-! ### Examples -/

/-- Server 3 is wrong by 1 in the second column. -/
def slip17 (p c : Nat) : ZMod 17 := if p = 3 ∧ c = 1 then 1 else 0

/-- C108: one wrong server is noticed, the errors of the servers 2 and 5 that cancel are not. -/
theorem slip17_noticed : Notices pp17.share.groupGen (4 * 2 ^ 1) (2 ^ 1) slip17 ∧
    ¬ Notices pp17.share.groupGen (4 * 2 ^ 1) (2 ^ 1) fun p c => cancel17 p * (c + 1) := by
  refine ⟨C108_one (pp17_eq true) slip17 3 (by norm_num) (fun i _ hi c => by simp [slip17, hi]) (c := 1) (by norm_num) (by decide +kernel), ?_⟩
  rintro ⟨c, hc, h⟩
  apply h
  have := cancel17_sum
  rw [show ∑ p ∈ range (4 * 2 ^ 1), pp17.share.groupGen ^ p • (cancel17 p * ((c : ZMod 17) + 1)) =
    (∑ p ∈ range (4 * 2 ^ 1), pp17.share.groupGen ^ p * cancel17 p) * (c + 1) by rw [sum_mul]; simp [mul_assoc], this, zero_mul]

/-- C108: `d_fft` and `d_ifft` on shares of two different vectors. -/
example (sid : Sid) (rng : Nat → Nat → ZMod 17) (t t' : VecTape (ZMod 17)) :
    AlwaysKingFails (Net.init fun i : Fin (4 * 2 ^ 1) => pp17.dFft true (4 * 2 ^ 1) i (wide17 i) ⟨addErr (pp17.fftDealt 1 1 true 1 dom17.groupGen t i).inMask
      (slip17 i), (pp17.fftDealt 1 1 true 1 dom17.groupGen t i).outMask⟩ true dom17 sid rng) .panic ∧
    AlwaysKingFails (Net.init fun i : Fin (4 * 2 ^ 1) => pp17.dFft true (4 * 2 ^ 1) i (wide17' i) ⟨addErr (pp17.fftDealt 1 1 true 1 dom17.groupGen t' i).inMask
      (slip17 i), (pp17.fftDealt 1 1 true 1 dom17.groupGen t' i).outMask⟩ true dom17 sid rng) .panic ∧
    AlwaysKingFails (Net.init fun i : Fin (4 * 2 ^ 1) => pp17.dIfft true (4 * 2 ^ 1) i (wide17 i) ⟨addErr (pp17.fftDealt 1 1 false 3 dom17.groupGenInv t i).inMask
      (slip17 i), (pp17.fftDealt 1 1 false 3 dom17.groupGenInv t i).outMask⟩ false dom17 3 sid rng) .panic ∧
    ∃ outs : Nat → List (ZMod 17), AlwaysYields (Net.init fun i : Fin (4 * 2 ^ 1) => pp17.dFft true (4 * 2 ^ 1) i (wide17 i)
      ⟨addErr (pp17.fftDealt 1 1 true 1 dom17.groupGen t i).inMask (fun c => cancel17 i * (c + 1)),
        (pp17.fftDealt 1 1 true 1 dom17.groupGen t i).outMask⟩ true dom17 sid rng) fun i => outs i :=
  ⟨(C108_d_fft (pp17_eq true) gen17 1 (by omega) dom17_eq slip17 _ _ wide17_holds true t sid rng _ fun _ => rfl).1 slip17_noticed.1,
    (C108_d_fft (pp17_eq true) gen17 1 (by omega) dom17_eq slip17 _ _ wide17_holds' true t' sid rng _ fun _ => rfl).1 slip17_noticed.1,
    (C108_d_ifft (pp17_eq true) gen17 1 (by omega) dom17_eq slip17 _ _ wide17_holds 3 false t sid rng _ fun _ => rfl).1 slip17_noticed.1,
    (C108_d_fft (pp17_eq true) gen17 1 (by omega) dom17_eq (fun p c => cancel17 p * (c + 1)) _ _ wide17_holds true t sid rng _ fun _ => rfl).2
      slip17_noticed.2⟩

/-- C108: `deg_red` and `d_msm`. -/
example (sid : Sid) (rngx rng : Nat → Nat → ZMod 17) (t : VecTape (ZMod 17)) (u : MsmTape (ZMod 17) (ZMod 17)) :
    ∃ sh : Nat → List (ZMod 17), HoldsChunks pp17 1 sh [6, 0, 8, 1] ∧
    AlwaysKingFails (Net.init fun i : Fin (4 * 2 ^ 1) => pp17.degRed true (4 * 2 ^ 1) i (sh i) ⟨addErr (pp17.degDealt 2 t i).inMask (slip17 i),
      (pp17.degDealt 2 t i).outMask⟩ sid rng) .panic ∧
    AlwaysKingFails (Net.init fun i : Fin (4 * 2 ^ 1) => pp17.dMsm true (4 * 2 ^ 1) i (sh i) (sh i) ⟨(pp17.msmDealt 2 u i).inMask + slip17 i 1,
      (pp17.msmDealt 2 u i).outMask⟩ sid) .panic ∧
    ∃ outs : Nat → ZMod 17, AlwaysYields (Net.init fun i : Fin (4 * 2 ^ 1) => pp17.dMsm true (4 * 2 ^ 1) i (sh i) (sh i)
      ⟨(pp17.msmDealt 2 u i).inMask + cancel17 i, (pp17.msmDealt 2 u i).outMask⟩ sid) fun i => outs i := by
  obtain ⟨sx, -, hx⟩ := deal (b := 1) (pp17_eq true) true (N := 2) (by omega) ([6, 0, 8, 1] : List (ZMod 17)) rfl rngx
  have hh : HoldsChunks pp17 1 (fun i => sx.getD i []) [6, 0, 8, 1] := hx
  exact ⟨_, hh, (C108_deg_red (b := 1) (pp17_eq true) gen17 (N := 2) (d := 4) (by omega) (by omega) (by omega) (by omega) slip17 _ _ hx t sid rng _
      fun _ => rfl).1 slip17_noticed.1,
    (C108_d_msm (b := 1) (pp17_eq true) gen17 (fun i => slip17 i 1) rfl _ _ hh hh 2 u sid _ fun _ => rfl).1 (by decide +kernel),
    (C108_d_msm (b := 1) (pp17_eq true) gen17 cancel17 rfl _ _ hh hh 2 u sid _ fun _ => rfl).2 cancel17_sum⟩

/-- C108: server 5 alone undoes what server 2 has done. -/
example : ∃! x : ZMod 17, ∑ p ∈ range (4 * 2 ^ 1), pp17.share.groupGen ^ p • (if p = 5 then x else if p = 2 then 1 else 0) = 0 :=
  C108_second (pp17_eq true) (fun p => if p = 2 then 1 else 0) 5 (by norm_num)

end ZkSaas.Properties
