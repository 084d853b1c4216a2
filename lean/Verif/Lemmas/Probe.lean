import Verif.Lemmas.KingView
import Verif.Lemmas.Cheat
import Verif.Lemmas.Robust
import Verif.Lemmas.Factor
import Verif.Spec.ProbingKing

/-! A king who adds to the results of transforms. -/

set_option linter.unusedSectionVars false

namespace ZkSaas

open Finset Spec Polynomial

variable {F : Type} [Field F] [DecidableEq F]

theorem shiftRow_length (d : Nat → F) (row : List F) : (shiftRow d row).length = row.length := by simp [shiftRow]

theorem shiftRow_getD (d : Nat → F) {row : List F} {c : Nat} (hc : c < row.length) : (shiftRow d row).getD c 0 = row.getD c 0 + d c := by
  rw [List.getD_eq_getElem _ _ (by rw [shiftRow_length]; exact hc), List.getD_eq_getElem _ _ hc]
  simp [shiftRow]

theorem shiftRow_addMask (d : Nat → F) {row mask : List F} (h : row.length = mask.length) :
    addMask (shiftRow d row) mask = shiftRow d (addMask row mask) := by
  unfold addMask
  refine list_ext_getD 0 (by simp [shiftRow_length]) fun c hc => ?_
  have hc' : c < row.length := by simp [shiftRow_length] at hc; omega
  rw [getD_zipWith _ _ _ _ 0 0 _ (by rw [shiftRow_length]; exact hc') (by omega), shiftRow_getD _ hc', shiftRow_getD _ (by simp; omega),
    getD_zipWith _ _ _ _ 0 0 _ hc' (by omega)]
  ring

theorem mapIdx_range {α β : Type} (n : Nat) (x : Nat → α) (f : Nat → α → β) :
    ((List.range n).map x).mapIdx f = (List.range n).map fun p => f p (x p) := by
  refine List.ext_getElem (by simp) fun i h1 h2 => ?_
  simp

variable [FixedWire F] {n : Nat}

/-- The interactive half of a transform with dealt masks, and with a king who adds `δ` to its answers. -/
theorem PSS.fft2_shift {pp : PSS F} (hg : pp.Good) (dbg : Bool) (hn : n = 4 * pp.l) {a b : Nat}
    (ha : a < 64) (hlb : pp.l = 2 ^ b) {gen : F}
    (hprim : IsPrimitiveRoot gen (2 ^ (a + b))) (φ : Nat → Nat → F → F)
    {d : Nat} (hd2 : 2 * pp.l ≤ d) (hd4 : d ≤ 4 * pp.l - 1)
    {px : Nat → List F} (hpx : pp.SharedVec d (2 ^ a) px
      (fun c => (List.range (2 ^ b)).map fun j => φ a j (gen ^ (2 ^ b * (c + 1)))))
    (g : F) (rearrange : Bool) (t : VecTape F) (sid : Sid) (rng : Nat → Nat → F) (δ : Nat → Nat → F)
    {ps : Fin n → Proc (List F)} :
    let ans := pp.freshVec (2 ^ a) (pp.finishSec a b (kingVec a b gen φ t.vals) g gen rearrange id) rng
    let mask := pp.fftDealt a b rearrange g gen t
    (∀ i : Fin n, ∃ K : ReceivedShares (List F) → Res (List (List F)),
      (i.val = 0 → K = fun rs => (pp.fft2King dbg (addMask (px i) (mask i).inMask).length (px i).length g gen rearrange rs.shares rs.parties rng).map
        fun v => v.mapIdx fun p row => shiftRow (δ p) row) ∧
      ps i = (clientSendOrKingReceiveSer n i (addMask (px i) (mask i).inMask) sid pp.t).bind fun r =>
        (Proc.done (kingDo K r)).bind fun a => (clientReceiveOrKingSendSer n i a sid).bind fun y => .done (.ok (addMask y (mask i).outMask))) →
    RunsV All (only sid) ps (fun i => shiftRow (δ i) (addMask (ans i) (mask i).outMask))
      (fun i => if i.val = 0 then gathered n fun p => addMask (px p) (mask p).inMask else [(0, Wire.enc (shiftRow (δ i) (ans i)))]) := by
  intro ans mask hps
  choose K hK0 hps using hps
  have hl := hg.lpos
  have hn0 : 0 < n := by omega
  obtain ⟨ψ, hψ, hv⟩ := exists_layout (a := a) (b := b) hprim t.vals
  have hin : pp.SharedVec (2 * pp.l) (2 ^ a) (fun p => (mask p).inMask)
      (fun c => (List.range (2 ^ b)).map fun j => ψ a j (gen ^ (2 ^ b * (c + 1)))) := by
    refine SharedVec.congr (PSS.freshVec_shared hg (sec := packed false a b t.vals) (fun c _ => by rw [packed_length, hlb]) t.rngIn)
      (fun _ _ => rfl) fun c hc => ?_
    unfold packed
    apply List.map_congr_left
    intro j hj
    rw [slot, if_neg (by simp), hv c hc j (List.mem_range.1 hj)]
  have hsum := SharedVec.add hpx (SharedVec.mono hd2 hin)
  have hsum' : pp.SharedVec d (2 ^ a) (fun p => addMask (px p) (mask p).inMask)
      (fun c => (List.range (2 ^ b)).map fun j => (φ a j (gen ^ (2 ^ b * (c + 1))) + ψ a j (gen ^ (2 ^ b * (c + 1))))) := by
    refine SharedVec.congr hsum (fun _ _ => rfl) fun c hc => ?_
    rw [List.zipWith_map_left, List.zipWith_map_right, List.zipWith_self]
  obtain ⟨s1, h1, h2, hK⟩ := PSS.fft2King_eq hg dbg hlb (fun s j x => φ s j x + ψ s j x)
    (by omega : 0 < d) hd4 (Or.inl rfl : pp.Decodable dbg d _) hsum' g rearrange
  have hb0 : 0 < 2 ^ b := by positivity
  have hs1 : s1 = kingVec a b gen φ t.vals := by
    apply list_ext_getD 0 (by simp [h1, kingVec])
    intro i hi
    rw [h1] at hi
    have hk : i / 2 ^ b < 2 ^ a := by rw [Nat.div_lt_iff_lt_mul hb0, ← pow_add]; exact hi
    have hj := Nat.mod_lt i hb0
    have := h2 _ hk _ hj
    rw [Nat.div_add_mod' i (2 ^ b)] at this
    rw [this, kingVec, getD_map_range, if_pos hi, ← hv _ hk _ hj, Nat.div_add_mod' i (2 ^ b)]
  have hlen : ∀ p < 4 * pp.l, (addMask (px p) (mask p).inMask).length = 2 ^ a := hsum'.1
  have h2a : 2 ^ a < 2 ^ 64 := Nat.pow_lt_pow_right (by norm_num) ha
  have hkl : (kingVec a b gen φ t.vals).length = 2 ^ (a + b) := by simp [kingVec]
  have hal : ∀ i, (ans i).length = 2 ^ a := fun i => pp.freshVec_length _ _ _ _
  have hol : ∀ i : Fin n, (mask i).outMask.length = 2 ^ a := fun i => pp.freshVec_length _ _ _ _
  refine RunsV.congr (runsV_round hn0 sid pp.t (fun i => addMask (px i) (mask i).inMask)
    (fun i hi => Wire.ok_list _ (by rw [hlen i (by omega)]; exact h2a)) K
    (fun p => shiftRow (δ p) (ans p)) (8 + 2 ^ a * FixedWire.width F) ?_ ?_
    (fun i y => .done (.ok (addMask y (mask i).outMask))) (RunsV.done _)) hps (fun i => ?_) (fun i => by simp)
  · rw [hK0 ⟨0, hn0⟩ rfl]
    simp only
    rw [hlen 0 (by omega), hpx.1 0 (by omega), hn, hK, hs1, PSS.fft2Finish_dealt hg dbg hlb hprim hkl]
    show Except.ok _ = _
    dsimp only
    rw [mapIdx_range]
  · intro i hi
    exact ⟨Wire.ok_list _ (by rw [shiftRow_length, hal]; exact h2a), by rw [Wire.enc_list_length, shiftRow_length, hal]⟩
  · rw [shiftRow_addMask _ (by rw [hal, hol])]

/-- `d_fft` with the honest king and with one who adds `δ`: what the others see changes only by `δ`. -/
theorem PSS.dFft_shift {pp : PSS F} (hg : pp.Good) (dbg : Bool) (hn : n = 4 * pp.l) {a b : Nat}
    (ha : a < 64) (hlb : pp.l = 2 ^ b) {dom : Domain F} (hsize : dom.size = 2 ^ (a + b))
    (hprim : IsPrimitiveRoot dom.groupGen (2 ^ (a + b))) (x : Nat → F) (rearrange : Bool)
    {sh : Nat → List F} (hsh : pp.SharedVec (4 * pp.l - 1) (2 ^ a) sh (packed true a b x)) (t : VecTape F) (sid : Sid) (rng : Nat → Nat → F)
    (δ : Nat → Nat → F) :
    ∃ (outs ans : Nat → List F),
      RunsV All (only sid)
        (fun i : Fin n => pp.dFft dbg n i (sh i) (pp.fftDealt a b rearrange 1 dom.groupGen t i) rearrange dom sid rng) (fun i => outs i)
        (fun i => if i.val = 0 then gathered n fun p => addMask (fft1Val a b dom.groupGen (sh p))
          (pp.fftDealt a b rearrange 1 dom.groupGen t p).inMask else [(0, Wire.enc (ans i))]) ∧
      RunsV All (only sid)
        (fun i : Fin n => if i.val = 0 then dFftShift pp dbg n i δ (sh i) (pp.fftDealt a b rearrange 1 dom.groupGen t i) rearrange dom sid rng else
          pp.dFft dbg n i (sh i) (pp.fftDealt a b rearrange 1 dom.groupGen t i) rearrange dom sid rng) (fun i => shiftRow (δ i) (outs i))
        (fun i => if i.val = 0 then gathered n fun p => addMask (fft1Val a b dom.groupGen (sh p))
          (pp.fftDealt a b rearrange 1 dom.groupGen t p).inMask else [(0, Wire.enc (shiftRow (δ i) (ans i)))]) ∧
      pp.SharedVec (2 * pp.l) (2 ^ a) outs (packed rearrange a b fun k => ∑ u ∈ range (2 ^ (a + b)), (dom.groupGen ^ k) ^ u * x u) := by
  have hl := hg.lpos
  obtain ⟨px, e1, hpx⟩ := PSS.fft1_shared hlb hprim x hsh
  have hp1 : ∀ p < 4 * pp.l, px p = fft1Val a b dom.groupGen (sh p) := fun p hp =>
    Except.ok.inj ((e1 p hp).symm.trans (PSS.fft1InPlace_val hlb hprim (sh p) (hsh.1 p hp)))
  obtain ⟨r, h⟩ := PSS.fft2_view hg dbg hn ha hlb hprim (bp (fun i => x (bitRev (a + b) i))) (fun _ _ _ _ => rfl) (by omega) le_rfl hpx 1
    rearrange t sid rng
  have hs : ∀ i : Fin n, debugAssert dbg ((sh i).length * pp.l == dom.size) = .ok () := fun i =>
    debugAssert_of (by rw [hsh.1 i (by omega), hlb, hsize, pow_add]; simp)
  have r' := PSS.fft2_shift hg dbg hn ha hlb hprim (bp (fun i => x (bitRev (a + b) i))) (by omega) le_rfl hpx 1
    rearrange t sid rng δ (ps := fun i : Fin n => if i.val = 0 then
        dFftShift pp dbg n i δ (sh i) (pp.fftDealt a b rearrange 1 dom.groupGen t i) rearrange dom sid rng else
        pp.dFft dbg n i (sh i) (pp.fftDealt a b rearrange 1 dom.groupGen t i) rearrange dom sid rng) fun i => by
      have hi : i.val < 4 * pp.l := by omega
      by_cases h0 : i.val = 0
      · refine ⟨_, fun _ => rfl, ?_⟩
        simp only [h0, if_true]
        rw [← h0]
        unfold dFftShift
        rw [hs i, e1 i hi]
        rfl
      · refine ⟨fun rs => pp.fft2King dbg (addMask (px i) (pp.fftDealt a b rearrange 1 dom.groupGen t i).inMask).length (px i).length 1
          dom.groupGen rearrange rs.shares rs.parties rng, fun h => absurd h h0, ?_⟩
        simp only [h0, if_false]
        unfold PSS.dFft
        rw [hs i, e1 i hi]
        rfl
  refine ⟨fun p => addMask (pp.freshVec (2 ^ a) (pp.finishSec a b (kingVec a b dom.groupGen (bp fun i => x (bitRev (a + b) i)) t.vals) 1
    dom.groupGen rearrange id) rng p) (pp.fftDealt a b rearrange 1 dom.groupGen t p).outMask,
    pp.freshVec (2 ^ a) (pp.finishSec a b (kingVec a b dom.groupGen (bp fun i => x (bitRev (a + b) i)) t.vals) 1
    dom.groupGen rearrange id) rng, r.congr (fun i => ?_) (fun _ => rfl) (fun i => ?_), r'.congr (fun i => rfl) (fun _ => rfl) (fun i => ?_), ?_⟩
  · have hi : i.val < 4 * pp.l := by omega
    unfold PSS.dFft
    rw [hs i, e1 i hi]
    rfl
  · split
    · exact gathered_congr fun p hp => by rw [hp1 p (by omega)]
    · rfl
  · split
    · exact gathered_congr fun p hp => by rw [hp1 p (by omega)]
    · rfl
  · refine SharedVec.congr h (fun _ _ => rfl) fun c hc => ?_
    congr 1
    funext k
    rw [bp_top, one_pow, one_mul]

variable [FftField F] in
/-- `deg_red` of arbitrary shares, with dealt masks and a king of a release build. -/
theorem PSS.degRed_open {pp : PSS F} (hg : pp.Good) (dbg : Bool) (hn : n = 4 * pp.l) {N : Nat} (hN : 0 < N)
    (hN64 : N < 2 ^ 64) {sh sec : Nat → List F}
    (hsh : pp.SharedVec (4 * pp.l) N sh sec) (t : VecTape F) (sid : Sid) (rng : Nat → Nat → F) :
    ∃ outs ans : Nat → List F,
      RunsV All (only sid) (fun i : Fin n => if i.val = 0 then pp.degRed false n i (sh i) (pp.degDealt N t i) sid rng else
          pp.degRed dbg n i (sh i) (pp.degDealt N t i) sid rng)
        (fun i => outs i) (fun i => if i.val = 0 then gathered n fun p => addMask (sh p) (pp.degDealt N t p).inMask else [(0, Wire.enc (ans i))]) ∧
      pp.SharedVec (2 * pp.l) N outs sec := by
  have hl := hg.lpos
  have hn0 : 0 < n := by omega
  have hin : pp.SharedVec (2 * pp.l) N (fun p => (pp.degDealt N t p).inMask) (chunks pp.l t.vals) :=
    PSS.freshVec_shared hg (fun c _ => chunks_length _ _ _) _
  have hout : pp.SharedVec (2 * pp.l) N (fun p => (pp.degDealt N t p).outMask) (chunks pp.l fun i => -t.vals i) :=
    PSS.freshVec_shared hg (fun c _ => chunks_length _ _ _) _
  have hsum := SharedVec.add hsh (SharedVec.mono (by omega) hin)
  obtain ⟨out, hK, hol, hos⟩ := PSS.degRedKing_release hg hN hsum rng
  have he : ∀ (b : Bool) (i : Fin n), pp.degRed b n i (sh i) (pp.degDealt N t i) sid rng =
      (clientSendOrKingReceiveSer n i (addMask (sh i) (pp.degDealt N t i).inMask) sid pp.t).bind fun r =>
        (Proc.done (kingDo (fun rs : ReceivedShares (List F) => pp.degRedKing b rs.shares rs.parties rng) r)).bind fun a =>
          (clientReceiveOrKingSendSer n i a sid).bind fun y => .done (.ok (addMask y (pp.degDealt N t i).outMask)) := by
    intro b i
    have hi : i.val < 4 * pp.l := by omega
    unfold PSS.degRed
    rw [debugAssert_of (by rw [hsh.1 i hi, hin.1 i hi]; simp), debugAssert_of (by rw [hsh.1 i hi, hout.1 i hi]; simp)]
    rfl
  refine ⟨fun p => addMask (out.getD p []) (pp.degDealt N t p).outMask, fun p => out.getD p [], ?_, ?_⟩
  · refine RunsV.congr (runsV_round hn0 sid pp.t (fun i => addMask (sh i) (pp.degDealt N t i).inMask)
      (fun i hi => Wire.ok_list _ (by rw [hsum.1 i (by omega)]; exact hN64))
      (fun i rs => pp.degRedKing (if i.val = 0 then false else dbg) rs.shares rs.parties rng)
      (fun i => out.getD i []) (8 + N * FixedWire.width F) ?_ ?_
      (fun i y => .done (.ok (addMask y (pp.degDealt N t i).outMask))) (RunsV.done _)) (fun i => ?_) (fun i => rfl) (fun i => by simp)
    · rw [if_pos rfl]
      simp only
      rw [hn, hK, map_getD_range _ _ hol]
    · intro i hi
      have := hos.1 i (by omega)
      exact ⟨Wire.ok_list _ (by rw [this]; exact hN64), by rw [Wire.enc_list_length, this]⟩
    · by_cases h0 : i.val = 0
      · simp only [h0, if_true]
        rw [← h0, he]
      · simp only [h0, if_false, he]
  · refine SharedVec.congr (SharedVec.add hos hout) (fun _ _ => rfl) fun c hc => ?_
    have : (chunks pp.l fun i => -t.vals i) c = (chunks pp.l t.vals c).map fun z => -z := by simp [chunks]
    rw [this]
    exact zipWith_add_neg _ _ (by rw [(hsh.2 c hc).2.1, chunks_length])

section top
omit [FixedWire F]

/-- The sum of the `m`-th powers of the share points. -/
theorem PSS.sum_points {pp : PSS F} (hg : pp.Good) (m : Nat) :
    ∑ p ∈ range (4 * pp.l), (pp.share.groupGen ^ p) ^ m = if 4 * pp.l ∣ m then ((4 * pp.l : Nat) : F) else 0 := by
  have hprim : IsPrimitiveRoot pp.share.groupGen (4 * pp.l) := by rw [← hg.share_size]; exact hg.share_wf.prim
  simp only [← pow_mul, mul_comm _ m]
  simp only [pow_mul]
  split
  · rename_i h
    rw [(hprim.pow_eq_one_iff_dvd m).2 h]
    simp
  · rename_i h
    have h1 : pp.share.groupGen ^ m ≠ 1 := fun e => h ((hprim.pow_eq_one_iff_dvd m).1 e)
    have h2 := mul_neg_geom_sum (pp.share.groupGen ^ m) (4 * pp.l)
    rw [← pow_mul, mul_comm m, pow_mul, hprim.pow_eq_one, one_pow, sub_self, mul_eq_zero, sub_eq_zero] at h2
    exact h2.resolve_left fun e => h1 e.symm

theorem PSS.sizeInv_mul {pp : PSS F} (hg : pp.Good) : pp.share.sizeInv * ((4 * pp.l : Nat) : F) = 1 := by
  rw [hg.share_wf.sinv, ← hg.share_size, inv_mul_cancel₀ hg.share_wf.szne]

theorem eval_range {B : F[X]} {d : Nat} (hB : B.degree < d) (x : F) : B.eval x = ∑ i ∈ range d, B.coeff i * x ^ i := by
  rw [← pval_of_poly hB, pval]
  exact sum_congr rfl fun i _ => by rw [smul_eq_mul, mul_comm]

/-- The checksum of the product with the probe is the value in the secret point. -/
theorem PSS.checksum_probe {pp : PSS F} (hg : pp.Good) (k : Nat) {B : F[X]} (hB : B.degree < (2 * pp.l : Nat)) :
    pp.share.sizeInv * pp.checksum (fun p => probe pp k p * B.eval (pp.share.groupGen ^ p)) = B.eval (secretPoint pp k) := by
  have hl := hg.lpos
  have h1 : pp.checksum (fun p => probe pp k p * B.eval (pp.share.groupGen ^ p)) =
      ∑ j ∈ range (2 * pp.l), ∑ i ∈ range (2 * pp.l), secretPoint pp k ^ j * B.coeff i *
        ∑ p ∈ range (4 * pp.l), (pp.share.groupGen ^ p) ^ (4 * pp.l - j + i) := by
    unfold PSS.checksum probe
    simp only [mul_sum (range (4 * pp.l))]
    rw [sum_congr rfl fun j _ => sum_comm, sum_comm]
    refine sum_congr rfl fun p _ => ?_
    rw [eval_range hB, sum_mul_sum, smul_eq_mul, mul_sum]
    refine sum_congr rfl fun j hj => ?_
    rw [mul_sum]
    refine sum_congr rfl fun i hi => ?_
    have hj := mem_range.1 hj
    rw [show 4 * pp.l - j + i = 1 + (4 * pp.l - 1 - j) + i by omega, pow_add, pow_add, pow_one]
    ring
  rw [h1, mul_sum, eval_range hB]
  refine sum_congr rfl fun j hj => ?_
  have hj := mem_range.1 hj
  rw [sum_eq_single j]
  · rw [PSS.sum_points hg, if_pos (by rw [Nat.sub_add_cancel (by omega)]), mul_left_comm, PSS.sizeInv_mul hg]
    ring
  · intro i hi hij
    have hi := mem_range.1 hi
    rw [PSS.sum_points hg, if_neg, mul_zero]
    rintro ⟨q, hq⟩
    rcases Nat.lt_or_ge i j with h | h
    · have h0 : 4 * pp.l * 0 < 4 * pp.l * q := by omega
      have h2 : 4 * pp.l * q < 4 * pp.l * 1 := by omega
      have h0 := Nat.lt_of_mul_lt_mul_left h0
      have h2 := Nat.lt_of_mul_lt_mul_left h2
      omega
    · have h0 : 4 * pp.l * 1 < 4 * pp.l * q := by omega
      have h2 : 4 * pp.l * q < 4 * pp.l * 2 := by omega
      have h0 := Nat.lt_of_mul_lt_mul_left h0
      have h2 := Nat.lt_of_mul_lt_mul_left h2
      omega
  · intro h
    exact absurd (mem_range.2 hj) h

/-- The checksum of the product with the quiet probe is the top coefficient. -/
theorem PSS.checksum_quiet {pp : PSS F} (hg : pp.Good) {B : F[X]} (hB : B.degree < (2 * pp.l : Nat)) :
    pp.share.sizeInv * pp.checksum (fun p => quietProbe pp p * B.eval (pp.share.groupGen ^ p)) = B.coeff (2 * pp.l - 1) := by
  have hl := hg.lpos
  have h1 : pp.checksum (fun p => quietProbe pp p * B.eval (pp.share.groupGen ^ p)) =
      ∑ i ∈ range (2 * pp.l), B.coeff i * (∑ p ∈ range (4 * pp.l), (pp.share.groupGen ^ p) ^ (2 * pp.l + 1 + i) -
        pp.secret.offset ^ (2 * pp.l) * ∑ p ∈ range (4 * pp.l), (pp.share.groupGen ^ p) ^ (1 + i)) := by
    unfold PSS.checksum quietProbe
    simp only [eval_range hB, mul_sum, smul_eq_mul, mul_sub, ← sum_sub_distrib]
    rw [sum_comm]
    refine sum_congr rfl fun i hi => sum_congr rfl fun p hp => ?_
    rw [pow_add, pow_add, pow_add, pow_one]
    ring
  rw [h1, mul_sum, sum_eq_single (2 * pp.l - 1)]
  · rw [PSS.sum_points hg, PSS.sum_points hg, if_pos (by rw [show 2 * pp.l + 1 + (2 * pp.l - 1) = 4 * pp.l by omega]), if_neg, mul_zero, sub_zero,
      mul_left_comm, PSS.sizeInv_mul hg, mul_one]
    intro h
    have := Nat.le_of_dvd (by omega) h
    omega
  · intro i hi hij
    have hi := mem_range.1 hi
    have d1 : ¬ 4 * pp.l ∣ 2 * pp.l + 1 + i := fun h => by
      have := Nat.le_of_dvd (by omega) h
      omega
    have d2 : ¬ 4 * pp.l ∣ 1 + i := fun h => by
      have := Nat.le_of_dvd (by omega) h
      omega
    rw [PSS.sum_points hg, PSS.sum_points hg, if_neg d1, if_neg d2, mul_zero, sub_zero, mul_zero, mul_zero]
  · intro h
    exact absurd (mem_range.2 (by omega)) h

/-- The quiet probe is zero in the secret points. -/
theorem quiet_zero {pp : PSS F} (hg : pp.Good) (k : Nat) : secretPoint pp k ^ (2 * pp.l) - pp.secret.offset ^ (2 * pp.l) = 0 := by
  have hprim : IsPrimitiveRoot pp.share.groupGen (4 * pp.l) := by rw [← hg.share_size]; exact hg.share_wf.prim
  unfold secretPoint
  rw [mul_pow, ← pow_mul, ← pow_mul, show 2 * (k * (2 * pp.l)) = 4 * pp.l * k by ring, pow_mul pp.share.groupGen, hprim.pow_eq_one, one_pow, mul_one, sub_self]

end top

end ZkSaas
