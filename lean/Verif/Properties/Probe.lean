import Verif.Properties.FactorH
import Verif.Lemmas.Probe

/-!
# C79: a dishonest king reads inputs from the checksum of the last step of `circom_h`
-/

set_option linter.unusedSectionVars false

namespace ZkSaas.Properties

open Finset Polynomial Spec

variable {F : Type} [Field F] [FftField F] [DecidableEq F] [FixedWire F]

/-- What goes into the last step of `circom_h` when a king has added `da` and `db`. -/
def probedEval (da db : Nat → Nat → F) (ea eb ec : Nat → List F) (p : Nat) : List F :=
  List.zipWith (fun ab c => ab.1 * ab.2 - c) (List.zip (shiftRow (da p) (ea p)) (shiftRow (db p) (eb p))) (ec p)

theorem circomHShift_stages {pp : PSS F} (dbg : Bool) {a b : Nat} {dom dom2 : Domain F} (hdom : Domain.new (2 ^ (a + b)) = some dom)
    (hdom2 : Domain.new (2 ^ (a + b + 1)) = some dom2) {q : PackedQAPShare F} (hq : q.domain = dom) (da db : Nat → Nat → F)
    (masks : Nat → FftMask F) (dm : DegRedMask F) (rng : Nat → Nat → Nat → F) (i : Nat) :
    circomHShift pp dbg (4 * 2 ^ b) i da db q masks dm rng =
      tryJoin3 (pp.dIfft dbg (4 * 2 ^ b) i q.a (masks 0) true dom dom2.groupGen .zero (rng 0))
        (pp.dIfft dbg (4 * 2 ^ b) i q.b (masks 1) true dom dom2.groupGen .one (rng 1))
        (pp.dIfft dbg (4 * 2 ^ b) i q.c (masks 2) true dom dom2.groupGen .two (rng 2)) fun aCoeff bCoeff cCoeff =>
      tryJoin3 (dFftShift pp dbg (4 * 2 ^ b) i da aCoeff (masks 3) false dom .zero (rng 3))
        (dFftShift pp dbg (4 * 2 ^ b) i db bCoeff (masks 4) false dom .one (rng 4))
        (pp.dFft dbg (4 * 2 ^ b) i cCoeff (masks 5) false dom .two (rng 5)) fun x y z =>
      pp.degRed false (4 * 2 ^ b) i (List.zipWith (fun ab c => ab.1 * ab.2 - c) (List.zip x y) z) dm .zero (rng 6) := by
  obtain ⟨-, -, -, hsize⟩ := Domain.new_pow2 hdom
  obtain ⟨-, hoff2, -, -⟩ := Domain.new_pow2 hdom2
  have hroot : dom2.element 1 = dom2.groupGen := by rw [Domain.element, hoff2, one_mul, pow_one]
  rw [circomHShift, hq, hsize, ← pow_succ', hdom2, ← hroot]
  rfl

/-- Both transforms of one vector, with a king who adds `δ` to the result of the second. -/
theorem transform_shift {dbg₀ : Bool} {b : Nat} {pp : PSS F} (hpp : PSS.new dbg₀ (2 ^ b) = .ok pp) (dbg : Bool) {a : Nat} (ha : a < 64)
    {dom : Domain F} (hdom : Domain.new (2 ^ (a + b)) = some dom) (g : F) (x : Nat → F) (sh : Nat → List F) (sid : Sid) (r1 r2 : Nat → Nat → F)
    (s t : VecTape F) (δ : Nat → Nat → F) (hsh : pp.SharedVec (2 * pp.l) (2 ^ a) sh (packed true a b x)) :
    ∃ (o e : Nat → List F) (v w w' : Fin (4 * 2 ^ b) → Transcript),
        RunsV All (only sid) (fun i : Fin (4 * 2 ^ b) => pp.dIfft dbg (4 * 2 ^ b) i (sh i) (pp.fftDealt a b true g dom.groupGenInv s i) true dom g
          sid r1) (fun i => o i) v ∧
        RunsV All (only sid) (fun i : Fin (4 * 2 ^ b) => pp.dFft dbg (4 * 2 ^ b) i (o i) (pp.fftDealt a b false 1 dom.groupGen t i) false dom sid r2)
          (fun i => e i) w ∧
        RunsV All (only sid) (fun i : Fin (4 * 2 ^ b) => if i.val = 0 then
            dFftShift pp dbg (4 * 2 ^ b) i δ (o i) (pp.fftDealt a b false 1 dom.groupGen t i) false dom sid r2 else
            pp.dFft dbg (4 * 2 ^ b) i (o i) (pp.fftDealt a b false 1 dom.groupGen t i) false dom sid r2)
          (fun i => shiftRow (δ i) (e i)) w' ∧
        pp.SharedVec (2 * pp.l) (2 ^ a) e (packed false a b (cosetVals dom (2 ^ (a + b)) g x)) ∧
        ∀ i, i.val = 0 → (v i).length = 4 * 2 ^ b ∧ (w i).length = 4 * 2 ^ b ∧ (w' i).length = 4 * 2 ^ b := by
  have hle := l_eq hpp
  have hg := PSS.good_of_new hpp
  have hl := hg.lpos
  obtain ⟨hwf, -, -, hsize⟩ := Domain.new_pow2 hdom
  have hprim : IsPrimitiveRoot dom.groupGen (2 ^ (a + b)) := by rw [← hsize]; exact hwf.prim
  have hprim' : IsPrimitiveRoot dom.groupGenInv (2 ^ (a + b)) := by rw [hwf.ginv]; exact hprim.inv
  obtain ⟨o, ans, h1, h2⟩ := PSS.dIfft_view (n := 4 * 2 ^ b) hg dbg (by rw [hle]) ha hle hsize hprim' x g true
    (SharedVec.mono (by omega) hsh) s sid r1
  obtain ⟨e, ans', h3, h4, h5⟩ := PSS.dFft_shift (n := 4 * 2 ^ b) hg dbg (by rw [hle]) ha hle hsize hprim _ false
    (SharedVec.mono (by omega) h2) t sid r2 δ
  refine ⟨o, e, _, _, _, h1, h3, h4, h5, fun i hi => ?_⟩
  rw [if_pos hi, if_pos hi, if_pos hi, gathered_length, gathered_length]
  exact ⟨rfl, rfl, rfl⟩

set_option maxHeartbeats 800000 in
/-- A run of `circom_h` with a king who adds `da` and `db` to the results of two transforms. -/
theorem circomH_probed {dbg₀ : Bool} {b : Nat} {pp : PSS F} (hpp : PSS.new dbg₀ (2 ^ b) = .ok pp) (dbg : Bool) {a : Nat} (ha : a < 64)
    {dom dom2 : Domain F} (hdom : Domain.new (2 ^ (a + b)) = some dom) (hdom2 : Domain.new (2 ^ (a + b + 1)) = some dom2)
    {xa xb xc : Nat → F} {q : Nat → PackedQAPShare F} (hq : SharesProgram pp a b dom q xa xb xc) (rng : Nat → Nat → Nat → F)
    (t : Nat → VecTape F) (td : VecTape F) {masks : Nat → Nat → FftMask F} {dm : Nat → DegRedMask F}
    (hm : ∀ p < 4 * 2 ^ b, ∀ k < 6, masks p k = stageMasks pp a b dom2.groupGen false dom t p k)
    (hd : ∀ p < 4 * 2 ^ b, dm p = pp.degDealt (2 ^ a) td p) (da db : Nat → Nat → F) :
    ∃ ea eb ec : Nat → List F,
      TransformsTo pp dbg b dom dom2.groupGen false .zero (fun p => (q p).a) (fun p => masks p 0) (fun p => masks p 3) (rng 0) (rng 3) ea ∧
      TransformsTo pp dbg b dom dom2.groupGen false .one (fun p => (q p).b) (fun p => masks p 1) (fun p => masks p 4) (rng 1) (rng 4) eb ∧
      pp.SharedVec (2 * pp.l) (2 ^ a) ea (packed false a b (cosetVals dom (2 ^ (a + b)) dom2.groupGen xa)) ∧
      pp.SharedVec (2 * pp.l) (2 ^ a) eb (packed false a b (cosetVals dom (2 ^ (a + b)) dom2.groupGen xb)) ∧
      pp.SharedVec (2 * pp.l) (2 ^ a) ec (packed false a b (cosetVals dom (2 ^ (a + b)) dom2.groupGen xc)) ∧
      ∀ sec, pp.SharedVec (4 * pp.l) (2 ^ a) (probedEval da db ea eb ec) sec → ∃ (outs : Nat → List F) (views : Fin (4 * 2 ^ b) → Transcript),
        RunsV All (fun _ => True) (fun i : Fin (4 * 2 ^ b) => if i.val = 0 then
            circomHShift pp dbg (4 * 2 ^ b) i da db (q i) (masks i) (dm i) rng else pp.circomH dbg (4 * 2 ^ b) i (q i) (masks i) (dm i) rng)
          (fun i => outs i) views ∧
        (∀ i, i.val = 0 → (views i).drop (6 * (4 * 2 ^ b)) = gathered (4 * 2 ^ b) fun p => addMask (probedEval da db ea eb ec p)
          (pp.degDealt (2 ^ a) td p).inMask) ∧
        pp.SharedVec (2 * pp.l) (2 ^ a) outs sec := by
  have hle := l_eq hpp
  have hg := PSS.good_of_new hpp
  have hl := hg.lpos
  have hN64 : 2 ^ a < 2 ^ 64 := Nat.pow_lt_pow_right (by omega) ha
  have hdomain := hq.1
  obtain ⟨-, hqa, hqb, hqc⟩ := hq
  have hpos : 0 < 4 * 2 ^ b := by positivity
  let g := dom2.groupGen
  obtain ⟨oa, ea, va, wa, wa', ra, sa, sa', ha1, la⟩ := transform_shift hpp dbg ha hdom dom2.groupGen xa _ .zero (rng 0) (rng 3) (t 0) (t 3) da hqa
  obtain ⟨ob, eb, vb, wb, wb', rb, sb, sb', hb1, lb⟩ := transform_shift hpp dbg ha hdom dom2.groupGen xb _ .one (rng 1) (rng 4) (t 1) (t 4) db hqb
  obtain ⟨oc, ec, vc, wc, wc', rc, sc, sc', hc1, lc⟩ := transform_shift hpp dbg ha hdom dom2.groupGen xc _ .two (rng 2) (rng 5) (t 2) (t 5) (fun _ _ => 0) hqc
  have mk : ∀ {sid : Sid} {sh o e : Nat → List F} {m m' : Nat → FftMask F} {r1 r2 : Nat → Nat → F} {v w : Fin (4 * 2 ^ b) → Transcript},
      RunsV All (only sid) (fun i : Fin (4 * 2 ^ b) => pp.dIfft dbg (4 * 2 ^ b) i (sh i) (m i) true dom g sid r1) (fun i => o i) v →
      RunsV All (only sid) (fun i : Fin (4 * 2 ^ b) => pp.dFft dbg (4 * 2 ^ b) i (o i) (m' i) false dom sid r2) (fun i => e i) w →
      TransformsTo pp dbg b dom g false sid sh m m' r1 r2 e := fun h1 h2 =>
    ⟨_, AlwaysYields.of_recorded (h1.alwaysYields fun i => PSS.dIfft_wf _ hpos _ _ _ _ _ _ _ _),
      AlwaysYields.of_recorded (h2.alwaysYields fun i => PSS.dFft_wf _ hpos _ _ _ _ _ _ _)⟩
  refine ⟨ea, eb, ec, (mk ra sa).congr_masks (fun p hp => (hm p hp 0 (by omega)).symm) fun p hp => (hm p hp 3 (by omega)).symm,
    (mk rb sb).congr_masks (fun p hp => (hm p hp 1 (by omega)).symm) fun p hp => (hm p hp 4 (by omega)).symm, ha1, hb1, hc1, fun sec hsec => ?_⟩
  obtain ⟨outs, ans, r, hout⟩ := PSS.degRed_open (n := 4 * 2 ^ b) hg dbg (by rw [hle]) (by positivity) hN64 hsec td .zero (rng 6)
  have h2 := RunsV.tryJoin3 (S := fun _ => True) sa' sb' sc (fun _ _ => trivial) (fun _ _ => trivial) (fun _ _ => trivial)
    (k := fun i x y z => if i.val = 0 then
        pp.degRed false (4 * 2 ^ b) i (List.zipWith (fun ab c => ab.1 * ab.2 - c) (List.zip x y) z) (pp.degDealt (2 ^ a) td i) .zero (rng 6) else
        pp.degRed dbg (4 * 2 ^ b) i (List.zipWith (fun ab c => ab.1 * ab.2 - c) (List.zip x y) z) (pp.degDealt (2 ^ a) td i) .zero (rng 6))
    (r.mono fun _ _ => trivial)
  have h1 := RunsV.tryJoin3 (S := fun _ => True) ra rb rc (fun _ _ => trivial) (fun _ _ => trivial) (fun _ _ => trivial)
    (k := fun i x y z => tryJoin3 (if i.val = 0 then dFftShift pp dbg (4 * 2 ^ b) i da x (pp.fftDealt a b false 1 dom.groupGen (t 3) i) false dom .zero (rng 3)
          else pp.dFft dbg (4 * 2 ^ b) i x (pp.fftDealt a b false 1 dom.groupGen (t 3) i) false dom .zero (rng 3))
        (if i.val = 0 then dFftShift pp dbg (4 * 2 ^ b) i db y (pp.fftDealt a b false 1 dom.groupGen (t 4) i) false dom .one (rng 4)
          else pp.dFft dbg (4 * 2 ^ b) i y (pp.fftDealt a b false 1 dom.groupGen (t 4) i) false dom .one (rng 4))
        (pp.dFft dbg (4 * 2 ^ b) i z (pp.fftDealt a b false 1 dom.groupGen (t 5) i) false dom .two (rng 5))
        fun x y z => if i.val = 0 then
          pp.degRed false (4 * 2 ^ b) i (List.zipWith (fun ab c => ab.1 * ab.2 - c) (List.zip x y) z) (pp.degDealt (2 ^ a) td i) .zero (rng 6) else
          pp.degRed dbg (4 * 2 ^ b) i (List.zipWith (fun ab c => ab.1 * ab.2 - c) (List.zip x y) z) (pp.degDealt (2 ^ a) td i) .zero (rng 6)) h2
  refine ⟨outs, _, h1.congr (fun i => ?_) (fun _ => rfl) fun _ => rfl, fun i hi => ?_, hout⟩
  · have m0 := hm i i.2 0 (by omega)
    have m1 := hm i i.2 1 (by omega)
    have m2 := hm i i.2 2 (by omega)
    have m3 := hm i i.2 3 (by omega)
    have m4 := hm i i.2 4 (by omega)
    have m5 := hm i i.2 5 (by omega)
    by_cases h0 : i.val = 0
    · rw [if_pos h0, circomHShift_stages dbg hdom hdom2 (hdomain i i.2), m0, m1, m2, m3, m4, m5, hd i i.2]
      simp only [h0, if_true]
      rfl
    · rw [if_neg h0, circomH_stages dbg hdom hdom2 (hdomain i i.2), stages, m0, m1, m2, m3, m4, m5, hd i i.2]
      simp only [h0, if_false]
      rfl
  · obtain ⟨a1, -, a2⟩ := la i hi
    obtain ⟨b1, -, b2⟩ := lb i hi
    obtain ⟨c1, c2, -⟩ := lc i hi
    have e : ∀ r : Transcript, va i ++ (vb i ++ (vc i ++ (wa' i ++ (wb' i ++ (wc i ++ r))))) =
        (va i ++ (vb i ++ (vc i ++ (wa' i ++ (wb' i ++ wc i))))) ++ r := by simp only [List.append_assoc, implies_true]
    rw [e, List.drop_left' (by simp only [List.length_append]; omega), if_pos hi]

theorem dFftShift_wf {pp : PSS F} (dbg : Bool) {n : Nat} (hn : 0 < n) (me : Nat) (d : Nat → Nat → F) (px : List F) (mask : FftMask F)
    (rearrange : Bool) (dom : Domain F) (sid : Sid) (rng : Nat → Nat → F) :
    (dFftShift pp dbg n me d px mask rearrange dom sid rng).WF (only sid) :=
  (Proc.WF.done _ _).bind fun _ => (Proc.WF.done _ _).bind fun _ => round_wf hn sid _ _ _ _ _ fun _ => .done _ _

theorem circomHShift_wf {pp : PSS F} (dbg : Bool) {n : Nat} (hn : 0 < n) (me : Nat) (da db : Nat → Nat → F) (q : PackedQAPShare F)
    (mask : Nat → FftMask F) (dmask : DegRedMask F) (rng : Nat → Nat → Nat → F) :
    (circomHShift pp dbg n me da db q mask dmask rng).WF fun _ => True :=
  (Proc.WF.done _ _).bind fun _ => .tryJoin3 (PSS.dIfft_wf _ hn _ _ _ _ _ _ _ _) (PSS.dIfft_wf _ hn _ _ _ _ _ _ _ _)
    (PSS.dIfft_wf _ hn _ _ _ _ _ _ _ _) fun _ _ _ => .tryJoin3 (dFftShift_wf _ hn _ _ _ _ _ _ _ _) (dFftShift_wf _ hn _ _ _ _ _ _ _ _)
    (PSS.dFft_wf _ hn _ _ _ _ _ _ _) fun _ _ _ => (PSS.degRed_wf _ hn _ _ _ _ _).mono fun _ _ => trivial

/-! ### What the king reads -/

/-- Coefficient `4l - 1` of the values sent for position `c`: the one that `unpack2` compares with zero in a debug build. -/
def readTop (pp : PSS F) (tr : Transcript) (c : Nat) : F :=
  pp.share.sizeInv * ∑ p ∈ range (4 * pp.l), pp.share.groupGen ^ p * (sentColumn tr c : List F).getD p 0

theorem PSS.checksum_add {pp : PSS F} (x y : Nat → F) : pp.checksum (fun p => x p + y p) = pp.checksum x + pp.checksum y := by
  unfold PSS.checksum
  rw [← sum_add_distrib]
  exact sum_congr rfl fun p _ => smul_add _ _ _

theorem probedEval_length {pp : PSS F} {N : Nat} {ea eb ec sa sb sc : Nat → List F} (hA : pp.SharedVec (2 * pp.l) N ea sa)
    (hB : pp.SharedVec (2 * pp.l) N eb sb) (hC : pp.SharedVec (2 * pp.l) N ec sc) (da db : Nat → Nat → F) {p : Nat} (hp : p < 4 * pp.l) :
    (probedEval da db ea eb ec p).length = N := by
  simp [probedEval, shiftRow_length, hA.1 p hp, hB.1 p hp, hC.1 p hp]

theorem probedEval_getD {pp : PSS F} {N : Nat} {ea eb ec sa sb sc : Nat → List F} (hA : pp.SharedVec (2 * pp.l) N ea sa)
    (hB : pp.SharedVec (2 * pp.l) N eb sb) (hC : pp.SharedVec (2 * pp.l) N ec sc) (da db : Nat → Nat → F) {p c : Nat} (hp : p < 4 * pp.l) (hc : c < N) :
    (probedEval da db ea eb ec p).getD c 0 = ((ea p).getD c 0 + da p c) * ((eb p).getD c 0 + db p c) - (ec p).getD c 0 := by
  rw [probedEval, getD_mulSub hc (by rw [shiftRow_length]; exact hA.1 p hp) (by rw [shiftRow_length]; exact hB.1 p hp) (hC.1 p hp),
    shiftRow_getD _ (by rw [hA.1 p hp]; exact hc), shiftRow_getD _ (by rw [hB.1 p hp]; exact hc)]

/-- Honest values and masks do not contribute to what the king reads. -/
theorem readTop_probed {pp : PSS F} (hg : pp.Good) {N : Nat} (hN64 : N < 2 ^ 64) {ea eb ec im sa sb sc sm : Nat → List F}
    (hA : pp.SharedVec (2 * pp.l) N ea sa) (hB : pp.SharedVec (2 * pp.l) N eb sb) (hC : pp.SharedVec (2 * pp.l) N ec sc)
    (hM : pp.SharedVec (2 * pp.l) N im sm) (da db : Nat → Nat → F) {c : Nat} (hc : c < N) :
    readTop pp (gathered (4 * pp.l) fun p => addMask (probedEval da db ea eb ec p) (im p)) c =
      pp.share.sizeInv * pp.checksum fun p => da p c * (eb p).getD c 0 + (ea p).getD c 0 * db p c + da p c * db p c := by
  have hl := hg.lpos
  obtain ⟨-, -, f, hf, f1, -⟩ := sharing_iff_poly.1 (hA.2 c hc)
  obtain ⟨-, -, h, hh, h1, -⟩ := sharing_iff_poly.1 (hB.2 c hc)
  obtain ⟨-, -, m, hm, m1, -⟩ := sharing_iff_poly.1 (hC.2 c hc)
  obtain ⟨-, -, r, hr, r1, -⟩ := sharing_iff_poly.1 (hM.2 c hc)
  have hzero : pp.checksum (fun p => (ea p).getD c 0 * (eb p).getD c 0 - (ec p).getD c 0 + (im p).getD c 0) = 0 := by
    refine PSS.shares_checksum (d := 4 * pp.l - 1) (sec := (List.range pp.l).map fun k => (f * h - m + r).eval (pp.secret.offset * (pp.share.groupGen ^ 2) ^ k))
      hg le_rfl (sharing_iff_poly.2 ⟨by simp, by simp, f * h - m + r, ?_, fun p hp => ?_, fun k hk => ?_⟩)
    · rw [degree_lt_iff_coeff_zero] at hm hr ⊢
      intro n hn
      have hfh : (f * h).coeff n = 0 := by
        rw [coeff_mul]
        refine sum_eq_zero fun x hx => ?_
        have hx := mem_antidiagonal.1 hx
        rw [degree_lt_iff_coeff_zero] at hf hh
        by_cases h1 : 2 * pp.l ≤ x.1
        · rw [hf _ h1, zero_mul]
        · rw [hh _ (by omega), mul_zero]
      rw [coeff_add, coeff_sub, hfh, hm n (by omega), hr n (by omega)]
      ring
    · have a1 := f1 p hp
      have a2 := h1 p hp
      have a3 := m1 p hp
      have a4 := r1 p hp
      rw [getD_map_range, if_pos hp] at a1 a2 a3 a4
      rw [getD_map_range, if_pos hp, a1, a2, a3, a4]
      simp
    · rw [getD_map_range, if_pos hk]
  unfold readTop
  congr 1
  have e : ∑ p ∈ range (4 * pp.l), pp.share.groupGen ^ p *
      (sentColumn (gathered (4 * pp.l) fun p => addMask (probedEval da db ea eb ec p) (im p)) c : List F).getD p 0 =
      pp.checksum fun p => ((ea p).getD c 0 * (eb p).getD c 0 - (ec p).getD c 0 + (im p).getD c 0) +
        (da p c * (eb p).getD c 0 + (ea p).getD c 0 * db p c + da p c * db p c) := by
    refine sum_congr rfl fun p hp => ?_
    have hp := mem_range.1 hp
    rw [sentColumn_gathered hN64 (fun p hp => by
        rw [addMask, List.length_zipWith, probedEval_length hA hB hC _ _ hp, hM.1 p hp, min_self]) hp, addMask,
      getD_zipWith _ _ _ _ 0 0 _ (by rw [probedEval_length hA hB hC _ _ hp]; exact hc) (by rw [hM.1 p hp]; exact hc), probedEval_getD hA hB hC _ _ hp hc,
      smul_eq_mul]
    ring
  rw [e, PSS.checksum_add, hzero, zero_add]

/-- Any values are shares of something, with `4l` coefficients. -/
theorem shared_any {pp : PSS F} (hg : pp.Good) {N : Nat} {sh : Nat → List F} (h : ∀ p < 4 * pp.l, (sh p).length = N) :
    ∃ sec, pp.SharedVec (4 * pp.l) N sh sec := by
  refine ⟨fun c => (List.range pp.l).map fun k => pval (fun j => (pp.share.ifft (Properties.column (4 * pp.l) sh c)).getD j 0) (4 * pp.l)
    (pp.secret.offset * (pp.share.groupGen ^ 2) ^ k), h, fun c hc => ⟨by simp, by simp,
    fun j => (pp.share.ifft (Properties.column (4 * pp.l) sh c)).getD j 0, fun p hp => ?_, fun k hk => ?_⟩⟩
  · rw [getD_map_range, if_pos hp, evalVec_any hg h p hp, PSS.evalVec, getD_map_range, if_pos hc]
  · rw [getD_map_range, if_pos hk]

/-- The values on the coset are those of the polynomial. -/
theorem cosetVals_poly {a b : Nat} {dom dom2 : Domain F} (hdom : Domain.new (2 ^ (a + b)) = some dom)
    (hdom2 : Domain.new (2 ^ (a + b + 1)) = some dom2) {x : Nat → F} {A : F[X]} (hA : Interpolates dom.groupGen (2 ^ (a + b)) x A) (k : Nat) :
    cosetVals dom (2 ^ (a + b)) dom2.groupGen x k = A.eval (dom2.groupGen ^ (2 * k + 1)) := by
  obtain ⟨hwf, hoff, -, hsize⟩ := Domain.new_pow2 hdom
  have h2 := Domain.new_double hdom hdom2
  obtain ⟨hdeg, hval⟩ := hA
  rw [← hsize] at hdeg hval ⊢
  have hi : dom.ifft ((List.range dom.size).map x) = (List.range dom.size).map fun u => A.coeff u := by
    refine Domain.ifft_of_evals hwf (by simp) (list_ext_getD 0 (by simp) fun i hi => ?_)
    rw [Domain.fft_length] at hi
    rw [Domain.fft_getD _ _ hi, getD_map_range, if_pos hi, ← hval i hi, eval_range hdeg]
    refine sum_congr rfl fun u hu => ?_
    rw [getD_map_range, if_pos (mem_range.1 hu), Domain.element, hoff, one_mul, smul_eq_mul, mul_comm]
  rw [cosetVals_eval hwf hoff, hi, eval_range hdeg]
  refine sum_congr rfl fun u hu => ?_
  rw [getD_map_range, if_pos (mem_range.1 hu), pow_succ, pow_mul, h2, mul_pow]
  ring

theorem circomH_family_wf {pp : PSS F} (dbg : Bool) {b : Nat} (da db : Nat → Nat → F) (q : Nat → PackedQAPShare F) (masks : Nat → Nat → FftMask F)
    (dm : Nat → DegRedMask F) (rng : Nat → Nat → Nat → F) (i : Fin (4 * 2 ^ b)) :
    (if i.val = 0 then circomHShift pp dbg (4 * 2 ^ b) i da db (q i) (masks i) (dm i) rng else
      pp.circomH dbg (4 * 2 ^ b) i (q i) (masks i) (dm i) rng).WF fun _ => True := by
  split
  · exact circomHShift_wf _ (by positivity) _ _ _ _ _ _ _
  · exact circomH_wf _ (by positivity) _ _ _ _ _

theorem chunk_getD {a b : Nat} (x : Nat → F) {c k : Nat} (hk : k < 2 ^ b) : (packed false a b x c).getD k 0 = x (c * 2 ^ b + k) := by
  rw [packed, getD_map_range, if_pos hk]
  simp [slot]

/-- What a king reads who adds a probe for slot `k c` of position `c`. -/
theorem reads {dbg₀ : Bool} {b : Nat} {pp : PSS F} (hpp : PSS.new dbg₀ (2 ^ b) = .ok pp) (dbg : Bool) {a : Nat} (ha : a < 64)
    {dom dom2 : Domain F} (hdom : Domain.new (2 ^ (a + b)) = some dom) (hdom2 : Domain.new (2 ^ (a + b + 1)) = some dom2)
    (which : Nat → Bool) (k : Nat → Nat) (hk : ∀ c < 2 ^ a, k c < 2 ^ b) {va vb vc : List F} {q : Nat → PackedQAPShare F}
    (hq : HoldsProgram pp a b dom q va vb vc) (rng : Nat → Nat → Nat → F) {t : Nat → VecTape F} {td : VecTape F}
    {masks : Nat → Nat → FftMask F} {dm : Nat → DegRedMask F} (hm : CircomSampled pp dbg dom2.groupGen dom t masks)
    (hd : DegRedMask.sample pp dbg (1 : F) (2 ^ a) td.vals td.rngIn td.rngOut = .ok ((List.range (4 * 2 ^ b)).map dm)) :
    ∃ (outs : Nat → List F) (views : Fin (4 * 2 ^ b) → Transcript),
      AlwaysYields (Net.init fun i : Fin (4 * 2 ^ b) => (if i.val = 0 then
          circomHShift pp dbg (4 * 2 ^ b) i (fun p c => if which c then 0 else probe pp (k c) p) (fun p c => if which c then probe pp (k c) p else 0)
            (q i) (masks i) (dm i) rng else pp.circomH dbg (4 * 2 ^ b) i (q i) (masks i) (dm i) rng).recorded) (fun i => (outs i, views i)) ∧
      ∀ c < 2 ^ a, readTop pp ((views ⟨0, by positivity⟩).drop (6 * (4 * 2 ^ b))) c =
        cosetVals dom (2 ^ (a + b)) dom2.groupGen (fun i => (if which c then va else vb).getD i 0) (c * 2 ^ b + k c) := by
  have hle := l_eq hpp
  have hg := PSS.good_of_new hpp
  have hN64 : 2 ^ a < 2 ^ 64 := Nat.pow_lt_pow_right (by omega) ha
  have dms := DegRedMask.sample_dealt hg dbg (N := 2 ^ a) (by positivity) td
  rw [hle] at dms
  have hin : pp.SharedVec (2 * pp.l) (2 ^ a) (fun p => (pp.degDealt (2 ^ a) td p).inMask) (chunks pp.l td.vals) :=
    PSS.freshVec_shared hg (fun c _ => chunks_length _ _ _) _
  obtain ⟨ea, eb, ec, -, -, hA, hB, hC, h⟩ := circomH_probed hpp dbg ha hdom hdom2 (hq.shares hpp) rng t td (hm.eq hpp hdom) (sampled_eq hd dms)
    (fun p c => if which c then 0 else probe pp (k c) p) (fun p c => if which c then probe pp (k c) p else 0)
  obtain ⟨sec, hsec⟩ := shared_any hg fun p hp => probedEval_length hA hB hC (fun p c => if which c then 0 else probe pp (k c) p)
    (fun p c => if which c then probe pp (k c) p else 0) hp
  obtain ⟨outs, views, r, hv, -⟩ := h sec hsec
  refine ⟨outs, views, r.alwaysYields fun i => circomH_family_wf dbg _ _ q masks dm rng i, fun c hc => ?_⟩
  have hrd := readTop_probed hg hN64 hA hB hC hin (fun p c => if which c then 0 else probe pp (k c) p)
    (fun p c => if which c then probe pp (k c) p else 0) hc
  rw [show 4 * pp.l = 4 * 2 ^ b by rw [hle]] at hrd
  rw [hv ⟨0, by positivity⟩ rfl, hrd]
  have one : ∀ (e : Nat → List F) (x : Nat → F), pp.SharedVec (2 * pp.l) (2 ^ a) e (packed false a b (cosetVals dom (2 ^ (a + b)) dom2.groupGen x)) →
      pp.share.sizeInv * pp.checksum (fun p => probe pp (k c) p * (e p).getD c 0) =
        cosetVals dom (2 ^ (a + b)) dom2.groupGen x (c * 2 ^ b + k c) := by
    intro e x he
    obtain ⟨-, -, f, hf, f1, f2⟩ := sharing_iff_poly.1 (he.2 c hc)
    have hkl : k c < pp.l := by rw [hle]; exact hk c hc
    have h2 := f2 (k c) hkl
    rw [chunk_getD _ (hk c hc)] at h2
    rw [h2, ← secretPoint, ← PSS.checksum_probe hg (k c) hf]
    congr 1
    refine sum_congr rfl fun p hp => ?_
    have := f1 p (mem_range.1 hp)
    rw [getD_map_range, if_pos (mem_range.1 hp)] at this
    dsimp only
    rw [this]
  cases hw : which c
  · simp only [Bool.false_eq_true, if_false, mul_zero, add_zero]
    exact one eb _ hB
  · have h1 := one ea _ hA
    simp only [mul_comm (probe pp (k c) _)] at h1
    simp only [↓reduceIte, zero_mul, zero_add, add_zero]
    exact h1

/-! ### C79 -/

/-- **C79** A dishonest king reads inputs alone. For every position `c` it chooses one of the two vectors and a slot. There is something to
add to its answers in two transforms of `circom_h`, such that every run with honest servers still ends, with a result for every server, and a
fixed function of the messages the king is sent returns in every position the value in the chosen slot of the chosen vector on the coset, whatever
the masks and the randomness. -/
theorem C79_reads {dbg₀ : Bool} {b : Nat} {pp : PSS F} (hpp : PSS.new dbg₀ (2 ^ b) = .ok pp) {a : Nat} (ha : a < 64)
    {dom dom2 : Domain F} (hdom : Domain.new (2 ^ (a + b)) = some dom) (hdom2 : Domain.new (2 ^ (a + b + 1)) = some dom2)
    (which : Nat → Bool) (k : Nat → Nat) (hk : ∀ c < 2 ^ a, k c < 2 ^ b) :
    ∃ (da db : Nat → Nat → F) (learn : Transcript → Nat → F), ∀ (dbg : Bool) (va vb vc : List F) (q : Nat → PackedQAPShare F),
      HoldsProgram pp a b dom q va vb vc → ∀ A B : F[X], Interpolates dom.groupGen (2 ^ (a + b)) (fun i => va.getD i 0) A →
        Interpolates dom.groupGen (2 ^ (a + b)) (fun i => vb.getD i 0) B →
      ∀ (rng : Nat → Nat → Nat → F) (t : Nat → VecTape F) (td : VecTape F) (masks : Nat → Nat → FftMask F) (dm : Nat → DegRedMask F),
        CircomSampled pp dbg dom2.groupGen dom t masks →
        DegRedMask.sample pp dbg (1 : F) (2 ^ a) td.vals td.rngIn td.rngOut = .ok ((List.range (4 * 2 ^ b)).map dm) →
      ∃ (outs : Nat → List F) (views : Fin (4 * 2 ^ b) → Transcript),
        AlwaysYields (Net.init fun i : Fin (4 * 2 ^ b) => (if i.val = 0 then
            circomHShift pp dbg (4 * 2 ^ b) i da db (q i) (masks i) (dm i) rng else
            pp.circomH dbg (4 * 2 ^ b) i (q i) (masks i) (dm i) rng).recorded) (fun i => (outs i, views i)) ∧
        ∀ c < 2 ^ a, learn (views ⟨0, by positivity⟩) c = (if which c then A else B).eval (dom2.groupGen ^ (2 * (c * 2 ^ b + k c) + 1)) := by
  refine ⟨fun p c => if which c then 0 else probe pp (k c) p, fun p c => if which c then probe pp (k c) p else 0,
    fun tr c => readTop pp (tr.drop (6 * (4 * 2 ^ b))) c, fun dbg va vb vc q hq A B hA hB rng t td masks dm hm hd => ?_⟩
  obtain ⟨outs, views, h1, h2⟩ := reads hpp dbg ha hdom hdom2 which k hk hq rng hm hd
  refine ⟨outs, views, h1, fun c hc => ?_⟩
  dsimp only
  rw [h2 c hc]
  cases which c
  · exact cosetVals_poly hdom hdom2 hB _
  · exact cosetVals_poly hdom hdom2 hA _

/-- **C79** After `l` runs on the same `b` vector a dishonest king knows it, alone, whatever the masks and the randomness, and whatever the
shares and the other two vectors in each of the runs. -/
theorem C79_vector {dbg₀ : Bool} {b : Nat} {pp : PSS F} (hpp : PSS.new dbg₀ (2 ^ b) = .ok pp) {a : Nat} (ha : a < 64)
    {dom dom2 : Domain F} (hdom : Domain.new (2 ^ (a + b)) = some dom) (hdom2 : Domain.new (2 ^ (a + b + 1)) = some dom2) :
    ∃ (da db : Nat → Nat → Nat → F) (learn : (Nat → Transcript) → List F), ∀ (dbg : Nat → Bool) (vb : List F) (va vc : Nat → List F)
        (q : Nat → Nat → PackedQAPShare F),
      (∀ j < 2 ^ b, HoldsProgram pp a b dom (q j) (va j) vb (vc j)) →
      ∀ (rng : Nat → Nat → Nat → Nat → F) (t : Nat → Nat → VecTape F) (td : Nat → VecTape F) (masks : Nat → Nat → Nat → FftMask F)
        (dm : Nat → Nat → DegRedMask F), (∀ j < 2 ^ b, CircomSampled pp (dbg j) dom2.groupGen dom (t j) (masks j)) →
        (∀ j < 2 ^ b, DegRedMask.sample pp (dbg j) (1 : F) (2 ^ a) (td j).vals (td j).rngIn (td j).rngOut =
          .ok ((List.range (4 * 2 ^ b)).map (dm j))) →
      ∃ (outs : Nat → Nat → List F) (views : Nat → Fin (4 * 2 ^ b) → Transcript),
        (∀ j < 2 ^ b, AlwaysYields (Net.init fun i : Fin (4 * 2 ^ b) => (if i.val = 0 then
            circomHShift pp (dbg j) (4 * 2 ^ b) i (da j) (db j) (q j i) (masks j i) (dm j i) (rng j) else
            pp.circomH (dbg j) (4 * 2 ^ b) i (q j i) (masks j i) (dm j i) (rng j)).recorded) (fun i => (outs j i, views j i))) ∧
        learn (fun j => views j ⟨0, by positivity⟩) = vb := by
  obtain ⟨hwf, hoff, -, hsize⟩ := Domain.new_pow2 hdom
  obtain ⟨hwf2, -, -, hsize2⟩ := Domain.new_pow2 hdom2
  have hroot : dom2.groupGen ≠ 0 := hwf2.prim.ne_zero (by rw [hsize2]; positivity)
  refine ⟨fun j p _ => if false then 0 else probe pp j p, fun j p _ => if false then probe pp j p else 0, fun trs => (List.range (2 ^ (a + b))).map <| cosetVals dom (2 ^ (a + b)) dom2.groupGen⁻¹ fun i =>
    readTop pp ((trs (i % 2 ^ b)).drop (6 * (4 * 2 ^ b))) (i / 2 ^ b), fun dbg vb va vc q hq rng t td masks dm hm hd => ?_⟩
  have h : ∀ j, ∃ (outs : Nat → List F) (views : Fin (4 * 2 ^ b) → Transcript), j < 2 ^ b →
      AlwaysYields (Net.init fun i : Fin (4 * 2 ^ b) => (if i.val = 0 then
          circomHShift pp (dbg j) (4 * 2 ^ b) i (fun p _ => if false then 0 else probe pp j p) (fun p _ => if false then probe pp j p else 0)
            (q j i) (masks j i) (dm j i) (rng j) else pp.circomH (dbg j) (4 * 2 ^ b) i (q j i) (masks j i) (dm j i) (rng j)).recorded)
        (fun i => (outs i, views i)) ∧
      ∀ c < 2 ^ a, readTop pp ((views ⟨0, by positivity⟩).drop (6 * (4 * 2 ^ b))) c =
        cosetVals dom (2 ^ (a + b)) dom2.groupGen (fun i => vb.getD i 0) (c * 2 ^ b + j) := fun j => by
    by_cases hj : j < 2 ^ b
    · obtain ⟨outs, views, h⟩ := reads hpp (dbg j) ha hdom hdom2 (fun _ => false) (fun _ => j) (fun _ _ => hj) (hq j hj) (rng j) (hm j hj) (hd j hj)
      exact ⟨outs, views, fun _ => h⟩
    · exact ⟨fun _ => [], fun _ => [], fun h => absurd h hj⟩
  choose outs views h using h
  refine ⟨outs, views, fun j hj => (h j hj).1, ?_⟩
  have hlb : vb.length = 2 ^ (a + b) := (hq 0 (by positivity)).vecB.1
  refine list_ext_getD 0 (by simp [hlb]) fun i hi => ?_
  have hi : i < 2 ^ (a + b) := by simpa using hi
  rw [getD_map_range, if_pos hi]
  have hb0 : 0 < 2 ^ b := by positivity
  have key : ∀ j < 2 ^ (a + b), readTop pp ((views (j % 2 ^ b) ⟨0, by positivity⟩).drop (6 * (4 * 2 ^ b))) (j / 2 ^ b) =
      cosetVals dom (2 ^ (a + b)) dom2.groupGen (fun i => vb.getD i 0) j := by
    intro j hj
    have := (h (j % 2 ^ b) (Nat.mod_lt _ hb0)).2 (j / 2 ^ b) (by rw [Nat.div_lt_iff_lt_mul hb0, ← pow_add]; exact hj)
    rw [this, Nat.div_add_mod']
  rw [cosetVals_congr key]
  rw [← hsize] at hi ⊢
  exact cosetVals_back hwf hoff hroot _ hi

/-! ### A king who changes no result -/

/-- The weights of the secrets and of `l` shares in coefficient `2l - 1` of a sharing polynomial. -/
def secretWeight (pp : PSS F) (l : Nat) (P : Fin l → Nat) (k : Fin l) : F :=
  (∏ j ∈ univ.erase (Sum.inl k : Fin l ⊕ Fin l), (pp.secret.offset * (pp.share.groupGen ^ 2) ^ k.val -
    Sum.elim (fun k : Fin l => pp.secret.offset * (pp.share.groupGen ^ 2) ^ k.val) (fun i => pp.share.groupGen ^ P i) j))⁻¹

@[inherit_doc secretWeight]
def shareWeight (pp : PSS F) (l : Nat) (P : Fin l → Nat) (i : Fin l) : F :=
  (∏ j ∈ univ.erase (Sum.inr i : Fin l ⊕ Fin l), (pp.share.groupGen ^ P i -
    Sum.elim (fun k : Fin l => pp.secret.offset * (pp.share.groupGen ^ 2) ^ k.val) (fun i => pp.share.groupGen ^ P i) j))⁻¹

theorem secretWeight_ne {pp : PSS F} (hg : pp.Good) {l : Nat} (hle : pp.l = l) (hgen : pp.secret.offset ^ (4 * l) ≠ 1) (P : Fin l → Nat)
    (hinj : Function.Injective P) (hlt : ∀ i, P i < 4 * l) (k : Fin l) : secretWeight pp l P k ≠ 0 := by
  refine inv_ne_zero (prod_ne_zero_iff.2 fun j hj h => ?_)
  exact (mem_erase.1 hj).1 (nodes_injective hg hle hgen P hinj hlt (mem_coe.2 (mem_univ j)) (mem_coe.2 (mem_univ (Sum.inl k))) (sub_eq_zero.1 h).symm)

theorem top_coeff {pp : PSS F} (hg : pp.Good) {l : Nat} (hle : pp.l = l) (hgen : pp.secret.offset ^ (4 * l) ≠ 1) (P : Fin l → Nat)
    (hinj : Function.Injective P) (hlt : ∀ i, P i < 4 * l) {f : F[X]} (hf : f.degree < (2 * l : Nat)) :
    f.coeff (2 * l - 1) = ∑ k, secretWeight pp l P k * f.eval (pp.secret.offset * (pp.share.groupGen ^ 2) ^ k.val) +
      ∑ i, shareWeight pp l P i * f.eval (pp.share.groupGen ^ P i) := by
  have hcard : #(univ : Finset (Fin l ⊕ Fin l)) = 2 * l := by rw [card_univ, Fintype.card_sum, Fintype.card_fin]; omega
  have := Lagrange.coeff_eq_sum (nodes_injective hg hle hgen P hinj hlt) (P := f) (by rw [hcard]; exact hf)
  rw [hcard] at this
  rw [this, Fintype.sum_sum_type]
  simp only [Sum.elim_inl, Sum.elim_inr, secretWeight, shareWeight, div_eq_mul_inv]
  congr 1 <;> exact sum_congr rfl fun _ _ => mul_comm _ _

/-- What is shared after a king has added the quiet probe is what was shared before. -/
theorem quiet_shared {pp : PSS F} (hg : pp.Good) {N : Nat} {ea eb ec sa sb sc : Nat → List F}
    (hA : pp.SharedVec (2 * pp.l) N ea sa) (hB : pp.SharedVec (2 * pp.l) N eb sb) (hC : pp.SharedVec (2 * pp.l) N ec sc) :
    pp.SharedVec (4 * pp.l) N (probedEval (fun p _ => quietProbe pp p) (fun _ _ => 0) ea eb ec)
      fun c => (List.range pp.l).map fun k => (sa c).getD k 0 * (sb c).getD k 0 - (sc c).getD k 0 := by
  have hl := hg.lpos
  refine ⟨fun p hp => probedEval_length hA hB hC _ _ hp, fun c hc => ?_⟩
  obtain ⟨-, -, f, hf, f1, f2⟩ := sharing_iff_poly.1 (hA.2 c hc)
  obtain ⟨-, -, h, hh, h1, h2⟩ := sharing_iff_poly.1 (hB.2 c hc)
  obtain ⟨-, -, m, hm, m1, m2⟩ := sharing_iff_poly.1 (hC.2 c hc)
  refine sharing_iff_poly.2 ⟨by simp, by simp, (f + (X ^ (2 * pp.l) - Polynomial.C (pp.secret.offset ^ (2 * pp.l)))) * h - m, ?_, fun p hp => ?_,
    fun k hk => ?_⟩
  · rw [degree_lt_iff_coeff_zero] at hm ⊢
    intro n hn
    have hfh : ((f + (X ^ (2 * pp.l) - Polynomial.C (pp.secret.offset ^ (2 * pp.l)))) * h).coeff n = 0 := by
      rw [coeff_mul]
      refine sum_eq_zero fun x hx => ?_
      have hx := mem_antidiagonal.1 hx
      rw [degree_lt_iff_coeff_zero] at hf hh
      by_cases h1 : 2 * pp.l < x.1
      · rw [coeff_add, hf _ h1.le, coeff_sub, coeff_X_pow, if_neg (by omega), coeff_C, if_neg (by omega)]
        ring
      · rw [hh _ (by omega), mul_zero]
    rw [coeff_sub, hfh, hm n (by omega), sub_zero]
  · have a1 := f1 p hp
    have a2 := h1 p hp
    have a3 := m1 p hp
    rw [getD_map_range, if_pos hp] at a1 a2 a3
    rw [getD_map_range, if_pos hp, probedEval_getD hA hB hC _ _ hp hc, a1, a2, a3]
    simp [quietProbe]
  · rw [getD_map_range, if_pos hk, f2 k hk, h2 k hk, m2 k hk]
    have := quiet_zero hg k
    rw [secretPoint] at this
    rw [eval_sub, eval_mul, eval_add, eval_sub, eval_pow, eval_X, eval_C, this, add_zero]

/-- **C79** The same, with a right result. There is something for the king to add in one transform of `circom_h` that leaves the result as it
is: every server ends with its share of the values of `A·B - C` on the coset. From the messages the king is sent and the shares that `l` parties
hold, it learns in every position a sum of the `l` values of the `b` vector, each with a weight that is not zero; without the additions `l`
parties learn nothing of them (C62). -/
theorem C79_quiet {dbg₀ : Bool} {b : Nat} {pp : PSS F} (hpp : PSS.new dbg₀ (2 ^ b) = .ok pp)
    (hgen : (FftField.GENERATOR : F) ^ (4 * 2 ^ b) ≠ 1) {a : Nat} (ha : a < 64) {dom dom2 : Domain F}
    (hdom : Domain.new (2 ^ (a + b)) = some dom) (hdom2 : Domain.new (2 ^ (a + b + 1)) = some dom2)
    (P : Fin (2 ^ b) → Nat) (hinj : Function.Injective P) (hlt : ∀ i, P i < 4 * 2 ^ b) :
    ∃ (da db : Nat → Nat → F) (w : Fin (2 ^ b) → F) (learn : Transcript → (Fin (2 ^ b) → List F) → Nat → F), (∀ k, w k ≠ 0) ∧
      ∀ (dbg : Bool) (va vb vc : List F) (q : Nat → PackedQAPShare F), HoldsProgram pp a b dom q va vb vc →
      ∀ A B C : F[X], Interpolates dom.groupGen (2 ^ (a + b)) (fun i => va.getD i 0) A →
        Interpolates dom.groupGen (2 ^ (a + b)) (fun i => vb.getD i 0) B → Interpolates dom.groupGen (2 ^ (a + b)) (fun i => vc.getD i 0) C →
      ∀ (rng : Nat → Nat → Nat → F) (t : Nat → VecTape F) (td : VecTape F) (masks : Nat → Nat → FftMask F) (dm : Nat → DegRedMask F),
        CircomSampled pp dbg dom2.groupGen dom t masks →
        DegRedMask.sample pp dbg (1 : F) (2 ^ a) td.vals td.rngIn td.rngOut = .ok ((List.range (4 * 2 ^ b)).map dm) →
      ∃ (eb outs : Nat → List F) (views : Fin (4 * 2 ^ b) → Transcript),
        TransformsTo pp dbg b dom dom2.groupGen false .one (fun p => (q p).b) (fun p => masks p 1) (fun p => masks p 4) (rng 1) (rng 4) eb ∧
        AlwaysYields (Net.init fun i : Fin (4 * 2 ^ b) => (if i.val = 0 then
            circomHShift pp dbg (4 * 2 ^ b) i da db (q i) (masks i) (dm i) rng else
            pp.circomH dbg (4 * 2 ^ b) i (q i) (masks i) (dm i) rng).recorded) (fun i => (outs i, views i)) ∧
        HoldsOutput pp false a b outs ((List.range (2 ^ (a + b))).map fun i => (A * B - C).eval (dom2.groupGen ^ (2 * i + 1))) ∧
        ∀ c < 2 ^ a, learn (views ⟨0, by positivity⟩) (fun i => eb (P i)) c =
          ∑ k, w k * B.eval (dom2.groupGen ^ (2 * (c * 2 ^ b + k.val) + 1)) := by
  have hle := l_eq hpp
  have hg := PSS.good_of_new hpp
  have hN64 : 2 ^ a < 2 ^ 64 := Nat.pow_lt_pow_right (by omega) ha
  have hgen' : pp.secret.offset ^ (4 * 2 ^ b) ≠ 1 := by rw [offset_eq hpp]; exact hgen
  refine ⟨fun p _ => quietProbe pp p, fun _ _ => 0, secretWeight pp (2 ^ b) P,
    fun tr shs c => readTop pp (tr.drop (6 * (4 * 2 ^ b))) c - ∑ i, shareWeight pp (2 ^ b) P i * (shs i).getD c 0,
    secretWeight_ne hg hle hgen' P hinj hlt, fun dbg va vb vc q hq A B C pA pB pC rng t td masks dm hm hd => ?_⟩
  have dms := DegRedMask.sample_dealt hg dbg (N := 2 ^ a) (by positivity) td
  rw [hle] at dms
  have hin : pp.SharedVec (2 * pp.l) (2 ^ a) (fun p => (pp.degDealt (2 ^ a) td p).inMask) (chunks pp.l td.vals) :=
    PSS.freshVec_shared hg (fun c _ => chunks_length _ _ _) _
  obtain ⟨ea, eb, ec, -, kb, hA, hB, hC, h⟩ := circomH_probed hpp dbg ha hdom hdom2 (hq.shares hpp) rng t td (hm.eq hpp hdom) (sampled_eq hd dms)
    (fun p _ => quietProbe pp p) (fun _ _ => 0)
  obtain ⟨outs, views, r, hv, ho⟩ := h _ (quiet_shared hg hA hB hC)
  refine ⟨eb, outs, views, kb, r.alwaysYields fun i => circomH_family_wf dbg _ _ q masks dm rng i, ⟨by simp, ?_⟩, fun c hc => ?_⟩
  · rw [← hle]
    refine SharedVec.congr ho (fun _ _ => rfl) fun c hc => ?_
    rw [hle]
    refine List.map_congr_left fun k hk => ?_
    have hk := List.mem_range.1 hk
    have hlt' : c * 2 ^ b + k < 2 ^ (a + b) := by
      calc c * 2 ^ b + k < (c + 1) * 2 ^ b := by rw [Nat.succ_mul]; omega
        _ ≤ 2 ^ a * 2 ^ b := Nat.mul_le_mul_right _ hc
        _ = 2 ^ (a + b) := (pow_add _ _ _).symm
    dsimp only
    rw [chunk_getD _ hk, chunk_getD _ hk, chunk_getD _ hk, cosetVals_poly hdom hdom2 pA, cosetVals_poly hdom hdom2 pB, cosetVals_poly hdom hdom2 pC,
      show slot false a b c k = c * 2 ^ b + k by simp [slot], getD_map_range, if_pos hlt', eval_sub, eval_mul]
  · have hrd := readTop_probed hg hN64 hA hB hC hin (fun p _ => quietProbe pp p) (fun _ _ => 0) hc
    rw [show 4 * pp.l = 4 * 2 ^ b by rw [hle]] at hrd
    obtain ⟨-, -, f, hf, f1, f2⟩ := sharing_iff_poly.1 (hB.2 c hc)
    have htop := PSS.checksum_quiet hg hf
    have e1 : (pp.checksum fun p => quietProbe pp p * (eb p).getD c 0 + (ea p).getD c 0 * 0 + quietProbe pp p * 0) =
        pp.checksum fun p => quietProbe pp p * f.eval (pp.share.groupGen ^ p) := by
      refine sum_congr rfl fun p hp => ?_
      have := f1 p (mem_range.1 hp)
      rw [getD_map_range, if_pos (mem_range.1 hp)] at this
      dsimp only
      rw [this]
      simp
    rw [hle] at hf f1 f2
    dsimp only
    rw [hv ⟨0, by positivity⟩ rfl, hrd, e1, htop, hle, top_coeff hg hle hgen' P hinj hlt hf, add_sub_assoc]
    have e2 : ∑ i, shareWeight pp (2 ^ b) P i * f.eval (pp.share.groupGen ^ P i) = ∑ i, shareWeight pp (2 ^ b) P i * (eb (P i)).getD c 0 := by
      refine sum_congr rfl fun i _ => ?_
      have := f1 (P i) (hlt i)
      rw [getD_map_range, if_pos (hlt i)] at this
      rw [this]
    rw [e2, sub_self, add_zero]
    refine sum_congr rfl fun k _ => ?_
    rw [← f2 k.val k.2, chunk_getD _ k.2, cosetVals_poly hdom hdom2 pB]

/-- **C79** With `l = 1` the king alone learns the whole `b` vector in one run, and every server ends with its share of the right result. -/
theorem C79_quiet_alone {dbg₀ : Bool} {pp : PSS F} (hpp : PSS.new dbg₀ (2 ^ 0) = .ok pp)
    (hgen : (FftField.GENERATOR : F) ^ (4 * 2 ^ 0) ≠ 1) {a : Nat} (ha : a < 64) {dom dom2 : Domain F}
    (hdom : Domain.new (2 ^ (a + 0)) = some dom) (hdom2 : Domain.new (2 ^ (a + 0 + 1)) = some dom2) :
    ∃ (da db : Nat → Nat → F) (learn : Transcript → List F → List F),
      ∀ (dbg : Bool) (va vb vc : List F) (q : Nat → PackedQAPShare F), HoldsProgram pp a 0 dom q va vb vc →
      ∀ A B C : F[X], Interpolates dom.groupGen (2 ^ (a + 0)) (fun i => va.getD i 0) A →
        Interpolates dom.groupGen (2 ^ (a + 0)) (fun i => vb.getD i 0) B → Interpolates dom.groupGen (2 ^ (a + 0)) (fun i => vc.getD i 0) C →
      ∀ (rng : Nat → Nat → Nat → F) (t : Nat → VecTape F) (td : VecTape F) (masks : Nat → Nat → FftMask F) (dm : Nat → DegRedMask F),
        CircomSampled pp dbg dom2.groupGen dom t masks →
        DegRedMask.sample pp dbg (1 : F) (2 ^ a) td.vals td.rngIn td.rngOut = .ok ((List.range (4 * 2 ^ 0)).map dm) →
      ∃ (eb outs : Nat → List F) (views : Fin (4 * 2 ^ 0) → Transcript),
        TransformsTo pp dbg 0 dom dom2.groupGen false .one (fun p => (q p).b) (fun p => masks p 1) (fun p => masks p 4) (rng 1) (rng 4) eb ∧
        AlwaysYields (Net.init fun i : Fin (4 * 2 ^ 0) => (if i.val = 0 then
            circomHShift pp dbg (4 * 2 ^ 0) i da db (q i) (masks i) (dm i) rng else
            pp.circomH dbg (4 * 2 ^ 0) i (q i) (masks i) (dm i) rng).recorded) (fun i => (outs i, views i)) ∧
        HoldsOutput pp false a 0 outs ((List.range (2 ^ (a + 0))).map fun i => (A * B - C).eval (dom2.groupGen ^ (2 * i + 1))) ∧
        learn (views ⟨0, by positivity⟩) (eb 0) = vb := by
  obtain ⟨hwf, hoff, -, hsize⟩ := Domain.new_pow2 hdom
  obtain ⟨hwf2, -, -, hsize2⟩ := Domain.new_pow2 hdom2
  have hroot : dom2.groupGen ≠ 0 := hwf2.prim.ne_zero (by rw [hsize2]; positivity)
  obtain ⟨da, db, w, learn, hw, h⟩ := C79_quiet hpp hgen ha hdom hdom2 (fun _ => 0) (fun i j _ => Subsingleton.elim (α := Fin 1) i j) fun _ => by positivity
  refine ⟨da, db, fun tr sh => (List.range (2 ^ (a + 0))).map <| cosetVals dom (2 ^ (a + 0)) dom2.groupGen⁻¹ fun c => (w 0)⁻¹ * learn tr (fun _ => sh) c,
    fun dbg va vb vc q hq A B C pA pB pC rng t td masks dm hm hd => ?_⟩
  obtain ⟨eb, outs, views, h1, h2, h3, h4⟩ := h dbg va vb vc q hq A B C pA pB pC rng t td masks dm hm hd
  refine ⟨eb, outs, views, h1, h2, h3, ?_⟩
  have hlb : vb.length = 2 ^ (a + 0) := hq.vecB.1
  refine list_ext_getD 0 (by simp [hlb]) fun i hi => ?_
  have hi : i < 2 ^ (a + 0) := by simpa using hi
  rw [getD_map_range, if_pos hi]
  have key : ∀ c < 2 ^ (a + 0), (w 0)⁻¹ * learn (views ⟨0, by positivity⟩) (fun _ => eb 0) c =
      cosetVals dom (2 ^ (a + 0)) dom2.groupGen (fun i => vb.getD i 0) c := by
    intro c hc
    rw [h4 c hc, cosetVals_poly hdom hdom2 pB]
    have e : ∀ g : Fin (2 ^ 0) → F, ∑ k, g k = g 0 := fun g => Fintype.sum_eq_single 0 fun j hj => absurd (Subsingleton.elim (α := Fin 1) j 0) hj
    rw [e, ← mul_assoc, inv_mul_cancel₀ (hw 0), one_mul]
    simp
  rw [cosetVals_congr key]
  rw [← hsize] at hi ⊢
  exact cosetVals_back hwf hoff hroot _ hi

/-! ### The king of the code is the one that adds nothing -/

theorem shiftRow_zero (row : List F) : shiftRow (fun _ => 0) row = row := by
  refine List.ext_getElem (by simp [shiftRow]) fun i _ _ => ?_
  simp [shiftRow]

theorem dFftShift_zero (pp : PSS F) (dbg : Bool) (n me : Nat) (x : List F) (mask : FftMask F) (rearrange : Bool) (dom : Domain F) (sid : Sid)
    (rng : Nat → Nat → F) : dFftShift pp dbg n me (fun _ _ => 0) x mask rearrange dom sid rng = pp.dFft dbg n me x mask rearrange dom sid rng := by
  have e : ∀ r : Res (List (List F)), (r.map fun v => v.mapIdx fun _ row => shiftRow (fun _ => 0) row) = r := by
    intro r
    cases r
    · rfl
    · simp only [Except.map, shiftRow_zero]
      exact congrArg _ (List.ext_getElem (by simp) fun i _ _ => by simp)
  unfold dFftShift
  simp only [e]
  rfl

/-- In a release build the king of the code is the one that adds nothing. -/
theorem circomHShift_zero (pp : PSS F) (n me : Nat) (q : PackedQAPShare F) (masks : Nat → FftMask F) (dm : DegRedMask F)
    (rng : Nat → Nat → Nat → F) : circomHShift pp false n me (fun _ _ => 0) (fun _ _ => 0) q masks dm rng = pp.circomH false n me q masks dm rng := by
  unfold circomHShift
  simp only [dFftShift_zero]
  rfl

/-! ### The hypotheses are met -/

theorem sampled17 (t : Nat → VecTape (ZMod 17)) (td : VecTape (ZMod 17)) : ∃ (masks : Nat → Nat → FftMask (ZMod 17)) (dm : Nat → DegRedMask (ZMod 17)),
    CircomSampled pp17 true dom17b.groupGen dom17 t masks ∧
    DegRedMask.sample pp17 true (1 : ZMod 17) (2 ^ 1) td.vals td.rngIn td.rngOut = .ok ((List.range (4 * 2 ^ 1)).map dm) :=
  ⟨_, _, (stageMasks_circom pp17 1 1 dom17b.groupGen dom17 t).sampled (pp17_eq true) true dom17_eq,
    DegRedMask.sample_dealt (PSS.good_of_new (pp17_eq true)) true (N := 2 ^ 1) (by positivity) td⟩

/-- A king of eight servers with `l = 2` reads the value of `B` in the first point of the coset and that of `A` in the last. -/
example : ∃ (da db : Nat → Nat → ZMod 17) (learn : Transcript → Nat → ZMod 17), ∀ (y₀ y₁ y₂ y₃ : ZMod 17) (t : Nat → VecTape (ZMod 17))
    (td : VecTape (ZMod 17)), ∃ (q : Nat → PackedQAPShare (ZMod 17)) (masks : Nat → Nat → FftMask (ZMod 17)) (dm : Nat → DegRedMask (ZMod 17))
      (A B : (ZMod 17)[X]) (outs : Nat → List (ZMod 17)) (views : Fin (4 * 2 ^ 1) → Transcript),
      HoldsProgram pp17 1 1 dom17 q [3, 9, 1, 9] [y₀, y₁, y₂, y₃] [9, 9, 0, 0] ∧
      CircomSampled pp17 true dom17b.groupGen dom17 t masks ∧
      Interpolates dom17.groupGen (2 ^ (1 + 1)) (fun i => [3, 9, 1, 9].getD i 0) A ∧
      Interpolates dom17.groupGen (2 ^ (1 + 1)) (fun i => [y₀, y₁, y₂, y₃].getD i 0) B ∧
      AlwaysYields (Net.init fun i : Fin (4 * 2 ^ 1) => (if i.val = 0 then
          circomHShift pp17 true (4 * 2 ^ 1) i da db (q i) (masks i) (dm i) (fun _ i j => i + j) else
          pp17.circomH true (4 * 2 ^ 1) i (q i) (masks i) (dm i) fun _ i j => i + j).recorded) (fun i => (outs i, views i)) ∧
      learn (views ⟨0, by norm_num⟩) 0 = B.eval (dom17b.groupGen ^ 1) ∧ learn (views ⟨0, by norm_num⟩) 1 = A.eval (dom17b.groupGen ^ 7) := by
  obtain ⟨da, db, learn, h⟩ := C79_reads (pp17_eq true) (a := 1) (by norm_num) dom17_eq dom17b_eq (fun c => c == 1) (fun c => c) fun c hc => hc
  refine ⟨da, db, learn, fun y₀ y₁ y₂ y₃ t td => ?_⟩
  obtain ⟨q, hq⟩ := program17 [3, 9, 1, 9] [y₀, y₁, y₂, y₃] [9, 9, 0, 0] rfl rfl rfl
  obtain ⟨masks, dm, hm, hd⟩ := sampled17 t td
  obtain ⟨hwf, hoff, -, hsize⟩ := Domain.new_pow2 dom17_eq
  obtain ⟨A, hA⟩ := Interpolates.exists hwf hoff [3, 9, 1, 9] (by rw [hsize]; rfl)
  obtain ⟨B, hB⟩ := Interpolates.exists hwf hoff [y₀, y₁, y₂, y₃] (by rw [hsize]; rfl)
  rw [hsize] at hA hB
  obtain ⟨outs, views, h1, h2⟩ := h true _ _ _ q hq A B hA hB (fun _ i j => i + j) t td masks dm hm hd
  exact ⟨q, masks, dm, A, B, outs, views, hq, hm, hA, hB, h1, h2 0 (by norm_num), h2 1 (by norm_num)⟩

/-- After two runs it knows the `b` vector. -/
example : ∃ (da db : Nat → Nat → Nat → ZMod 17) (learn : (Nat → Transcript) → List (ZMod 17)), ∀ (y₀ y₁ y₂ y₃ : ZMod 17)
    (t : Nat → Nat → VecTape (ZMod 17)) (td : Nat → VecTape (ZMod 17)), ∃ (q : Nat → PackedQAPShare (ZMod 17))
      (masks : Nat → Nat → Nat → FftMask (ZMod 17)) (dm : Nat → Nat → DegRedMask (ZMod 17)) (outs : Nat → Nat → List (ZMod 17))
      (views : Nat → Fin (4 * 2 ^ 1) → Transcript), HoldsProgram pp17 1 1 dom17 q [3, 9, 1, 9] [y₀, y₁, y₂, y₃] [9, 9, 0, 0] ∧
      (∀ j < 2 ^ 1, AlwaysYields (Net.init fun i : Fin (4 * 2 ^ 1) => (if i.val = 0 then
          circomHShift pp17 true (4 * 2 ^ 1) i (da j) (db j) (q i) (masks j i) (dm j i) (fun _ i j => i + j) else
          pp17.circomH true (4 * 2 ^ 1) i (q i) (masks j i) (dm j i) fun _ i j => i + j).recorded) (fun i => (outs j i, views j i))) ∧
      learn (fun j => views j ⟨0, by norm_num⟩) = [y₀, y₁, y₂, y₃] := by
  obtain ⟨da, db, learn, h⟩ := C79_vector (pp17_eq true) (a := 1) (by norm_num) dom17_eq dom17b_eq
  refine ⟨da, db, learn, fun y₀ y₁ y₂ y₃ t td => ?_⟩
  obtain ⟨q, hq⟩ := program17 [3, 9, 1, 9] [y₀, y₁, y₂, y₃] [9, 9, 0, 0] rfl rfl rfl
  choose masks dm hm hd using fun j => sampled17 (t j) (td j)
  obtain ⟨outs, views, h1, h2⟩ := h (fun _ => true) _ _ _ (fun _ => q) (fun _ _ => hq) (fun _ _ i j => i + j) t td masks dm (fun j _ => hm j)
    fun j _ => hd j
  exact ⟨q, masks, dm, outs, views, hq, h1, h2⟩

/-- The king and party 3 learn a sum of the first two values of `B` on the coset, and the result is right. -/
example : ∃ (da db : Nat → Nat → ZMod 17) (w : Fin (2 ^ 1) → ZMod 17) (learn : Transcript → (Fin (2 ^ 1) → List (ZMod 17)) → Nat → ZMod 17),
    (∀ k, w k ≠ 0) ∧ ∀ (y₀ y₁ y₂ y₃ : ZMod 17) (t : Nat → VecTape (ZMod 17)) (td : VecTape (ZMod 17)), ∃ (q : Nat → PackedQAPShare (ZMod 17))
      (masks : Nat → Nat → FftMask (ZMod 17)) (dm : Nat → DegRedMask (ZMod 17)) (A B C : (ZMod 17)[X]) (eb outs : Nat → List (ZMod 17))
      (views : Fin (4 * 2 ^ 1) → Transcript), HoldsProgram pp17 1 1 dom17 q [3, 9, 1, 9] [y₀, y₁, y₂, y₃] [9, 9, 0, 0] ∧
      Interpolates dom17.groupGen (2 ^ (1 + 1)) (fun i => [y₀, y₁, y₂, y₃].getD i 0) B ∧
      AlwaysYields (Net.init fun i : Fin (4 * 2 ^ 1) => (if i.val = 0 then
          circomHShift pp17 true (4 * 2 ^ 1) i da db (q i) (masks i) (dm i) (fun _ i j => i + j) else
          pp17.circomH true (4 * 2 ^ 1) i (q i) (masks i) (dm i) fun _ i j => i + j).recorded) (fun i => (outs i, views i)) ∧
      HoldsOutput pp17 false 1 1 outs ((List.range (2 ^ (1 + 1))).map fun i => (A * B - C).eval (dom17b.groupGen ^ (2 * i + 1))) ∧
      learn (views ⟨0, by norm_num⟩) (fun i => eb (king17 i)) 0 = ∑ k, w k * B.eval (dom17b.groupGen ^ (2 * (0 * 2 ^ 1 + k.val) + 1)) := by
  obtain ⟨da, db, w, learn, hw, h⟩ := C79_quiet (pp17_eq true) gen17 (a := 1) (by norm_num) dom17_eq dom17b_eq king17 king17_inj king17_lt
  refine ⟨da, db, w, learn, hw, fun y₀ y₁ y₂ y₃ t td => ?_⟩
  obtain ⟨q, hq⟩ := program17 [3, 9, 1, 9] [y₀, y₁, y₂, y₃] [9, 9, 0, 0] rfl rfl rfl
  obtain ⟨masks, dm, hm, hd⟩ := sampled17 t td
  obtain ⟨hwf, hoff, -, hsize⟩ := Domain.new_pow2 dom17_eq
  obtain ⟨A, hA⟩ := Interpolates.exists hwf hoff [3, 9, 1, 9] (by rw [hsize]; rfl)
  obtain ⟨B, hB⟩ := Interpolates.exists hwf hoff [y₀, y₁, y₂, y₃] (by rw [hsize]; rfl)
  obtain ⟨C, hC⟩ := Interpolates.exists hwf hoff [9, 9, 0, 0] (by rw [hsize]; rfl)
  rw [hsize] at hA hB hC
  obtain ⟨eb, outs, views, -, h1, h2, h3⟩ := h true _ _ _ q hq A B C hA hB hC (fun _ i j => i + j) t td masks dm hm hd
  exact ⟨q, masks, dm, A, B, C, eb, outs, views, hq, hB, h1, h2, h3 0 (by norm_num)⟩

/-- Four servers, `l = 1`: the hypotheses of the last theorem. -/
example : ∃ (pp : PSS (ZMod 17)) (dom dom2 : Domain (ZMod 17)), PSS.new true (2 ^ 0) = .ok pp ∧ Domain.new (2 ^ (2 + 0)) = some dom ∧
    Domain.new (2 ^ (2 + 0 + 1)) = some dom2 ∧ ∃ (da db : Nat → Nat → ZMod 17) (learn : Transcript → List (ZMod 17) → List (ZMod 17)),
    ∀ (y₀ y₁ y₂ y₃ : ZMod 17) (t : Nat → VecTape (ZMod 17)) (td : VecTape (ZMod 17)), ∃ (q : Nat → PackedQAPShare (ZMod 17))
      (masks : Nat → Nat → FftMask (ZMod 17)) (dm : Nat → DegRedMask (ZMod 17)) (eb outs : Nat → List (ZMod 17))
      (views : Fin (4 * 2 ^ 0) → Transcript), HoldsProgram pp 2 0 dom q [3, 9, 1, 9] [y₀, y₁, y₂, y₃] [9, 9, 0, 0] ∧
      AlwaysYields (Net.init fun i : Fin (4 * 2 ^ 0) => (if i.val = 0 then
          circomHShift pp true (4 * 2 ^ 0) i da db (q i) (masks i) (dm i) (fun _ i j => i + j) else
          pp.circomH true (4 * 2 ^ 0) i (q i) (masks i) (dm i) fun _ i j => i + j).recorded) (fun i => (outs i, views i)) ∧
      learn (views ⟨0, by norm_num⟩) (eb 0) = [y₀, y₁, y₂, y₃] := by
  have hpp : PSS.new (F := ZMod 17) true (2 ^ 0) = .ok ⟨1, 1, 4, ⟨4, 13, 4, 13, 1, 1⟩, ⟨2, 16, 16, 9, 3, 6⟩, ⟨4, 13, 4, 13, 3, 6⟩⟩ := by decide +kernel
  have hdom : Domain.new (F := ZMod 17) (2 ^ (2 + 0)) = some dom17 := by decide +kernel
  have hdom2 : Domain.new (F := ZMod 17) (2 ^ (2 + 0 + 1)) = some dom17b := by decide +kernel
  refine ⟨_, _, _, hpp, hdom, hdom2, ?_⟩
  obtain ⟨da, db, learn, h⟩ := C79_quiet_alone hpp (by decide) (a := 2) (by norm_num) hdom hdom2
  refine ⟨da, db, learn, fun y₀ y₁ y₂ y₃ t td => ?_⟩
  obtain ⟨sa, -, h1⟩ := C27_fresh_input hpp true 2 [3, 9, 1, 9] rfl fun _ _ => 1
  obtain ⟨sb, -, h2⟩ := C27_fresh_input hpp true 2 [y₀, y₁, y₂, y₃] rfl fun _ _ => 1
  obtain ⟨sc, -, h3⟩ := C27_fresh_input hpp true 2 [9, 9, 0, 0] rfl fun _ _ => 1
  obtain ⟨hwf, hoff, -, hsize⟩ := Domain.new_pow2 hdom
  obtain ⟨A, hA⟩ := Interpolates.exists hwf hoff [3, 9, 1, 9] (by rw [hsize]; rfl)
  obtain ⟨B, hB⟩ := Interpolates.exists hwf hoff [y₀, y₁, y₂, y₃] (by rw [hsize]; rfl)
  obtain ⟨C, hC⟩ := Interpolates.exists hwf hoff [9, 9, 0, 0] (by rw [hsize]; rfl)
  rw [hsize] at hA hB hC
  have hq : HoldsProgram _ 2 0 dom17 (fun p => ⟨2, 2, sa.getD p [], sb.getD p [], sc.getD p [], dom17⟩) _ _ _ := ⟨fun _ _ => rfl, h1, h2, h3⟩
  obtain ⟨eb, outs, views, -, r1, -, r2⟩ := h true _ _ _ _ hq A B C hA hB hC (fun _ i j => i + j) t td _ _
    ((stageMasks_circom _ 2 0 dom17b.groupGen dom17 t).sampled hpp true hdom)
    (DegRedMask.sample_dealt (PSS.good_of_new hpp) true (N := 2 ^ 2) (by positivity) td)
  exact ⟨_, _, _, eb, outs, views, hq, r1, r2⟩

end ZkSaas.Properties
