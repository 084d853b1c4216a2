import Verif.Properties.Factor

/-!
# C75: who knows the `a` vector of a program learns the `b` vector from `circom_h`
-/

set_option linter.unusedSectionVars false

namespace ZkSaas.Properties

open Finset Polynomial Spec

variable {F : Type} [Field F] [FftField F] [DecidableEq F] [FixedWire F]

/-! ### There and back -/

theorem cosetVals_eval {dom : Domain F} (hwf : dom.WF) (hoff : dom.offset = 1) (root : F) (x : Nat → F) (k : Nat) :
    cosetVals dom dom.size root x k =
      ∑ u ∈ range dom.size, (dom.groupGen ^ k) ^ u * (root ^ u * (dom.ifft ((List.range dom.size).map x)).getD u 0) := by
  unfold cosetVals
  refine sum_congr rfl fun u hu => ?_
  have hu := mem_range.1 hu
  congr 2
  rw [Domain.ifft, getD_map_range, if_pos hu, evalAt_resize, smul_sum]
  refine sum_congr rfl fun v hv => ?_
  rw [getD_map_range, if_pos (mem_range.1 hv)]
  simp only [hwf.offinv, hoff, smul_eq_mul, inv_one, one_pow, one_mul]
  ring

theorem cosetVals_congr {dom : Domain F} {m : Nat} {root : F} {x y : Nat → F} (h : ∀ i < m, x i = y i) (k : Nat) :
    cosetVals dom m root x k = cosetVals dom m root y k := by
  unfold cosetVals
  refine sum_congr rfl fun u _ => ?_
  congr 2
  exact sum_congr rfl fun v hv => by rw [h v (mem_range.1 hv)]

/-- The values on the coset determine the values on the domain: they are found with the same two transforms, scaled back. -/
theorem cosetVals_back {dom : Domain F} (hwf : dom.WF) (hoff : dom.offset = 1) {root : F} (hroot : root ≠ 0) (x : Nat → F) {k : Nat}
    (hk : k < dom.size) : cosetVals dom dom.size root⁻¹ (cosetVals dom dom.size root x) k = x k := by
  have h : dom.ifft ((List.range dom.size).map (cosetVals dom dom.size root x)) =
      (List.range dom.size).map fun u => root ^ u * (dom.ifft ((List.range dom.size).map x)).getD u 0 := by
    refine Domain.ifft_of_evals hwf (by simp) (list_ext_getD 0 (by simp) fun i hi => ?_)
    rw [Domain.fft_length] at hi
    rw [Domain.fft_getD _ _ hi, getD_map_range, if_pos hi, cosetVals_eval hwf hoff]
    refine sum_congr rfl fun u hu => ?_
    rw [getD_map_range, if_pos (mem_range.1 hu), Domain.element, hoff, one_mul, smul_eq_mul]
  rw [cosetVals_eval hwf hoff, h]
  have := Domain.eval_ifft hwf ((List.range dom.size).map x) hk
  rw [getD_map_range, if_pos hk, Domain.element, hoff, one_mul] at this
  rw [← this]
  refine sum_congr rfl fun u hu => ?_
  rw [getD_map_range, if_pos (mem_range.1 hu), smul_eq_mul, ← mul_assoc (root⁻¹ ^ u), ← mul_pow, inv_mul_cancel₀ hroot, one_pow, one_mul]

/-! ### The last messages of the king in `circom_h` -/

theorem getD_mulSub {N c : Nat} (hc : c < N) {x y z : List F} (hx : x.length = N) (hy : y.length = N) (hz : z.length = N) :
    (List.zipWith (fun ab c => ab.1 * ab.2 - c) (List.zip x y) z).getD c 0 = x.getD c 0 * y.getD c 0 - z.getD c 0 := by
  rw [getD_zipWith _ _ _ _ (0, 0) 0 _ (by simp [hx, hy, hc]) (by omega), List.zip, getD_zipWith _ _ _ _ 0 0 _ (by omega) (by omega)]

theorem circomH_king_view {dbg₀ : Bool} {b : Nat} {pp : PSS F} (hpp : PSS.new dbg₀ (2 ^ b) = .ok pp) (dbg : Bool) {a : Nat} (ha : a < 64)
    {dom dom2 : Domain F} (hdom : Domain.new (2 ^ (a + b)) = some dom) (hdom2 : Domain.new (2 ^ (a + b + 1)) = some dom2)
    {va vb vc : List F} {q : Nat → PackedQAPShare F} (hq : HoldsProgram pp a b dom q va vb vc) {rng : Nat → Nat → Nat → F}
    {t : Nat → VecTape F} {td : VecTape F} {masks : Nat → Nat → FftMask F} {dm : Nat → DegRedMask F}
    (hm : CircomSampled pp dbg dom2.groupGen dom t masks)
    (hd : DegRedMask.sample pp dbg (1 : F) (2 ^ a) td.vals td.rngIn td.rngOut = .ok ((List.range (4 * 2 ^ b)).map dm))
    {ea eb : Nat → List F}
    (hea : TransformsTo pp dbg b dom dom2.groupGen false .zero (fun p => (q p).a) (fun p => masks p 0) (fun p => masks p 3) (rng 0) (rng 3) ea)
    (heb : TransformsTo pp dbg b dom dom2.groupGen false .one (fun p => (q p).b) (fun p => masks p 1) (fun p => masks p 4) (rng 1) (rng 4) eb)
    {outs : Nat → List F} {views : Fin (4 * 2 ^ b) → Transcript}
    (hr : AlwaysYields (Net.init fun i : Fin (4 * 2 ^ b) => (pp.circomH dbg (4 * 2 ^ b) i (q i) (masks i) (dm i) rng).recorded)
      (fun i => (outs i, views i))) :
    ∃ (v sm : Nat → List F) (secM : Nat → List F),
      (views ⟨0, by positivity⟩).drop (6 * (4 * 2 ^ b)) = gathered (4 * 2 ^ b) v ∧
      pp.SharedVec (2 * pp.l) (2 ^ a) ea (packed false a b (cosetVals dom (2 ^ (a + b)) dom2.groupGen fun i => va.getD i 0)) ∧
      pp.SharedVec (2 * pp.l) (2 ^ a) eb (packed false a b (cosetVals dom (2 ^ (a + b)) dom2.groupGen fun i => vb.getD i 0)) ∧
      pp.SharedVec (2 * pp.l) (2 ^ a) sm secM ∧ (∀ p < 4 * 2 ^ b, (v p).length = 2 ^ a) ∧
      ∀ p < 4 * 2 ^ b, ∀ c < 2 ^ a, (v p).getD c 0 = (ea p).getD c 0 * (eb p).getD c 0 + (sm p).getD c 0 := by
  have hle := l_eq hpp
  have hg := PSS.good_of_new hpp
  have hN64 : 2 ^ a < 2 ^ 64 := Nat.pow_lt_pow_right (by omega) ha
  have hmasks := hm.eq hpp hdom
  obtain ⟨ea', eb', ec, w', k, -⟩ := stages_view hpp dbg a ha hdom _ _ _ dom2.groupGen false q (hq.shares hpp) rng t
  have ka := (hea.congr_masks (fun p hp => hmasks p hp 0 (by omega)) fun p hp => hmasks p hp 3 (by omega)).unique k.toA
  have kb := (heb.congr_masks (fun p hp => hmasks p hp 1 (by omega)) fun p hp => hmasks p hp 4 (by omega)).unique k.toB
  have hec := k.toC.congr_masks (fun p hp => (hmasks p hp 2 (by omega)).symm) fun p hp => (hmasks p hp 5 (by omega)).symm
  obtain ⟨w, r, outs', sec, h1, h2, h3, h4⟩ := circomH_split hpp dbg ha hdom hdom2 hq hm hd ⟨ea, eb, ec, hea, heb, hec, fun _ _ => rfl⟩ hr
  have hA := SharedVec.congr k.sharesA (fun p hp => (ka p (by rw [← hle]; exact hp)).symm) fun _ _ => rfl
  have hB := SharedVec.congr k.sharesB (fun p hp => (kb p (by rw [← hle]; exact hp)).symm) fun _ _ => rfl
  have hC := k.sharesC
  have hin : pp.SharedVec (2 * pp.l) (2 ^ a) (fun p => (pp.degDealt (2 ^ a) td p).inMask) (chunks pp.l td.vals) :=
    PSS.freshVec_shared hg (fun c _ => chunks_length _ _ _) _
  have hlen : ∀ p < 4 * 2 ^ b, (ea p).length = 2 ^ a ∧ (eb p).length = 2 ^ a ∧ (ec p).length = 2 ^ a ∧
      (pp.degDealt (2 ^ a) td p).inMask.length = 2 ^ a := by
    rw [← hle]
    exact fun p hp => ⟨hA.1 p hp, hB.1 p hp, hC.1 p hp, hin.1 p hp⟩
  refine ⟨fun p => addMask (List.zipWith (fun ab c => ab.1 * ab.2 - c) (List.zip (ea p) (eb p)) (ec p)) (pp.degDealt (2 ^ a) td p).inMask,
    _, _, ?_, hA, hB, SharedVec.sub hin hC, fun p hp => ?_, fun p hp c hc => ?_⟩
  · rw [h1, ← h2 ⟨0, by positivity⟩ rfl, List.drop_left]
    exact degRed_king_view hpp dbg (by positivity) hN64 h3 hd h4
  · obtain ⟨l1, l2, l3, l4⟩ := hlen p hp
    simp [addMask, l1, l2, l3, l4]
  · obtain ⟨l1, l2, l3, l4⟩ := hlen p hp
    unfold addMask diff
    rw [getD_zipWith _ _ _ _ 0 0 _ (by simp [l1, l2, l3, hc]) (by omega), getD_mulSub hc l1 l2 l3,
      getD_zipWith _ _ _ _ 0 0 _ (by dsimp only; omega) (by omega)]
    ring

/-- The `b` vector, computed from the `a` vector, the messages the king is sent in `circom_h`, and the shares `eas`, `ebs` of the
transformed vectors that `l` parties hold before the last step. -/
noncomputable def learnB (pp : PSS F) (a b : Nat) (dom dom2 : Domain F) (P : Fin (2 ^ b) → Nat) (tr : Transcript) (va : List F)
    (eas ebs : Fin (2 ^ b) → List F) : List F :=
  (List.range (2 ^ (a + b))).map <| cosetVals dom (2 ^ (a + b)) dom2.groupGen⁻¹ fun k =>
    learnFactor pp (2 ^ b) P (tr.drop (6 * (4 * 2 ^ b)))
      ((List.range (2 ^ (a + b))).map (cosetVals dom (2 ^ (a + b)) dom2.groupGen fun i => va.getD i 0)) eas ebs (k / 2 ^ b) (k % 2 ^ b)

theorem packed_false (a b : Nat) {N : Nat} (hN : N = 2 ^ (a + b)) (x : Nat → F) {c : Nat} (hc : c < 2 ^ a) :
    packed false a b x c = chunks (2 ^ b) (fun i => ((List.range N).map x).getD i 0) c := by
  rw [packed_congr false hc (y := fun i => ((List.range N).map x).getD i 0) fun i hi => by rw [getD_map_range, if_pos (by omega)]]
  simp [packed, chunks, slot]

/-- **C75** Who knows the `a` vector of a program learns the `b` vector from `circom_h`. The king, together with as many others that
`l` parties are known, needs only what they hold and what they are sent: from the messages of the last step, the shares of the transformed
vectors and the `a` vector a fixed function computes the `b` vector, whatever the masks. It needs that the shares of the transformed `a`
vector do not happen to have fewer than `2l` coefficients. -/
theorem C75_circom_h {dbg₀ : Bool} {b : Nat} {pp : PSS F} (hpp : PSS.new dbg₀ (2 ^ b) = .ok pp)
    (hgen : (FftField.GENERATOR : F) ^ (4 * 2 ^ b) ≠ 1) {a : Nat} (ha : a < 64) {dom dom2 : Domain F}
    (hdom : Domain.new (2 ^ (a + b)) = some dom) (hdom2 : Domain.new (2 ^ (a + b + 1)) = some dom2)
    (P : Fin (2 ^ b) → Nat) (hinj : Function.Injective P) (hlt : ∀ i, P i < 4 * 2 ^ b) :
    ∃ learn : Transcript → List F → (Fin (2 ^ b) → List F) → (Fin (2 ^ b) → List F) → List F,
      ∀ (dbg : Bool) (va vb vc : List F) (q : Nat → PackedQAPShare F), HoldsProgram pp a b dom q va vb vc →
      ∀ (rng : Nat → Nat → Nat → F) (t : Nat → VecTape F) (td : VecTape F) (masks : Nat → Nat → FftMask F) (dm : Nat → DegRedMask F),
        CircomSampled pp dbg dom2.groupGen dom t masks →
        DegRedMask.sample pp dbg (1 : F) (2 ^ a) td.vals td.rngIn td.rngOut = .ok ((List.range (4 * 2 ^ b)).map dm) →
      ∀ ea eb : Nat → List F,
        TransformsTo pp dbg b dom dom2.groupGen false .zero (fun p => (q p).a) (fun p => masks p 0) (fun p => masks p 3) (rng 0) (rng 3) ea →
        TransformsTo pp dbg b dom dom2.groupGen false .one (fun p => (q p).b) (fun p => masks p 1) (fun p => masks p 4) (rng 1) (rng 4) eb →
      ∀ (outs : Nat → List F) (views : Fin (4 * 2 ^ b) → Transcript),
        AlwaysYields (Net.init fun i : Fin (4 * 2 ^ b) => (pp.circomH dbg (4 * 2 ^ b) i (q i) (masks i) (dm i) rng).recorded)
          (fun i => (outs i, views i)) →
      (∀ c < 2 ^ a, ¬ ∃ secrets, Sharing pp.share.groupGen pp.secret.offset (2 ^ b) (2 * 2 ^ b - 1)
        ((List.range (4 * 2 ^ b)).map fun p => (ea p).getD c 0) secrets) →
      learn (views ⟨0, by positivity⟩) va (fun i => ea (P i)) (fun i => eb (P i)) = vb := by
  refine ⟨learnB pp a b dom dom2 P, fun dbg va vb vc q hq rng t td masks dm hm hd ea eb hea heb outs views hr hfull => ?_⟩
  have hle := l_eq hpp
  have hN64 : 2 ^ a < 2 ^ 64 := Nat.pow_lt_pow_right (by omega) ha
  obtain ⟨hwf, hoff, -, hsize⟩ := Domain.new_pow2 hdom
  obtain ⟨hwf2, -, -, -⟩ := Domain.new_pow2 hdom2
  have hroot : dom2.groupGen ≠ 0 := hwf2.prim.ne_zero hwf2.pos.ne'
  obtain ⟨v, sm, secM, h1, h2, h3, h4, h5, h6⟩ := circomH_king_view hpp dbg ha hdom hdom2 hq hm hd hea heb hr
  have h2 := SharedVec.congr h2 (fun _ _ => rfl) fun c hc => packed_false a b rfl _ hc
  have h3 := SharedVec.congr h3 (fun _ _ => rfl) fun c hc => packed_false a b rfl _ hc
  unfold PSS.SharedVec at h2 h3 h4
  rw [hle] at h2 h3 h4
  have hlb : vb.length = 2 ^ (a + b) := hq.vecB.1
  refine list_ext_getD 0 (by simp [learnB, hlb]) fun k hk => ?_
  have hk : k < 2 ^ (a + b) := by simpa [learnB] using hk
  rw [learnB, getD_map_range, if_pos hk, h1]
  rw [← hsize] at hk h2 h3 ⊢
  have hb0 : 0 < 2 ^ b := by positivity
  have key : ∀ j < dom.size, learnFactor pp (2 ^ b) P (gathered (4 * 2 ^ b) v)
      ((List.range dom.size).map (cosetVals dom dom.size dom2.groupGen fun i => va.getD i 0)) (fun i => ea (P i)) (fun i => eb (P i))
      (j / 2 ^ b) (j % 2 ^ b) = cosetVals dom dom.size dom2.groupGen (fun i => vb.getD i 0) j := by
    intro j hj
    have hc : j / 2 ^ b < 2 ^ a := by
      rw [Nat.div_lt_iff_lt_mul hb0, ← pow_add, ← hsize]
      exact hj
    rw [learnFactor_eq hpp hgen P hinj hlt hN64 h2 h3 h4 h5 h6 hc (fun h => hfull _ hc ⟨_, h⟩) (Nat.mod_lt _ hb0), Nat.div_add_mod',
      getD_map_range, if_pos hj]
  rw [cosetVals_congr key, cosetVals_back hwf hoff hroot _ hk]

/-! ### `libsnark_h` -/

theorem packed_inj {T : Type} {rev : Bool} {a b : Nat} {x y : Nat → T} (h : ∀ c < 2 ^ a, packed rev a b x c = packed rev a b y c) :
    ∀ k < 2 ^ (a + b), x k = y k := by
  have key : ∀ c < 2 ^ a, ∀ j < 2 ^ b, x (slot rev a b c j) = y (slot rev a b c j) := by
    intro c hc j hj
    exact List.map_inj_left.1 (h c hc) j (List.mem_range.2 hj)
  intro k hk
  cases rev
  · have hb0 : 0 < 2 ^ b := by positivity
    have := key (k / 2 ^ b) (by rw [Nat.div_lt_iff_lt_mul hb0, ← pow_add]; exact hk) (k % 2 ^ b) (Nat.mod_lt _ hb0)
    simpa [slot, Nat.div_add_mod'] using this
  · have ha0 : 0 < 2 ^ a := by positivity
    have hr := bitRev_lt (a + b) k
    have := key (bitRev (a + b) k % 2 ^ a) (Nat.mod_lt _ ha0) (bitRev (a + b) k / 2 ^ a)
      (by rw [Nat.div_lt_iff_lt_mul ha0, ← pow_add, Nat.add_comm b a]; exact hr)
    rw [slot, if_pos rfl, Nat.mod_add_div', bitRev_bitRev _ _ hk] at this
    exact this

/-- Products with a common factor that has `2l` coefficients differ by more than `2l` coefficients, unless the other factors differ by a
constant. -/
theorem other_factor_unique {pp : PSS F} (hg : pp.Good) {l : Nat} (hle : pp.l = l) {N : Nat} {ea eb eb' ec ec' : Nat → List F}
    {sa sb sb' sc sc' D : Nat → List F}
    (ha : Spec.SharedVec pp.share.groupGen pp.secret.offset l (2 * l) N ea sa) (hb : Spec.SharedVec pp.share.groupGen pp.secret.offset l (2 * l) N eb sb)
    (hb' : Spec.SharedVec pp.share.groupGen pp.secret.offset l (2 * l) N eb' sb')
    (hc : Spec.SharedVec pp.share.groupGen pp.secret.offset l (2 * l) N ec sc)
    (hc' : Spec.SharedVec pp.share.groupGen pp.secret.offset l (2 * l) N ec' sc')
    (hD : Spec.SharedVec pp.share.groupGen pp.secret.offset l (2 * l) N (fun p => List.zipWith (· - ·)
      (List.zipWith (fun ab c => ab.1 * ab.2 - c) (List.zip (ea p) (eb p)) (ec p))
      (List.zipWith (fun ab c => ab.1 * ab.2 - c) (List.zip (ea p) (eb' p)) (ec' p))) D)
    (hfull : ∀ c < N, ¬ ∃ secrets, Sharing pp.share.groupGen pp.secret.offset l (2 * l - 1) ((List.range (4 * l)).map fun p => (ea p).getD c 0)
      secrets) {i : Nat} (hi : i < 4 * l) (hP : eb i = eb' i) : ∀ c < N, sb c = sb' c := by
  subst hle
  have hl := hg.lpos
  intro c hcN
  obtain ⟨-, la, f, hf, f1, f2⟩ := sharing_iff_poly.1 (ha.2 c hcN)
  obtain ⟨-, lb, h, hh, h1, h2⟩ := sharing_iff_poly.1 (hb.2 c hcN)
  obtain ⟨-, lb', h', hh', h1', h2'⟩ := sharing_iff_poly.1 (hb'.2 c hcN)
  obtain ⟨-, -, m, hm, m1, -⟩ := sharing_iff_poly.1 (hc.2 c hcN)
  obtain ⟨-, -, m', hm', m1', -⟩ := sharing_iff_poly.1 (hc'.2 c hcN)
  obtain ⟨-, -, d, hd, d1, -⟩ := sharing_iff_poly.1 (hD.2 c hcN)
  have hlead : f.coeff (2 * pp.l - 1) ≠ 0 := by
    intro h0
    refine hfull c hcN ⟨sa c, sharing_iff_poly.2 ⟨by simp, la, f, ?_, f1, f2⟩⟩
    rw [degree_lt_iff_coeff_zero] at hf ⊢
    intro n hn
    by_cases hn' : n = 2 * pp.l - 1
    · rw [hn', h0]
    · exact hf n (by omega)
  have hneg : ∀ {u : F[X]}, u.degree < (2 * pp.l : Nat) → (-u).degree < (2 * pp.l : Nat) := fun hu => by rwa [degree_neg]
  have hlen : ∀ p < 4 * pp.l, (ea p).length = N ∧ (eb p).length = N ∧ (ec p).length = N ∧ (eb' p).length = N ∧ (ec' p).length = N :=
    fun p hp => ⟨ha.1 p hp, hb.1 p hp, hc.1 p hp, hb'.1 p hp, hc'.1 p hp⟩
  obtain ⟨κ, hκ⟩ := factor_revealed hg rfl hf hlead hh (hneg hm)
    (col := (List.range (4 * pp.l)).map fun p => (ea p).getD c 0 * (eb p).getD c 0 - (ec p).getD c 0) fun p hp => by
      have a1 := f1 p hp
      have a2 := h1 p hp
      have a3 := m1 p hp
      rw [getD_map_range, if_pos hp] at a1 a2 a3
      rw [getD_map_range, if_pos hp, a1, a2, a3, eval_neg]
      ring
  obtain ⟨κ', hκ'⟩ := factor_revealed hg rfl hf hlead hh' (m := d - m') (lt_of_le_of_lt (degree_sub_le _ _) (max_lt hd hm'))
    (col := (List.range (4 * pp.l)).map fun p => (ea p).getD c 0 * (eb p).getD c 0 - (ec p).getD c 0) fun p hp => by
      obtain ⟨l1, l2, l3, l4, l5⟩ := hlen p hp
      have a1 := f1 p hp
      have a2 := h1' p hp
      have a3 := m1' p hp
      have a4 := d1 p hp
      rw [getD_map_range, if_pos hp] at a1 a2 a3 a4
      rw [getD_zipWith _ _ _ _ 0 0 _ (by simp [l1, l2, l3, hcN]) (by simp [l1, l4, l5, hcN]), getD_mulSub hcN l1 l2 l3, getD_mulSub hcN l1 l4 l5] at a4
      rw [getD_map_range, if_pos hp, eval_sub, ← a1, ← a2, ← a3, ← a4]
      ring
  have hk : h + C κ = h' + C κ' := hκ.symm.trans hκ'
  have hpt : h.eval (pp.share.groupGen ^ i) = h'.eval (pp.share.groupGen ^ i) := by
    have a1 := h1 i hi
    have a2 := h1' i hi
    rw [getD_map_range, if_pos hi] at a1 a2
    rw [← a1, ← a2, hP]
  have hκκ : κ = κ' := by
    have := congrArg (Polynomial.eval (pp.share.groupGen ^ i)) hk
    rw [eval_add, eval_add, eval_C, eval_C, hpt] at this
    exact add_left_cancel this
  rw [hκκ] at hk
  have hhh : h = h' := add_right_cancel hk
  refine list_ext_getD 0 (by rw [lb, lb']) fun j hj => ?_
  rw [h2 j (by omega), h2' j (by omega), hhh]

/-- **C75** `libsnark_h`: the same, as far as the information goes. If the king is sent the same bytes in two runs on programs with the same
`a` vector, with any masks and any randomness, and `l` parties hold the same shares of the transformed vectors before the last step, then
the programs have the same `b` vector. -/
theorem C75_libsnark_h {dbg₀ : Bool} {b : Nat} {pp : PSS F} (hpp : PSS.new dbg₀ (2 ^ b) = .ok pp)
    (hgen : (FftField.GENERATOR : F) ^ (4 * 2 ^ b) ≠ 1) (dbg : Bool) {a : Nat} (ha : a < 64) {dom : Domain F}
    (hdom : Domain.new (2 ^ (a + b)) = some dom) (hcos : ∃ x : F, x ≠ 0 ∧ x ^ 2 ^ (a + b) ≠ 1)
    (P : Fin (2 ^ b) → Nat) (hinj : Function.Injective P) (hlt : ∀ i, P i < 4 * 2 ^ b)
    {va vb vc vb' vc' : List F} {q q' : Nat → PackedQAPShare F} (hq : HoldsProgram pp a b dom q va vb vc)
    (hq' : HoldsProgram pp a b dom q' va vb' vc') {rng rng' : Nat → Nat → Nat → F} {t t' : Nat → VecTape F}
    {masks masks' : Nat → Nat → FftMask F}
    (hm : LibsnarkSampled pp dbg dom t masks) (hm' : LibsnarkSampled pp dbg dom t' masks') {ea eb ea' eb' : Nat → List F}
    (hea : TransformsTo pp dbg b dom FftField.GENERATOR true .zero (fun p => (q p).a) (fun p => masks p 0) (fun p => masks p 3) (rng 0) (rng 3) ea)
    (heb : TransformsTo pp dbg b dom FftField.GENERATOR true .one (fun p => (q p).b) (fun p => masks p 1) (fun p => masks p 4) (rng 1) (rng 4) eb)
    (hea' : TransformsTo pp dbg b dom FftField.GENERATOR true .zero (fun p => (q' p).a) (fun p => masks' p 0) (fun p => masks' p 3)
      (rng' 0) (rng' 3) ea')
    (heb' : TransformsTo pp dbg b dom FftField.GENERATOR true .one (fun p => (q' p).b) (fun p => masks' p 1) (fun p => masks' p 4)
      (rng' 1) (rng' 4) eb')
    {outs outs' : Nat → List F} {views views' : Fin (4 * 2 ^ b) → Transcript}
    (hr : AlwaysYields (Net.init fun i : Fin (4 * 2 ^ b) => (pp.libsnarkH dbg (4 * 2 ^ b) i (q i) (masks i) rng).recorded)
      (fun i => (outs i, views i)))
    (hr' : AlwaysYields (Net.init fun i : Fin (4 * 2 ^ b) => (pp.libsnarkH dbg (4 * 2 ^ b) i (q' i) (masks' i) rng').recorded)
      (fun i => (outs' i, views' i)))
    (hfull : ∀ c < 2 ^ a, ¬ ∃ secrets, Sharing pp.share.groupGen pp.secret.offset (2 ^ b) (2 * 2 ^ b - 1)
      ((List.range (4 * 2 ^ b)).map fun p => (ea p).getD c 0) secrets)
    (hv : ∀ i, i.val = 0 → views i = views' i) (hPa : ∀ i, ea (P i) = ea' (P i)) (hPb : ∀ i, eb (P i) = eb' (P i)) : vb = vb' := by
  have hle := l_eq hpp
  have hg := PSS.good_of_new hpp
  obtain ⟨hwf, hoff, -, hsize⟩ := Domain.new_pow2 hdom
  have hm6 : ∀ p < 4 * 2 ^ b, ∀ k < 6, masks p k = stageMasks pp a b FftField.GENERATOR true dom t p k := fun p hp k hk => by
    rw [hm.eq hpp hdom p hp k (by omega), stageMasks_libsnark _ _ _ _ _ _ _ hk]
  have hm6' : ∀ p < 4 * 2 ^ b, ∀ k < 6, masks' p k = stageMasks pp a b FftField.GENERATOR true dom t' p k := fun p hp k hk => by
    rw [hm'.eq hpp hdom p hp k (by omega), stageMasks_libsnark _ _ _ _ _ _ _ hk]
  -- what the transforms give
  have one : ∀ {vb vc : List F} {q : Nat → PackedQAPShare F} {rng : Nat → Nat → Nat → F} {t : Nat → VecTape F}
      {masks : Nat → Nat → FftMask F} {ea eb : Nat → List F}, HoldsProgram pp a b dom q va vb vc →
      (∀ p < 4 * 2 ^ b, ∀ k < 6, masks p k = stageMasks pp a b FftField.GENERATOR true dom t p k) →
      TransformsTo pp dbg b dom FftField.GENERATOR true .zero (fun p => (q p).a) (fun p => masks p 0) (fun p => masks p 3) (rng 0) (rng 3) ea →
      TransformsTo pp dbg b dom FftField.GENERATOR true .one (fun p => (q p).b) (fun p => masks p 1) (fun p => masks p 4) (rng 1) (rng 4) eb →
      ∃ (ec : Nat → List F) (sc : Nat → List F),
        pp.SharedVec (2 * pp.l) (2 ^ a) ea (packed true a b (cosetVals dom (2 ^ (a + b)) FftField.GENERATOR fun i => va.getD i 0)) ∧
        pp.SharedVec (2 * pp.l) (2 ^ a) eb (packed true a b (cosetVals dom (2 ^ (a + b)) FftField.GENERATOR fun i => vb.getD i 0)) ∧
        pp.SharedVec (2 * pp.l) (2 ^ a) ec sc ∧
        EvaluatesTo pp dbg b dom FftField.GENERATOR true q masks rng
          fun p => List.zipWith (fun ab c => ab.1 * ab.2 - c) (List.zip (ea p) (eb p)) (ec p) := by
    intro vb vc q rng t masks ea eb hq hmasks hea heb
    obtain ⟨ea', eb', ec, w', k, -⟩ := stages_view hpp dbg a ha hdom _ _ _ FftField.GENERATOR true q (hq.shares hpp) rng t
    have ka := (hea.congr_masks (fun p hp => hmasks p hp 0 (by omega)) fun p hp => hmasks p hp 3 (by omega)).unique k.toA
    have kb := (heb.congr_masks (fun p hp => hmasks p hp 1 (by omega)) fun p hp => hmasks p hp 4 (by omega)).unique k.toB
    have hec := k.toC.congr_masks (fun p hp => (hmasks p hp 2 (by omega)).symm) fun p hp => (hmasks p hp 5 (by omega)).symm
    exact ⟨ec, _, SharedVec.congr k.sharesA (fun p hp => (ka p (by rw [← hle]; exact hp)).symm) fun _ _ => rfl,
      SharedVec.congr k.sharesB (fun p hp => (kb p (by rw [← hle]; exact hp)).symm) fun _ _ => rfl, k.sharesC,
      ea, eb, ec, hea, heb, hec, fun _ _ => rfl⟩
  obtain ⟨ec, sc, hA, hB, hC, hE⟩ := one hq hm6 hea heb
  obtain ⟨ec', sc', hA', hB', hC', hE'⟩ := one hq' hm6' hea' heb'
  obtain ⟨D, hD⟩ := C62_libsnark_h_leaks hpp dbg a ha hdom hcos hq hq' hm hm' hE hE' hr hr' hv
  have haa := SharedVec.agree hg hle (by rwa [offset_eq hpp]) hA hA' P hinj hlt hPa
  rw [← hle] at hD
  have hD : Spec.SharedVec pp.share.groupGen pp.secret.offset pp.l (2 * pp.l) (2 ^ a) (fun p => List.zipWith (· - ·)
      (List.zipWith (fun ab c => ab.1 * ab.2 - c) (List.zip (ea p) (eb p)) (ec p))
      (List.zipWith (fun ab c => ab.1 * ab.2 - c) (List.zip (ea p) (eb' p)) (ec' p))) D :=
    SharedVec.congr (pp := pp) hD (fun p hp => by rw [haa p hp]) fun _ _ => rfl
  rw [← hle] at hfull
  have hsec := other_factor_unique hg rfl hA hB hB' hC hC' hD hfull (i := P ⟨0, by positivity⟩) (by rw [hle]; exact hlt _) (hPb _)
  -- the values on the coset agree, so the values on the domain do
  have hcoset : ∀ k < 2 ^ (a + b), cosetVals dom (2 ^ (a + b)) FftField.GENERATOR (fun i => vb.getD i 0) k =
      cosetVals dom (2 ^ (a + b)) FftField.GENERATOR (fun i => vb'.getD i 0) k :=
    packed_inj hsec
  have hgne : (FftField.GENERATOR : F) ≠ 0 := by rw [← offset_eq hpp]; exact hg.secret_wf.offne
  have lb : vb.length = 2 ^ (a + b) := hq.vecB.1
  have lb' : vb'.length = 2 ^ (a + b) := hq'.vecB.1
  refine list_ext_getD 0 (by rw [lb, lb']) fun k hk => ?_
  rw [lb, ← hsize] at hk
  rw [← hsize] at hcoset
  rw [← cosetVals_back hwf hoff hgne (fun i => vb.getD i 0) hk, cosetVals_congr hcoset, cosetVals_back hwf hoff hgne _ hk]

/-! ### The condition almost always holds -/

/-- Fresh sharings added to a fixed vector almost never have fewer than `2l` coefficients. -/
theorem fresh_full_degree {pp : PSS F} (hg : pp.Good) {l : Nat} (hle : pp.l = l) [Finite F] {secrets : List F} (hs : secrets.length = l)
    (base : Nat → F) :
    Nat.card F * Nat.card {τ : Fin l → F // ∃ sec, Sharing pp.share.groupGen pp.secret.offset l (2 * l - 1)
      ((List.range (4 * l)).map fun p => base p + (pp.share.fft (pp.packCoeffs secrets (ext τ))).getD p 0) sec} ≤ Nat.card (Fin l → F) := by
  subst hle
  have hl := hg.lpos
  let z : Fin pp.l := ⟨0, hl⟩
  -- the sharing polynomial of a packing
  let T : (Fin pp.l → F) → F[X] := fun τ => toPoly (pp.packCoeffs secrets (ext τ))
  have T0 : ∀ τ, (T τ).degree < (2 * pp.l : Nat) := fun τ => by
    refine lt_of_lt_of_le (toPoly_degree_lt _) ?_
    rw [PSS.packCoeffs, Domain.ifft_length, hg.secret_size]
  have T1 : ∀ τ, ∀ p < 4 * pp.l, (T τ).eval (pp.share.groupGen ^ p) = (pp.share.fft (pp.packCoeffs secrets (ext τ))).getD p 0 := by
    intro τ p hp
    rw [PSS.fft_share hg (d := 2 * pp.l) (by simp [PSS.packCoeffs, hg.secret_size]) (by omega) hp, toPoly_eval,
      PSS.packCoeffs, Domain.ifft_length, hg.secret_size]
    rfl
  have T2 : ∀ τ, ∀ i < 2 * pp.l, (T τ).eval (pp.secret.element i) = (secrets ++ (List.range pp.t).map (ext τ)).getD i 0 := by
    intro τ i hi
    have := Domain.eval_ifft hg.secret_wf (secrets ++ (List.range pp.t).map (ext τ)) (i := i) (by rw [hg.secret_size]; omega)
    rw [← this, toPoly_eval, PSS.packCoeffs, Domain.ifft_length]
    rfl
  have hnode : Set.InjOn pp.secret.element (Finset.range (2 * pp.l)) := by
    intro i hi j hj h
    have hi := Finset.mem_range.1 hi
    have hj := Finset.mem_range.1 hj
    unfold Domain.element at h
    exact hg.secret_wf.prim.pow_inj (by rw [hg.secret_size]; exact hi) (by rw [hg.secret_size]; exact hj)
      (mul_left_cancel₀ hg.secret_wf.offne h)
  -- two such tapes that differ in the first value only are equal
  have uniq : ∀ τ τ' : Fin pp.l → F,
      (∃ sec, Sharing pp.share.groupGen pp.secret.offset pp.l (2 * pp.l - 1)
        ((List.range (4 * pp.l)).map fun p => base p + (pp.share.fft (pp.packCoeffs secrets (ext τ))).getD p 0) sec) →
      (∃ sec, Sharing pp.share.groupGen pp.secret.offset pp.l (2 * pp.l - 1)
        ((List.range (4 * pp.l)).map fun p => base p + (pp.share.fft (pp.packCoeffs secrets (ext τ'))).getD p 0) sec) →
      (∀ i, i ≠ z → τ i = τ' i) → τ = τ' := by
    rintro τ τ' ⟨sec, h⟩ ⟨sec', h'⟩ hag
    obtain ⟨-, -, p, hp, h1, -⟩ := sharing_iff_poly.1 h
    obtain ⟨-, -, p', hp', h1', -⟩ := sharing_iff_poly.1 h'
    have small : (2 * pp.l - 1 : Nat) ≤ 4 * pp.l := by omega
    have hD : T τ - T τ' = p - p' := by
      apply eq_of_degrees_lt_of_eval_index_eq (s := Finset.range (4 * pp.l))
        (v := fun i => pp.share.groupGen ^ i) (share_points_injOn hg)
      · rw [Finset.card_range]
        refine lt_of_lt_of_le (lt_of_le_of_lt (degree_sub_le _ _) (max_lt (T0 τ) (T0 τ'))) ?_
        exact_mod_cast (by omega : 2 * pp.l ≤ 4 * pp.l)
      · rw [Finset.card_range]
        refine lt_of_lt_of_le (lt_of_le_of_lt (degree_sub_le _ _) (max_lt hp hp')) ?_
        exact_mod_cast small
      · intro i hi
        have hi := Finset.mem_range.1 hi
        have a1 := h1 i hi
        have a2 := h1' i hi
        rw [getD_map_range, if_pos hi, ← T1 τ i hi] at a1
        rw [getD_map_range, if_pos hi, ← T1 τ' i hi] at a2
        rw [eval_sub, eval_sub, ← a1, ← a2]
        ring
    have hz : T τ - T τ' = 0 := by
      refine eq_of_degrees_lt_of_eval_index_eq (s := (Finset.range (2 * pp.l)).erase pp.l) (v := pp.secret.element)
        (hnode.mono (by exact_mod_cast Finset.erase_subset _ _)) ?_ ?_ ?_
      · rw [Finset.card_erase_of_mem (Finset.mem_range.2 (by omega)), Finset.card_range, hD]
        exact lt_of_le_of_lt (degree_sub_le _ _) (max_lt hp hp')
      · rw [Finset.card_erase_of_mem (Finset.mem_range.2 (by omega)), Finset.card_range, degree_zero]
        exact WithBot.bot_lt_coe _
      · intro i hi
        obtain ⟨hi0, hi⟩ := Finset.mem_erase.1 hi
        have hi := Finset.mem_range.1 hi
        rw [eval_sub, T2 τ i hi, T2 τ' i hi, getD_append', getD_append', eval_zero]
        split
        · ring
        · next hil =>
          have hj : i - secrets.length < pp.l := by omega
          rw [getD_map_range, getD_map_range, if_pos (by rw [hg.t_eq]; exact hj), if_pos (by rw [hg.t_eq]; exact hj), ext_fin _ hj, ext_fin _ hj,
            hag _ fun e => hi0 (by have := congrArg Fin.val e; simp only [z] at this; omega), sub_self]
    funext i
    have h1 := T2 τ (pp.l + i) (by omega)
    have h2 := T2 τ' (pp.l + i) (by omega)
    rw [getD_append', if_neg (by omega), hs, Nat.add_sub_cancel_left, getD_map_range, if_pos (by rw [hg.t_eq]; omega), ext_fin _ i.2] at h1 h2
    rw [← h1, ← h2, sub_eq_zero.1 hz]
  rw [← Nat.card_prod]
  refine Nat.card_le_card_of_injective (fun q => Function.update q.2.1 z (q.2.1 z + q.1)) ?_
  rintro ⟨a, τ, h⟩ ⟨a', τ', h'⟩ e
  dsimp only at e
  obtain rfl : τ = τ' := uniq τ τ' h h' fun i hi => by
    have := congrFun e i
    rwa [Function.update_of_ne hi, Function.update_of_ne hi] at this
  have := congrFun e z
  rw [Function.update_self, Function.update_self] at this
  rw [add_left_cancel this]

/-- The outputs of `d_fft` are the king's answers plus the second half of the masks; the answers do not depend on how that was packed. -/
theorem dFft_outs {dbg₀ : Bool} {b : Nat} {pp : PSS F} (hpp : PSS.new dbg₀ (2 ^ b) = .ok pp) (dbg : Bool) {a : Nat} (ha : a < 64)
    {dom : Domain F} (hdom : Domain.new (2 ^ (a + b)) = some dom) (x : Nat → F) (re : Bool) {sh : Nat → List F}
    (hsh : pp.SharedVec (4 * pp.l - 1) (2 ^ a) sh (packed true a b x)) (t : VecTape F) (sid : Sid) (rng : Nat → Nat → F) :
    ∃ (ans : Nat → List F) (sec : Nat → List F), (∀ p, (ans p).length = 2 ^ a) ∧ (∀ c < 2 ^ a, (sec c).length = pp.l) ∧ ∀ rngOut,
      AlwaysYields (Net.init fun i : Fin (4 * 2 ^ b) =>
        pp.dFft dbg (4 * 2 ^ b) i (sh i) (pp.fftDealt a b re 1 dom.groupGen ⟨t.vals, t.rngIn, rngOut⟩ i) re dom sid rng)
        (fun i => addMask (ans i) (pp.freshVec (2 ^ a) sec rngOut i)) := by
  have hle := l_eq hpp
  have hg := PSS.good_of_new hpp
  have hl := hg.lpos
  obtain ⟨hwf, -, -, hsize⟩ := Domain.new_pow2 hdom
  have hprim : IsPrimitiveRoot dom.groupGen (2 ^ (a + b)) := by rw [← hsize]; exact hwf.prim
  obtain ⟨px, e1, hpx⟩ := PSS.fft1_shared hle hprim x hsh
  refine ⟨pp.freshVec (2 ^ a) (pp.finishSec a b (kingVec a b dom.groupGen (bp fun i => x (bitRev (a + b) i)) t.vals) 1 dom.groupGen re id) rng,
    pp.finishSec a b ((List.range (2 ^ (a + b))).map t.vals) 1 dom.groupGen re fun x => -x, fun p => PSS.freshVec_length _ _ _ _ _,
    fun c hc => by rw [PSS.finishSec_length hle hprim (by simp) _ _ _ hc, hle], fun rngOut => ?_⟩
  obtain ⟨r, -⟩ := PSS.fft2_view (n := 4 * 2 ^ b) hg dbg (by rw [hle]) ha hle hprim (bp (fun i => x (bitRev (a + b) i))) (fun _ _ _ _ => rfl)
    (by omega) le_rfl hpx 1 re ⟨t.vals, t.rngIn, rngOut⟩ sid rng
  refine AlwaysYields.of_recorded ((r.congr (ps' := fun i : Fin (4 * 2 ^ b) =>
    pp.dFft dbg (4 * 2 ^ b) i (sh i) (pp.fftDealt a b re 1 dom.groupGen ⟨t.vals, t.rngIn, rngOut⟩ i) re dom sid rng) (fun i => ?_)
    (fun _ => rfl) (fun _ => rfl)).alwaysYields fun i => PSS.dFft_wf _ (by positivity) _ _ _ _ _ _ _)
  have hi : i.val < 4 * pp.l := by omega
  unfold PSS.dFft
  rw [debugAssert_of (by rw [hsh.1 i hi, hle, hsize, pow_add]; simp), e1 i hi]
  rfl

/-- If of the values of every row at most one in `k` is bad, at most `N` in `k` of the tables with `N` rows have a bad row. -/
theorem card_bad_rows {τ κ : Type} [Finite τ] [Finite κ] {N : Nat} (bad : Nat → τ → Prop)
    (h : ∀ c < N, Nat.card κ * Nat.card {x : τ // bad c x} ≤ Nat.card τ) :
    Nat.card κ * Nat.card {ρ : Fin N → τ // ∃ c, bad c.val (ρ c)} ≤ N * Nat.card (Fin N → τ) := by
  classical
  have := Fintype.ofFinite τ
  have := Fintype.ofFinite κ
  have one : ∀ c : Fin N, Nat.card κ * Nat.card {ρ : Fin N → τ // bad c.val (ρ c)} ≤ Nat.card (Fin N → τ) := by
    intro c
    have hc := h c c.2
    rw [← Nat.card_prod, Nat.card_eq_fintype_card, Nat.card_eq_fintype_card] at hc
    obtain ⟨g⟩ := Function.Embedding.nonempty_of_card_le hc
    rw [← Nat.card_prod]
    refine Nat.card_le_card_of_injective (fun q => Function.update q.2.1 c (g (q.1, ⟨q.2.1 c, q.2.2⟩))) ?_
    rintro ⟨k, ρ, hρ⟩ ⟨k', ρ', hρ'⟩ e
    dsimp only at e
    have e1 := congrFun e c
    rw [Function.update_self, Function.update_self] at e1
    have e1 := Prod.mk.inj (g.injective e1)
    obtain rfl := e1.1
    have e2 := Subtype.mk.inj e1.2
    have : ρ = ρ' := by
      funext d
      by_cases hd : d = c
      · rw [hd, e2]
      · have := congrFun e d
        rwa [Function.update_of_ne hd, Function.update_of_ne hd] at this
    subst this
    rfl
  have hle : Nat.card {ρ : Fin N → τ // ∃ c, bad c.val (ρ c)} ≤ ∑ c : Fin N, Nat.card {ρ : Fin N → τ // bad c.val (ρ c)} := by
    rw [← Nat.card_sigma]
    refine Nat.card_le_card_of_injective (fun ρ => ⟨ρ.2.choose, ρ.1, ρ.2.choose_spec⟩) ?_
    rintro ⟨ρ, h⟩ ⟨ρ', h'⟩ e
    have e := Sigma.mk.inj e
    obtain ⟨e1, e2⟩ := e
    refine Subtype.ext ?_
    dsimp only at e1 e2 ⊢
    generalize_proofs p1 p2 at e2
    revert p1 p2
    rw [e1]
    intro p1 p2 e2
    exact Subtype.mk.inj (eq_of_heq e2)
  refine le_trans (Nat.mul_le_mul_left _ hle) ?_
  rw [Finset.mul_sum]
  refine le_trans (Finset.sum_le_sum fun c _ => one c) ?_
  simp

theorem full_degree {dbg₀ : Bool} {b : Nat} {pp : PSS F} (hpp : PSS.new dbg₀ (2 ^ b) = .ok pp) [Finite F] (dbg : Bool) {a : Nat} (ha : a < 64)
    {dom : Domain F} (hdom : Domain.new (2 ^ (a + b)) = some dom) (root : F) (re : Bool) {va vb vc : List F} {q : Nat → PackedQAPShare F}
    (hq : HoldsProgram pp a b dom q va vb vc) (rng : Nat → Nat → Nat → F) (t : Nat → VecTape F)
    (sampled : (Nat → VecTape F) → (Nat → Nat → FftMask F) → Prop)
    (hsampled : ∀ t masks, sampled t masks → ∀ p < 4 * 2 ^ b, ∀ k < 6, masks p k = stageMasks pp a b root re dom t p k) :
    Nat.card F * Nat.card {ρ : Fin (2 ^ a) → Fin (2 ^ b) → F // ∃ (masks : Nat → Nat → FftMask F) (ea : Nat → List F),
      sampled (Function.update t 3 ⟨(t 3).vals, (t 3).rngIn, ext2 ρ⟩) masks ∧
      TransformsTo pp dbg b dom root re .zero (fun p => (q p).a) (fun p => masks p 0) (fun p => masks p 3) (rng 0) (rng 3) ea ∧
      ∃ c < 2 ^ a, ∃ secrets, Sharing pp.share.groupGen pp.secret.offset (2 ^ b) (2 * 2 ^ b - 1)
        ((List.range (4 * 2 ^ b)).map fun p => (ea p).getD c 0) secrets} ≤
      2 ^ a * Nat.card (Fin (2 ^ a) → Fin (2 ^ b) → F) := by
  have hle := l_eq hpp
  have hg := PSS.good_of_new hpp
  have hl := hg.lpos
  obtain ⟨hwf, -, -, hsize⟩ := Domain.new_pow2 hdom
  have hprim' : IsPrimitiveRoot dom.groupGenInv (2 ^ (a + b)) := by rw [hwf.ginv, ← hsize]; exact hwf.prim.inv
  obtain ⟨-, hA, -, -⟩ := hq.shares hpp
  obtain ⟨o, _, r, h2⟩ := PSS.dIfft_view (n := 4 * 2 ^ b) hg dbg (by rw [hle]) ha hle hsize hprim' _ root true
    (SharedVec.mono (by omega) hA) (t 0) .zero (rng 0)
  have r := AlwaysYields.of_recorded (r.alwaysYields fun i => PSS.dIfft_wf _ (by positivity) _ _ _ _ _ _ _ _)
  obtain ⟨ans, sec, l1, l2, ho⟩ := dFft_outs hpp dbg ha hdom _ re (SharedVec.mono (by omega) h2) (t 3) .zero (rng 3)
  have hbad := card_bad_rows (N := 2 ^ a) (κ := F) (τ := Fin (2 ^ b) → F) (fun c τ => ∃ s, Sharing pp.share.groupGen pp.secret.offset (2 ^ b)
    (2 * 2 ^ b - 1) ((List.range (4 * 2 ^ b)).map fun p => (ans p).getD c 0 + (pp.share.fft (pp.packCoeffs (sec c) (ext τ))).getD p 0) s)
    fun c hc => fresh_full_degree hg hle (secrets := sec c) (by rw [l2 c hc, hle]) fun p => (ans p).getD c 0
  refine le_trans (Nat.mul_le_mul_left _ (Nat.card_le_card_of_injective (Subtype.map id ?_) (Subtype.map_injective _ Function.injective_id))) hbad
  rintro ρ ⟨masks, ea, hm, ⟨o', k1, k2⟩, c, hc, secrets, hs⟩
  have hmasks := hsampled _ _ hm
  have m0 : ∀ p < 4 * 2 ^ b, masks p 0 = pp.fftDealt a b true root dom.groupGenInv (t 0) p := fun p hp => by
    rw [hmasks p hp 0 (by omega), stageMasks, if_pos (by omega), Function.update_of_ne (by omega)]
  have m3 : ∀ p < 4 * 2 ^ b, masks p 3 = pp.fftDealt a b re 1 dom.groupGen ⟨(t 3).vals, (t 3).rngIn, ext2 ρ⟩ p := fun p hp => by
    rw [hmasks p hp 3 (by omega), stageMasks, if_neg (by omega), Function.update_self]
  have e1 : ∀ i : Fin (4 * 2 ^ b), o' i = o i := by
    simp only [fun i : Fin (4 * 2 ^ b) => m0 i i.2] at k1
    exact fun i => congrFun (AlwaysYields.unique k1 r) i
  have e2 : ∀ i : Fin (4 * 2 ^ b), ea i = addMask (ans i) (pp.freshVec (2 ^ a) sec (ext2 ρ) i) := by
    simp only [fun i : Fin (4 * 2 ^ b) => m3 i i.2, e1] at k2
    exact fun i => congrFun (AlwaysYields.unique k2 (ho _)) i
  refine ⟨⟨c, hc⟩, secrets, ?_⟩
  dsimp only [id]
  rw [show ((List.range (4 * 2 ^ b)).map fun p => (ans p).getD c 0 + (pp.share.fft (pp.packCoeffs (sec c) (ext (ρ ⟨c, hc⟩)))).getD p 0) =
    (List.range (4 * 2 ^ b)).map fun p => (ea p).getD c 0 from List.map_congr_left fun p hp => ?_]
  · exact hs
  · have hp := List.mem_range.1 hp
    have e3 : ext2 ρ c = ext (ρ ⟨c, hc⟩) := by
      funext j
      simp [ext2, hc]
    rw [e2 ⟨p, hp⟩]
    unfold addMask
    rw [getD_zipWith _ _ _ _ 0 0 _ (by rw [l1]; exact hc) (by rw [PSS.freshVec_length]; exact hc),
      PSS.freshVec_getD hg _ _ _ (by rw [hle]; exact hp) hc, e3]

/-- **C75** The condition almost always holds: with everything else fixed, of the tables of values the client draws to pack the mask of the
second transform of the `a` vector, at most `2^a` in `|F|` make the shares of some position have fewer than `2l` coefficients. -/
theorem C75_full_degree {dbg₀ : Bool} {b : Nat} {pp : PSS F} (hpp : PSS.new dbg₀ (2 ^ b) = .ok pp) [Finite F] (dbg : Bool) {a : Nat} (ha : a < 64)
    {dom dom2 : Domain F} (hdom : Domain.new (2 ^ (a + b)) = some dom) {va vb vc : List F} {q : Nat → PackedQAPShare F}
    (hq : HoldsProgram pp a b dom q va vb vc) (rng : Nat → Nat → Nat → F) (t : Nat → VecTape F) :
    Nat.card F * Nat.card {ρ : Fin (2 ^ a) → Fin (2 ^ b) → F // ∃ (masks : Nat → Nat → FftMask F) (ea : Nat → List F),
      CircomSampled pp dbg dom2.groupGen dom (Function.update t 3 ⟨(t 3).vals, (t 3).rngIn, ext2 ρ⟩) masks ∧
      TransformsTo pp dbg b dom dom2.groupGen false .zero (fun p => (q p).a) (fun p => masks p 0) (fun p => masks p 3) (rng 0) (rng 3) ea ∧
      ∃ c < 2 ^ a, ∃ secrets, Sharing pp.share.groupGen pp.secret.offset (2 ^ b) (2 * 2 ^ b - 1)
        ((List.range (4 * 2 ^ b)).map fun p => (ea p).getD c 0) secrets} ≤
      2 ^ a * Nat.card (Fin (2 ^ a) → Fin (2 ^ b) → F) :=
  full_degree hpp dbg ha hdom _ _ hq rng t (CircomSampled pp dbg dom2.groupGen dom) fun _ _ hm => hm.eq hpp hdom

/-- **C75** The same for `libsnark_h`. -/
theorem C75_full_degree_libsnark {dbg₀ : Bool} {b : Nat} {pp : PSS F} (hpp : PSS.new dbg₀ (2 ^ b) = .ok pp) [Finite F] (dbg : Bool) {a : Nat} (ha : a < 64)
    {dom : Domain F} (hdom : Domain.new (2 ^ (a + b)) = some dom) {va vb vc : List F} {q : Nat → PackedQAPShare F}
    (hq : HoldsProgram pp a b dom q va vb vc) (rng : Nat → Nat → Nat → F) (t : Nat → VecTape F) :
    Nat.card F * Nat.card {ρ : Fin (2 ^ a) → Fin (2 ^ b) → F // ∃ (masks : Nat → Nat → FftMask F) (ea : Nat → List F),
      LibsnarkSampled pp dbg dom (Function.update t 3 ⟨(t 3).vals, (t 3).rngIn, ext2 ρ⟩) masks ∧
      TransformsTo pp dbg b dom FftField.GENERATOR true .zero (fun p => (q p).a) (fun p => masks p 0) (fun p => masks p 3) (rng 0) (rng 3) ea ∧
      ∃ c < 2 ^ a, ∃ secrets, Sharing pp.share.groupGen pp.secret.offset (2 ^ b) (2 * 2 ^ b - 1)
        ((List.range (4 * 2 ^ b)).map fun p => (ea p).getD c 0) secrets} ≤
      2 ^ a * Nat.card (Fin (2 ^ a) → Fin (2 ^ b) → F) :=
  full_degree hpp dbg ha hdom _ _ hq rng t (LibsnarkSampled pp dbg dom) fun _ _ hm p hp k hk => by
    rw [hm.eq hpp hdom p hp k (by omega), stageMasks_libsnark _ _ _ _ _ _ _ hk]

theorem LibsnarkSampled.congr {pp : PSS F} {dbg : Bool} {dom : Domain F} {t t' : Nat → VecTape F} {masks : Nat → Nat → FftMask F}
    (h : LibsnarkSampled pp dbg dom t masks) (ht : ∀ k < 7, t k = t' k) : LibsnarkSampled pp dbg dom t' masks := by
  obtain ⟨h1, h2, h3⟩ := h
  refine ⟨fun k hk => ?_, fun k hk => ?_, ?_⟩
  · rw [← ht k (by omega)]; exact h1 k hk
  · rw [← ht (3 + k) (by omega)]; exact h2 k hk
  · rw [← ht 6 (by omega)]; exact h3

/-! ### Examples -/

/-- A table that is not bad. -/
theorem table17 (bad : (Fin (2 ^ 1) → Fin (2 ^ 1) → ZMod 17) → Prop)
    (h : Nat.card (ZMod 17) * Nat.card {ρ // bad ρ} ≤ 2 ^ 1 * Nat.card (Fin (2 ^ 1) → Fin (2 ^ 1) → ZMod 17)) : ∃ ρ, ¬ bad ρ := by
  by_contra hall
  rw [not_exists] at hall
  rw [Nat.card_congr (Equiv.subtypeUnivEquiv fun ρ => not_not.1 (hall ρ)), Nat.card_zmod] at h
  have hpos : 0 < Nat.card (Fin (2 ^ 1) → Fin (2 ^ 1) → ZMod 17) := Nat.card_pos
  omega

/-- The king and party 3, who know the vector `[3, 9, 1, 9]`, learn the `b` vector of whatever program `circom_h` is run on, for all but a few
of the masks; and there are such masks. -/
example : ∃ learn : Transcript → List (ZMod 17) → (Fin (2 ^ 1) → List (ZMod 17)) → (Fin (2 ^ 1) → List (ZMod 17)) → List (ZMod 17),
    ∀ (y₀ y₁ y₂ y₃ : ZMod 17) (t : Nat → VecTape (ZMod 17)) (td : VecTape (ZMod 17)), ∃ (q : Nat → PackedQAPShare (ZMod 17))
      (ρ : Nat → Nat → ZMod 17) (masks : Nat → Nat → FftMask (ZMod 17)) (dm : Nat → DegRedMask (ZMod 17)) (ea eb outs : Nat → List (ZMod 17))
      (views : Fin (4 * 2 ^ 1) → Transcript), HoldsProgram pp17 1 1 dom17 q [3, 9, 1, 9] [y₀, y₁, y₂, y₃] [9, 9, 0, 0] ∧
      CircomSampled pp17 true dom17b.groupGen dom17 (Function.update t 3 ⟨(t 3).vals, (t 3).rngIn, ρ⟩) masks ∧
      DegRedMask.sample pp17 true (1 : ZMod 17) (2 ^ 1) td.vals td.rngIn td.rngOut = .ok ((List.range (4 * 2 ^ 1)).map dm) ∧
      AlwaysYields (Net.init fun i : Fin (4 * 2 ^ 1) =>
        (pp17.circomH true (4 * 2 ^ 1) i (q i) (masks i) (dm i) fun _ i j => i + j).recorded) (fun i => (outs i, views i)) ∧
      TransformsTo pp17 true 1 dom17 dom17b.groupGen false .zero (fun p => (q p).a) (fun p => masks p 0) (fun p => masks p 3) (fun i j => i + j)
        (fun i j => i + j) ea ∧
      TransformsTo pp17 true 1 dom17 dom17b.groupGen false .one (fun p => (q p).b) (fun p => masks p 1) (fun p => masks p 4) (fun i j => i + j)
        (fun i j => i + j) eb ∧
      learn (views 0) [3, 9, 1, 9] (fun i => ea (king17 i)) (fun i => eb (king17 i)) = [y₀, y₁, y₂, y₃] := by
  obtain ⟨learn, hlearn⟩ := C75_circom_h (pp17_eq true) gen17 (a := 1) (by norm_num) dom17_eq dom17b_eq king17 king17_inj king17_lt
  refine ⟨learn, fun y₀ y₁ y₂ y₃ t td => ?_⟩
  obtain ⟨q, hq⟩ := program17 [3, 9, 1, 9] [y₀, y₁, y₂, y₃] [9, 9, 0, 0] rfl rfl rfl
  obtain ⟨ρ, hρ⟩ := table17 _ (C75_full_degree (pp17_eq true) true (a := 1) (by norm_num) dom17_eq (dom2 := dom17b) hq (fun _ i j => i + j) t)
  obtain ⟨q', hq', hP⟩ := program17_alike [3, 9, 1, 9] [y₀, y₁, y₂, y₃] [0, 0, 0, 1] rfl rfl rfl hq
  obtain ⟨δ, -, h⟩ := C62_circom_h (pp17_eq true) gen17 true 1 (by norm_num) dom17_eq dom17b_eq _ _ _ _ _ _ king17 king17_inj king17_lt
    q q' hq hq' hP fun _ i j => i + j
  obtain ⟨masks, masks', e, e', h1, h1', -, h2, h3, hs, hr⟩ := h (Function.update t 3 ⟨(t 3).vals, (t 3).rngIn, ext2 ρ⟩)
  obtain ⟨D, hD⟩ := hs rfl rfl
  obtain ⟨ε, hε⟩ := hr D hD
  obtain ⟨dm, dm', d1, d2, d3, outs, outs', views, r1, r2, r3⟩ := hε td
  obtain ⟨ea, eb, ec, ka, kb, -, -⟩ := h2
  have hl := hlearn true _ _ _ q hq (fun _ i j => i + j) _ td masks dm h1 d1 ea eb ka kb outs views r1
    fun c hc hsh => hρ ⟨masks, ea, h1, ka, c, hc, hsh⟩
  exact ⟨q, ext2 ρ, masks, dm, ea, eb, outs, views, hq, h1, d1, r1, ka, kb, hl⟩

/-- In `libsnark_h`, with all but a few of the masks, no other `b` vector gives the king the same bytes and the king and party 3 the same
shares. -/
example (y₀ y₁ y₂ y₃ : ZMod 17) (t : Nat → VecTape (ZMod 17)) : ∃ (q : Nat → PackedQAPShare (ZMod 17)) (ρ : Nat → Nat → ZMod 17)
    (masks : Nat → Nat → FftMask (ZMod 17)) (ea eb outs : Nat → List (ZMod 17)) (views : Fin (4 * 2 ^ 1) → Transcript),
    HoldsProgram pp17 1 1 dom17 q [3, 9, 1, 9] [y₀, y₁, y₂, y₃] [9, 9, 0, 0] ∧
    LibsnarkSampled pp17 true dom17 (Function.update t 3 ⟨(t 3).vals, (t 3).rngIn, ρ⟩) masks ∧
    TransformsTo pp17 true 1 dom17 FftField.GENERATOR true .zero (fun p => (q p).a) (fun p => masks p 0) (fun p => masks p 3)
      (fun i j => i + j) (fun i j => i + j) ea ∧
    TransformsTo pp17 true 1 dom17 FftField.GENERATOR true .one (fun p => (q p).b) (fun p => masks p 1) (fun p => masks p 4)
      (fun i j => i + j) (fun i j => i + j) eb ∧
    AlwaysYields (Net.init fun i : Fin (4 * 2 ^ 1) =>
      (pp17.libsnarkH true (4 * 2 ^ 1) i (q i) (masks i) fun _ i j => i + j).recorded) (fun i => (outs i, views i)) ∧
    ∀ (vb' vc' : List (ZMod 17)) (q' : Nat → PackedQAPShare (ZMod 17)) (rng' : Nat → Nat → Nat → ZMod 17) (t' : Nat → VecTape (ZMod 17))
      (masks' : Nat → Nat → FftMask (ZMod 17)) (ea' eb' outs' : Nat → List (ZMod 17)),
      HoldsProgram pp17 1 1 dom17 q' [3, 9, 1, 9] vb' vc' → LibsnarkSampled pp17 true dom17 t' masks' →
      TransformsTo pp17 true 1 dom17 FftField.GENERATOR true .zero (fun p => (q' p).a) (fun p => masks' p 0) (fun p => masks' p 3)
        (rng' 0) (rng' 3) ea' →
      TransformsTo pp17 true 1 dom17 FftField.GENERATOR true .one (fun p => (q' p).b) (fun p => masks' p 1) (fun p => masks' p 4)
        (rng' 1) (rng' 4) eb' →
      AlwaysYields (Net.init fun i : Fin (4 * 2 ^ 1) =>
        (pp17.libsnarkH true (4 * 2 ^ 1) i (q' i) (masks' i) rng').recorded) (fun i => (outs' i, views i)) →
      (∀ i, ea (king17 i) = ea' (king17 i) ∧ eb (king17 i) = eb' (king17 i)) → vb' = [y₀, y₁, y₂, y₃] := by
  obtain ⟨q, hq⟩ := program17 [3, 9, 1, 9] [y₀, y₁, y₂, y₃] [9, 9, 0, 0] rfl rfl rfl
  obtain ⟨q', hq', hP⟩ := program17_alike [3, 9, 1, 9] [y₀, y₁, y₂, y₃] [0, 0, 0, 1] rfl rfl rfl hq
  have hcos : ∃ x : ZMod 17, x ≠ 0 ∧ x ^ 2 ^ (1 + 1) ≠ 1 := ⟨3, by decide, by decide⟩
  obtain ⟨ρ, hρ⟩ := table17 _ (C75_full_degree_libsnark (pp17_eq true) true (a := 1) (by norm_num) dom17_eq hq (fun _ i j => i + j) t)
  obtain ⟨δ, -, h⟩ := C62_libsnark_h (pp17_eq true) gen17 true 1 (by norm_num) dom17_eq hcos _ _ _ _ _ _
    king17 king17_inj king17_lt q q' hq hq' hP fun _ i j => i + j
  obtain ⟨m, m', e, e', h2, -, hs, hr⟩ := h (Function.update t 3 ⟨(t 3).vals, (t 3).rngIn, ext2 ρ⟩)
  obtain ⟨D, hD⟩ := hs rfl rfl
  obtain ⟨ε, hε⟩ := hr D hD
  obtain ⟨masks, masks', d1, -, d2, -, outs, outs', views, r1, -, -⟩ := hε (Function.update t 3 ⟨(t 3).vals, (t 3).rngIn, ext2 ρ⟩ 6)
  have d1 := d1.congr fun k hk => by
    show _ = Function.update t 3 ⟨(t 3).vals, (t 3).rngIn, ext2 ρ⟩ k
    split
    · rfl
    · rw [show k = 6 by omega]
  obtain ⟨ea, eb, ec, ka, kb, -, -⟩ := h2.congr_masks fun p _ k hk => (d2 p k hk).1.symm
  refine ⟨q, ext2 ρ, masks, ea, eb, outs, views, hq, d1, ka, kb, r1, ?_⟩
  intro vb' vc' q'' rng' t' masks'' ea' eb' outs'' hq'' hm'' ka' kb' r'' hsame
  have := C75_libsnark_h (pp17_eq true) gen17 true (a := 1) (by norm_num) dom17_eq hcos king17 king17_inj king17_lt hq hq'' (rng := fun _ i j => i + j) d1 hm''
    ka kb ka' kb' r1 r'' (fun c hc hsh => hρ ⟨masks, ea, d1, ka, c, hc, hsh⟩) (fun _ _ => rfl) (fun i => (hsame i).1) fun i => (hsame i).2
  exact this.symm

end ZkSaas.Properties
