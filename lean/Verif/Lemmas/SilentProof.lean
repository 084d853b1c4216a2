import Verif.Lemmas.SilentProtocols
import Verif.Lemmas.EvilProof

/-! The steps of the prover when some clients fall silent; the proofs are those of the corresponding statements about honest
parties. -/

set_option linter.unusedSectionVars false

namespace ZkSaas.Properties

open Finset Spec Polynomial

variable {F : Type} [Field F] [DecidableEq F] [FftField F] [FixedWire F]

theorem _root_.ZkSaas.Remain.mono {n : Nat} {S : Nat → Prop} {m m' : Nat} (h : Remain n S m) (hm : m' ≤ m) : Remain n S m' :=
  fun parties h1 h2 => hm.trans (h parties h1 h2)

/-- When all but `k` of the `n` parties are heard. -/
theorem remain_of_card {n : Nat} (silent : Finset Nat) {m : Nat} (h : m + silent.card ≤ n) : Remain n (· ∈ silent) m := by
  intro parties hnd hmem
  have hsub : range n \ silent ⊆ parties.toFinset := fun i hi => by
    rw [mem_sdiff, mem_range] at hi
    exact List.mem_toFinset.2 (hmem i hi.1 hi.2)
  have h1 := card_le_card hsub
  have h2 := List.toFinset_card_le parties
  have h3 := le_card_sdiff silent (range n)
  rw [card_range] at h3
  omega

/-- A reliable network is one on which nobody falls silent. -/
theorem _root_.ZkSaas.GSteps.silent {n : Nat} {α : Type} {k : Nat} {c c' : Net n α} (h : GSteps Reliable k c c') (S : Nat → Prop) :
    SilentSteps S k c c' := by
  induction h with
  | refl => exact .refl _
  | step h _ ih => exact .step (.move (.run h)) ih

/-- The results are those of the honest execution. -/
theorem _root_.ZkSaas.Timed.survives_as {n : Nat} {α : Type} {hn : 0 < n} {S : Nat → Prop} {St : Sid → Prop} {ps : Fin n → Proc α}
    {rs rs' : Fin n → α} (h : Timed hn S St ps rs') (hS : ¬ S 0) (hy : AlwaysYields (Net.init ps) rs) : SurvivesSilence S (Net.init ps) rs := by
  have hs := h.survives hS
  obtain ⟨k, c, hc, hstuck⟩ := exists_final hy.1
  have hdone := hy.2 k c hc hstuck
  refine ⟨hs.1, fun k' c' h' hst i hi => ?_⟩
  rw [hs.2 k' c' h' hst i hi]
  have := hs.2 k c (hc.silent S) (by
    rintro ⟨c'', hm⟩
    cases hm with
    | run h => exact hstuck ⟨_, h⟩
    | giveUp sid king hking x' hg =>
      rw [hdone king] at hg
      cases hg) i hi
  rw [← this, hdone i]

theorem suffices_of {dbg₀ : Bool} {b : Nat} {pp : PSS F} (hpp : PSS.new dbg₀ (2 ^ b) = .ok pp) {Q : Nat → Prop}
    (hQ : Remain (4 * 2 ^ b) Q (4 * 2 ^ b - 1)) (dbg : Bool) {d : Nat} (hd : d ≤ 4 * pp.l - 1) : Suffices pp (4 * 2 ^ b) Q dbg d := by
  have hle := l_eq hpp
  have hg := PSS.good_of_new hpp
  have hl := hg.lpos
  have ht := hg.t_eq
  refine ⟨hQ.mono (by omega), fun _ => hQ.mono (by omega), hQ.mono (by omega)⟩

theorem dFft_timed {dbg₀ : Bool} {b : Nat} {pp : PSS F} (hpp : PSS.new dbg₀ (2 ^ b) = .ok pp) {Q : Nat → Prop} (hQ : Remain (4 * 2 ^ b) Q (4 * 2 ^ b - 1)) (dbg : Bool) (a : Nat) (ha : a < 64)
    {dom : Domain F} (hdom : Domain.new (2 ^ (a + b)) = some dom) {sh : Nat → List F} {coeffs : List F}
    (hsh : HoldsInput pp a b sh coeffs) (rearrange : Bool) {masks : Nat → FftMask F}
    (hm : IsFftMasks pp rearrange 1 dom.groupGen (2 ^ (a + b)) masks) (sid : Sid) (rng : Nat → Nat → F) :
    ∃ outs : Nat → List F,
      Timed (four_pos b) Q (only sid) (fun i : Fin (4 * 2 ^ b) => pp.dFft dbg (4 * 2 ^ b) i (sh i) (masks i) rearrange dom sid rng)
        (fun i => outs i) ∧
      HoldsOutput pp rearrange a b outs (dom.fft coeffs) := by
  have hle := l_eq hpp
  have hg := PSS.good_of_new hpp
  obtain ⟨hwf, hoff, -, hsize⟩ := Domain.new_pow2 hdom
  have hprim : IsPrimitiveRoot dom.groupGen (2 ^ (a + b)) := hsize ▸ hwf.prim
  obtain ⟨hc, d, hd2, hd4, hs⟩ := hsh
  rw [← hle] at hs hd2 hd4
  obtain ⟨outs, hr, ho⟩ := PSS.dFft_timed (n := 4 * 2 ^ b) hg (by rw [hle]) (four_pos b) dbg ha hle hsize hprim hd2 hd4 (suffices_of hpp hQ dbg hd4) _ hs
    rearrange (hm.ok hpp hprim) sid rng
  refine ⟨outs, hr, by simp [hsize], ?_⟩
  rw [← hle]
  refine SharedVec.congr ho (fun _ _ => rfl) fun c hc => packed_congr _ hc fun i hi => ?_
  exact Domain.sum_eq_fft hoff hsize _ hi

theorem dIfft_timed {dbg₀ : Bool} {b : Nat} {pp : PSS F} (hpp : PSS.new dbg₀ (2 ^ b) = .ok pp) {Q : Nat → Prop} (hQ : Remain (4 * 2 ^ b) Q (4 * 2 ^ b - 1)) (dbg : Bool) (a : Nat) (ha : a < 64)
    {dom : Domain F} (hdom : Domain.new (2 ^ (a + b)) = some dom) {sh : Nat → List F} {evals : List F}
    (hsh : HoldsInput pp a b sh evals) (g : F) (rearrange : Bool) {masks : Nat → FftMask F}
    (hm : IsFftMasks pp rearrange g dom.groupGenInv (2 ^ (a + b)) masks) (sid : Sid) (rng : Nat → Nat → F) :
    ∃ outs : Nat → List F,
      Timed (four_pos b) Q (only sid) (fun i : Fin (4 * 2 ^ b) => pp.dIfft dbg (4 * 2 ^ b) i (sh i) (masks i) rearrange dom g sid rng)
        (fun i => outs i) ∧
      HoldsOutput pp rearrange a b outs ((List.range (2 ^ (a + b))).map fun k => g ^ k * (dom.ifft evals).getD k 0) := by
  have hle := l_eq hpp
  have hg := PSS.good_of_new hpp
  obtain ⟨hwf, -, hoff, hsize⟩ := Domain.new_pow2 hdom
  have hprim : IsPrimitiveRoot dom.groupGenInv (2 ^ (a + b)) := by
    rw [hwf.ginv]; exact hsize ▸ hwf.prim.inv
  obtain ⟨hc, d, hd2, hd4, hs⟩ := hsh
  rw [← hle] at hs hd2 hd4
  obtain ⟨outs, hr, ho⟩ := PSS.dIfft_timed (n := 4 * 2 ^ b) hg (by rw [hle]) (four_pos b) dbg ha hle hsize hprim hd2 hd4 (suffices_of hpp hQ dbg hd4) _ hs g
    rearrange (hm.ok hpp hprim) sid rng
  refine ⟨outs, hr, by simp, ?_⟩
  rw [← hle]
  refine SharedVec.congr ho (fun _ _ => rfl) fun c hc => packed_congr _ hc fun i hi => ?_
  rw [Domain.sum_eq_ifft hoff hsize _ hi, getD_map_range, if_pos hi]

theorem toCoset_timed {dbg₀ : Bool} {b : Nat} {pp : PSS F} (hpp : PSS.new dbg₀ (2 ^ b) = .ok pp) {Q : Nat → Prop} (hQ : Remain (4 * 2 ^ b) Q (4 * 2 ^ b - 1)) (dbg : Bool) (a : Nat)
    (ha : a < 64) {dom : Domain F} (hdom : Domain.new (2 ^ (a + b)) = some dom) {sh : Nat → List F} {v : List F}
    (hv : HoldsInput pp a b sh v) {A : F[X]} (hA : Interpolates dom.groupGen (2 ^ (a + b)) (fun i => v.getD i 0) A)
    (g : F) (rearrange : Bool) {m1 m2 : Nat → FftMask F} (hm1 : IsFftMasks pp true g dom.groupGenInv (2 ^ (a + b)) m1)
    (hm2 : IsFftMasks pp rearrange 1 dom.groupGen (2 ^ (a + b)) m2) (sid : Sid) (rng1 rng2 : Nat → Nat → F) :
    ∃ co ev : Nat → List F,
      Timed (four_pos b) Q (only sid) (fun i : Fin (4 * 2 ^ b) => pp.dIfft dbg (4 * 2 ^ b) i (sh i) (m1 i) true dom g sid rng1) (fun i => co i) ∧
      Timed (four_pos b) Q (only sid) (fun i : Fin (4 * 2 ^ b) => pp.dFft dbg (4 * 2 ^ b) i (co i) (m2 i) rearrange dom sid rng2) (fun i => ev i) ∧
      HoldsOutput pp rearrange a b ev ((List.range (2 ^ (a + b))).map fun i => A.eval (g * dom.groupGen ^ i)) := by
  obtain ⟨hwf, hoff, -, hsize⟩ := Domain.new_pow2 hdom
  obtain ⟨o1, r1, h1⟩ := dIfft_timed hpp hQ dbg a ha hdom hv g true hm1 sid rng1
  obtain ⟨o2, r2, h2⟩ := dFft_timed hpp hQ dbg a ha hdom h1.input rearrange hm2 sid rng2
  refine ⟨o1, o2, r1, r2, ?_⟩
  rw [← hsize] at hA
  have hcoeff : dom.ifft v = (List.range dom.size).map A.coeff :=
    Domain.ifft_of_evals hwf (by simp) (Interpolates.fft hoff (hv.1.trans hsize.symm) hA)
  have : dom.fft ((List.range (2 ^ (a + b))).map fun k => g ^ k * (dom.ifft v).getD k 0) =
      (List.range (2 ^ (a + b))).map fun i => A.eval (g * dom.groupGen ^ i) := by
    rw [hcoeff, ← hsize, ← Domain.fft_scaled hoff hA.1]
    congr 1
    apply List.map_congr_left
    intro k hk
    rw [getD_map_range, if_pos (List.mem_range.1 hk)]
  rw [this] at h2
  exact h2

theorem circomH_timed {dbg₀ : Bool} {b : Nat} {pp : PSS F} (hpp : PSS.new dbg₀ (2 ^ b) = .ok pp) {Q : Nat → Prop} (hQ : Remain (4 * 2 ^ b) Q (4 * 2 ^ b - 1)) (dbg : Bool) (a : Nat)
    (ha : a < 64) {dom dom2 : Domain F} (hdom : Domain.new (2 ^ (a + b)) = some dom)
    (hdom2 : Domain.new (2 ^ (a + b + 1)) = some dom2) {q : Nat → PackedQAPShare F} (hq : ∀ p < 4 * 2 ^ b, (q p).domain = dom)
    {va vb vc : List F} (hva : HoldsInput pp a b (fun p => (q p).a) va) (hvb : HoldsInput pp a b (fun p => (q p).b) vb)
    (hvc : HoldsInput pp a b (fun p => (q p).c) vc) {A B C : F[X]}
    (hA : Interpolates dom.groupGen (2 ^ (a + b)) (fun i => va.getD i 0) A)
    (hB : Interpolates dom.groupGen (2 ^ (a + b)) (fun i => vb.getD i 0) B)
    (hC : Interpolates dom.groupGen (2 ^ (a + b)) (fun i => vc.getD i 0) C)
    {masks : Nat → Nat → FftMask F} (hm : IsCircomMasks pp dom2.groupGen dom masks)
    {dmask : Nat → DegRedMask F} (hd : IsDegRedMasks pp (2 ^ a) dmask) (rng : Nat → Nat → Nat → F) :
    ∃ outs : Nat → List F,
      Timed (four_pos b) Q (fun _ => True) (fun i : Fin (4 * 2 ^ b) => pp.circomH dbg (4 * 2 ^ b) i (q i) (masks i) (dmask i) rng)
        (fun i => outs i) ∧
      HoldsOutput pp false a b outs ((List.range (2 ^ (a + b))).map fun i =>
        (A * B - C).eval (dom2.groupGen * dom.groupGen ^ i)) := by
  have hle := l_eq hpp
  have hg := PSS.good_of_new hpp
  obtain ⟨hwf, hoff, -, hsize⟩ := Domain.new_pow2 hdom
  obtain ⟨-, hoff2, -, hsize2⟩ := Domain.new_pow2 hdom2
  obtain ⟨hm1, hm2⟩ := hm
  rw [hsize] at hm1 hm2
  obtain ⟨ca, ea, ra1, ra2, oa⟩ := toCoset_timed hpp hQ dbg a ha hdom hva hA dom2.groupGen false (hm1 0 (by omega)) (hm2 0 (by omega))
    .zero (rng 0) (rng 3)
  obtain ⟨cb, eb, rb1, rb2, ob⟩ := toCoset_timed hpp hQ dbg a ha hdom hvb hB dom2.groupGen false (hm1 1 (by omega)) (hm2 1 (by omega))
    .one (rng 1) (rng 4)
  obtain ⟨cc, ec, rc1, rc2, oc⟩ := toCoset_timed hpp hQ dbg a ha hdom hvc hC dom2.groupGen false (hm1 2 (by omega)) (hm2 2 (by omega))
    .two (rng 2) (rng 5)
  have hs := SharedVec.mulSub hg hle false rfl (by rw [PSS.SharedVec, hle]; exact oa.2) (by rw [PSS.SharedVec, hle]; exact ob.2)
    (by rw [PSS.SharedVec, hle]; exact oc.2)
  have hl := hg.lpos
  obtain ⟨outs, r, ho⟩ := PSS.degRed_timed (n := 4 * 2 ^ b) hg (by rw [hle]) (four_pos b) dbg (N := 2 ^ a) (by positivity)
    (Nat.pow_lt_pow_right (by omega) ha) (by omega) le_rfl (suffices_of hpp hQ dbg le_rfl) hs (hd.ok hpp (by positivity)) .zero (rng 6)
  refine ⟨outs, ?_, by simp, ?_⟩
  · refine Timed.congr (ps := fun i : Fin (4 * 2 ^ b) => (Proc.done (unwrap (Domain.new (F := F) (2 * dom.size)))).bind fun dd =>
      tryJoin3 (pp.dIfft dbg (4 * 2 ^ b) i (q i).a (masks i 0) true dom (dd.element 1) .zero (rng 0))
        (pp.dIfft dbg (4 * 2 ^ b) i (q i).b (masks i 1) true dom (dd.element 1) .one (rng 1))
        (pp.dIfft dbg (4 * 2 ^ b) i (q i).c (masks i 2) true dom (dd.element 1) .two (rng 2)) fun aCoeff bCoeff cCoeff =>
      tryJoin3 (pp.dFft dbg (4 * 2 ^ b) i aCoeff (masks i 3) false dom .zero (rng 3))
        (pp.dFft dbg (4 * 2 ^ b) i bCoeff (masks i 4) false dom .one (rng 4))
        (pp.dFft dbg (4 * 2 ^ b) i cCoeff (masks i 5) false dom .two (rng 5)) fun aEval bEval cEval =>
      pp.degRed dbg (4 * 2 ^ b) i (List.zipWith (fun ab c => ab.1 * ab.2 - c) (List.zip aEval bEval) cEval) (dmask i) .zero (rng 6))
      ?_ (fun i => by rw [PSS.circomH, hq i i.2]; rfl) fun _ => rfl
    refine Timed.lift_bind (rs := fun _ => dom2) (fun i => by rw [hsize, ← pow_succ', hdom2]; rfl) ?_
    have hroot : dom2.element 1 = dom2.groupGen := by rw [Domain.element, hoff2, one_mul, pow_one]
    simp only [hroot]
    exact Timed.tryJoin3 ra1 rb1 rc1 (Timed.tryJoin3 ra2 rb2 rc2 (r.mono fun _ _ => trivial))
  · rw [← hle]
    refine SharedVec.congr ho (fun _ _ => rfl) fun c hc => packed_congr _ hc fun i hi => ?_
    simp only [getD_map_range, if_pos hi, eval_sub, eval_mul]

theorem libsnarkH_timed_any {dbg₀ : Bool} {b : Nat} {pp : PSS F} (hpp : PSS.new dbg₀ (2 ^ b) = .ok pp) {Q : Nat → Prop} (hQ : Remain (4 * 2 ^ b) Q (4 * 2 ^ b - 1)) (dbg : Bool) (a : Nat)
    (ha : a < 64) {dom : Domain F} (hdom : Domain.new (2 ^ (a + b)) = some dom) (hcos : ∃ x : F, x ≠ 0 ∧ x ^ 2 ^ (a + b) ≠ 1)
    {q : Nat → PackedQAPShare F} (hq : ∀ p < 4 * 2 ^ b, (q p).domain = dom)
    {va vb vc : List F} (hva : HoldsInput pp a b (fun p => (q p).a) va) (hvb : HoldsInput pp a b (fun p => (q p).b) vb)
    (hvc : HoldsInput pp a b (fun p => (q p).c) vc) {A B C : F[X]}
    (hA : Interpolates dom.groupGen (2 ^ (a + b)) (fun i => va.getD i 0) A)
    (hB : Interpolates dom.groupGen (2 ^ (a + b)) (fun i => vb.getD i 0) B)
    (hC : Interpolates dom.groupGen (2 ^ (a + b)) (fun i => vc.getD i 0) C)
    {masks : Nat → Nat → FftMask F} (hm : IsLibsnarkMasks pp dom masks) (rng : Nat → Nat → Nat → F) :
    ∃ outs : Nat → List F,
      Timed (four_pos b) Q (fun _ => True) (fun i : Fin (4 * 2 ^ b) => pp.libsnarkH dbg (4 * 2 ^ b) i (q i) (masks i) rng)
        (fun i => outs i) ∧
      HoldsOutput pp false a b outs ((List.range (2 ^ (a + b))).map fun k => FftField.GENERATOR⁻¹ ^ k *
        (dom.ifft ((List.range (2 ^ (a + b))).map fun i => (A * B - C).eval (FftField.GENERATOR * dom.groupGen ^ i) *
          (FftField.GENERATOR ^ 2 ^ (a + b) - 1)⁻¹)).getD k 0) := by
  have hle := l_eq hpp
  have hg := PSS.good_of_new hpp
  have hl := hg.lpos
  have hz := generator_pow_ne_one hcos
  obtain ⟨hwf, hoff, hoffi, hsize⟩ := Domain.new_pow2 hdom
  obtain ⟨hm1, hm2, hm3⟩ := hm
  rw [hsize] at hm1 hm2 hm3
  set g : F := FftField.GENERATOR with hgdef
  have hg0 : g ≠ 0 := FftField.generator_ne_zero
  obtain ⟨ca, ea, ra1, ra2, oa⟩ := toCoset_timed hpp hQ dbg a ha hdom hva hA g true (hm1 0 (by omega)) (hm2 0 (by omega))
    .zero (rng 0) (rng 3)
  obtain ⟨cb, eb, rb1, rb2, ob⟩ := toCoset_timed hpp hQ dbg a ha hdom hvb hB g true (hm1 1 (by omega)) (hm2 1 (by omega))
    .one (rng 1) (rng 4)
  obtain ⟨cc, ec, rc1, rc2, oc⟩ := toCoset_timed hpp hQ dbg a ha hdom hvc hC g true (hm1 2 (by omega)) (hm2 2 (by omega))
    .two (rng 2) (rng 5)
  have hs := SharedVec.scale (SharedVec.mulSub hg hle true rfl (by rw [PSS.SharedVec, hle]; exact oa.2) (by rw [PSS.SharedVec, hle]; exact ob.2)
    (by rw [PSS.SharedVec, hle]; exact oc.2)) (g ^ 2 ^ (a + b) - 1)⁻¹
  set hs_ : Nat → List F := fun p => List.zipWith (fun ab c => (ab.1 * ab.2 - c) * (g ^ 2 ^ (a + b) - 1)⁻¹) (List.zip (ea p) (eb p)) (ec p)
    with hsdef
  have hin : HoldsInput pp a b hs_ ((List.range (2 ^ (a + b))).map fun i =>
      (A * B - C).eval (g * dom.groupGen ^ i) * (g ^ 2 ^ (a + b) - 1)⁻¹) := by
    refine ⟨by simp, 4 * 2 ^ b - 1, by rw [hle] at hl; omega, le_rfl, ?_⟩
    rw [← hle]
    refine SharedVec.congr hs (fun p _ => ?_) fun c hc => ?_
    · rw [hsdef, List.map_zipWith]
    · unfold packed
      rw [List.map_map]
      apply List.map_congr_left
      intro j hj
      have hi : slot true a b c j < 2 ^ (a + b) := by
        exact slot_lt _ hc (List.mem_range.1 hj)
      simp only [Function.comp, getD_map_range, if_pos hi]
      rw [eval_sub, eval_mul]
  obtain ⟨outs, r, ho⟩ := dIfft_timed hpp hQ dbg a ha hdom hin g⁻¹ false hm3 .zero (rng 6)
  refine ⟨outs, ?_, ho⟩
  · refine Timed.congr (ps := fun i : Fin (4 * 2 ^ b) => (Proc.done (unwrap (dom.getCoset g))).bind fun cos =>
      tryJoin3 (pp.dIfft dbg (4 * 2 ^ b) i (q i).a (masks i 0) true dom cos.offset .zero (rng 0))
        (pp.dIfft dbg (4 * 2 ^ b) i (q i).b (masks i 1) true dom cos.offset .one (rng 1))
        (pp.dIfft dbg (4 * 2 ^ b) i (q i).c (masks i 2) true dom cos.offset .two (rng 2)) fun aCoeff bCoeff cCoeff =>
      tryJoin3 (pp.dFft dbg (4 * 2 ^ b) i aCoeff (masks i 3) true dom .zero (rng 3))
        (pp.dFft dbg (4 * 2 ^ b) i bCoeff (masks i 4) true dom .one (rng 4))
        (pp.dFft dbg (4 * 2 ^ b) i cCoeff (masks i 5) true dom .two (rng 5)) fun aEval bEval cEval =>
      (Proc.done (unwrap (fieldInverse (dom.evalVanishing g)))).bind fun vinv =>
      pp.dIfft dbg (4 * 2 ^ b) i (List.zipWith (fun ab c => (ab.1 * ab.2 - c) * vinv) (List.zip aEval bEval) cEval) (masks i 6) false dom
        cos.offsetInv .zero (rng 6))
      ?_ (fun i => by rw [PSS.libsnarkH, hq i i.2]; rfl) fun _ => rfl
    refine Timed.lift_bind (rs := fun _ => { dom with offset := g, offsetInv := g⁻¹ })
      (fun i => by rw [Domain.getCoset, if_neg hg0]; rfl) ?_
    dsimp only
    refine Timed.tryJoin3 ra1 rb1 rc1 (Timed.tryJoin3 ra2 rb2 rc2 ?_)
    refine Timed.lift_bind (rs := fun _ => (g ^ 2 ^ (a + b) - 1)⁻¹) (fun i => ?_) (r.mono fun _ _ => trivial)
    rw [Domain.evalVanishing, hoff, hsize, one_pow, fieldInverse, if_neg hz]; rfl

theorem libsnarkH_timed {dbg₀ : Bool} {b : Nat} {pp : PSS F} (hpp : PSS.new dbg₀ (2 ^ b) = .ok pp) {Q : Nat → Prop} (hQ : Remain (4 * 2 ^ b) Q (4 * 2 ^ b - 1)) (dbg : Bool) (a : Nat)
    (ha : a < 64) {dom : Domain F} (hdom : Domain.new (2 ^ (a + b)) = some dom) (hcos : ∃ x : F, x ≠ 0 ∧ x ^ 2 ^ (a + b) ≠ 1)
    {q : Nat → PackedQAPShare F} (hq : ∀ p < 4 * 2 ^ b, (q p).domain = dom)
    {va vb vc : List F} (hva : HoldsInput pp a b (fun p => (q p).a) va) (hvb : HoldsInput pp a b (fun p => (q p).b) vb)
    (hvc : HoldsInput pp a b (fun p => (q p).c) vc) {A B C H : F[X]}
    (hA : Interpolates dom.groupGen (2 ^ (a + b)) (fun i => va.getD i 0) A)
    (hB : Interpolates dom.groupGen (2 ^ (a + b)) (fun i => vb.getD i 0) B)
    (hC : Interpolates dom.groupGen (2 ^ (a + b)) (fun i => vc.getD i 0) C)
    (hH : A * B - C = H * (X ^ 2 ^ (a + b) - 1))
    {masks : Nat → Nat → FftMask F} (hm : IsLibsnarkMasks pp dom masks) (rng : Nat → Nat → Nat → F) :
    ∃ outs : Nat → List F,
      Timed (four_pos b) Q (fun _ => True) (fun i : Fin (4 * 2 ^ b) => pp.libsnarkH dbg (4 * 2 ^ b) i (q i) (masks i) rng)
        (fun i => outs i) ∧
      HoldsOutput pp false a b outs ((List.range (2 ^ (a + b))).map H.coeff) := by
  have hdegH : H.degree < (2 ^ (a + b) : Nat) := quotient_degree (by positivity) hA.1 hB.1 hC.1 hH
  have hz := generator_pow_ne_one hcos
  obtain ⟨hwf, hoff, hoffi, hsize⟩ := Domain.new_pow2 hdom
  have hg0 : (FftField.GENERATOR : F) ≠ 0 := FftField.generator_ne_zero
  obtain ⟨outs, r, ho⟩ := libsnarkH_timed_any hpp hQ dbg a ha hdom hcos hq hva hvb hvc hA hB hC hm rng
  refine ⟨outs, r, cast ?_ ho⟩
  set g : F := FftField.GENERATOR
  have hv : ((List.range (2 ^ (a + b))).map fun i => (A * B - C).eval (g * dom.groupGen ^ i) * (g ^ 2 ^ (a + b) - 1)⁻¹) =
      (List.range (2 ^ (a + b))).map fun i => H.eval (g * dom.groupGen ^ i) := by
    apply List.map_congr_left
    intro i _
    have e := congrArg (Polynomial.eval (g * dom.groupGen ^ i)) hH
    rw [eval_mul (p := H), eval_sub (p := X ^ 2 ^ (a + b)), eval_pow, eval_X, eval_one, mul_pow, ← pow_mul, mul_comm i, pow_mul,
      show dom.groupGen ^ 2 ^ (a + b) = 1 by rw [← hsize]; exact hwf.prim.pow_eq_one, one_pow, mul_one] at e
    rw [e, mul_assoc, mul_inv_cancel₀ hz, mul_one]
  have : dom.ifft ((List.range (2 ^ (a + b))).map fun i => H.eval (g * dom.groupGen ^ i)) =
      (List.range (2 ^ (a + b))).map fun k => g ^ k * H.coeff k := by
    rw [← hsize] at hdegH ⊢
    exact Domain.ifft_of_evals hwf (by simp) (Domain.fft_scaled hoff hdegH g)
  rw [hv, this]
  congr 1
  apply List.map_congr_left
  intro k hk
  rw [getD_map_range, if_pos (List.mem_range.1 hk), ← mul_assoc, ← mul_pow, inv_mul_cancel₀ hg0, one_pow, one_mul]

section prove
variable {G : Type} [AddCommGroup G] [Module F G] [DecidableEq G] [FixedWire G]

theorem dMsm_chunks_timed {dbg₀ : Bool} {b : Nat} {pp : PSS F} (hpp : PSS.new dbg₀ (2 ^ b) = .ok pp) {Q : Nat → Prop} (hQ : Remain (4 * 2 ^ b) Q (4 * 2 ^ b - 1)) (dbg : Bool) {y : List G}
    {x : List F} (hlen : x.length = y.length) {bs : Nat → List G} {ss : Nat → List F} (hb : HoldsChunks pp b bs y)
    (hs : HoldsChunks pp b ss x) {masks : Nat → MsmMask G} (hm : IsMsmMasks pp masks) (sid : Sid) :
    ∃ outs : Nat → G,
      Timed (four_pos b) Q (only sid) (fun i : Fin (4 * 2 ^ b) => pp.dMsm dbg (4 * 2 ^ b) i (bs i) (ss i) (masks i) sid) (fun i => outs i) ∧
      HoldsValue pp b outs (∑ i ∈ range y.length, x.getD i 0 • y.getD i 0) := by
  have hle := l_eq hpp
  have hg := PSS.good_of_new hpp
  have hl := hg.lpos
  rw [HoldsChunks, ← hle] at hb hs
  rw [hlen] at hs
  obtain ⟨outs, hr, ho⟩ := PSS.dMsm_timed (n := 4 * 2 ^ b) hg (by rw [hle]) (four_pos b) dbg (by omega) (by omega) (suffices_of hpp hQ dbg (by omega)) hb hs (hm.ok hpp) sid
  rw [sum_chunks, sum_padded (N := (y.length + pp.l - 1) / pp.l * pp.l) _ _ rfl (numChunks_mul y hl)] at ho
  refine ⟨outs, hr, ?_⟩
  rw [HoldsValue, ← hle]
  exact ho

theorem proveA_timed {dbg₀ : Bool} {b : Nat} {pp : PSS F} (hpp : PSS.new dbg₀ (2 ^ b) = .ok pp) {Q : Nat → Prop} (hQ : Remain (4 * 2 ^ b) Q (4 * 2 ^ b - 1)) (dbg : Bool) (L N AG1 : G)
    {S : List G} {a : List F} (hlen : a.length = S.length) {Ssh : Nat → List G} {ash : Nat → List F} (hS : HoldsChunks pp b Ssh S)
    (ha : HoldsChunks pp b ash a) {rsh : Nat → F} {r : F} (hr : HoldsValue pp b rsh r) {masks : Nat → MsmMask G}
    (hm : IsMsmMasks pp masks) (sid : Sid) :
    ∃ outs : Nat → G,
      Timed (four_pos b) Q (only sid) (fun i : Fin (4 * 2 ^ b) => pp.proveA dbg (4 * 2 ^ b) i L N AG1 (Ssh i) (ash i) (rsh i) (masks i) sid)
        (fun i => outs i) ∧
      HoldsValue pp b outs (L + r • N + (∑ i ∈ range S.length, a.getD i 0 • S.getD i 0) + AG1) := by
  have hle := l_eq hpp
  have hl := (PSS.good_of_new hpp).lpos
  obtain ⟨outs, hrun, ho⟩ := dMsm_chunks_timed hpp hQ dbg hlen hS ha hm sid
  refine ⟨fun p => (L + rsh p • N) + outs p + AG1, Timed.bind hrun (Timed.done _), ?_⟩
  rw [HoldsValue, ← hle] at hr ho ⊢
  have hc : ∀ v : G, pp.SharedValue (2 * pp.l) (fun _ => v) v := fun v => SharedValue.const (by omega) v
  exact SharedValue.add (SharedValue.add (SharedValue.add (hc L) (SharedValue.mulConst hr N)) ho) (hc AG1)

theorem proveC_timed {dbg₀ : Bool} {b : Nat} {pp : PSS F} (hpp : PSS.new dbg₀ (2 ^ b) = .ok pp) {Q : Nat → Prop} (hQ : Remain (4 * 2 ^ b) Q (4 * 2 ^ b - 1)) (dbg : Bool) (M : G)
    {Ash Bsh : Nat → G} {A B : G} (hA : HoldsValue pp b Ash A)
    {rsh ssh : Nat → F} {r s : F} (hr : HoldsValue pp b rsh r) (hs : HoldsValue pp b ssh s)
    (hrB : HoldsProduct pp b (fun p => rsh p • Bsh p) (r • B))
    {W U : List G} {ax h : List F} (hWl : ax.length = W.length) (hUl : h.length = U.length) {Wsh Ush : Nat → List G}
    {axsh hsh : Nat → List F} (hW : HoldsChunks pp b Wsh W) (hU : HoldsChunks pp b Ush U) (hax : HoldsChunks pp b axsh ax)
    (hh : HoldsChunks pp b hsh h) {m0 m1 : Nat → MsmMask G} (hm0 : IsMsmMasks pp m0) (hm1 : IsMsmMasks pp m1) :
    ∃ outs : Nat → G,
      Timed (four_pos b) Q (fun _ => True) (fun i : Fin (4 * 2 ^ b) => pp.proveC dbg (4 * 2 ^ b) i (Ash i) (Bsh i) (ssh i) (rsh i) M (Wsh i) (Ush i)
        (axsh i) (hsh i) (m0 i) (m1 i)) (fun i => outs i) ∧
      HoldsProduct pp b outs (s • A + r • B - (r * s) • M + (∑ i ∈ range W.length, ax.getD i 0 • W.getD i 0) +
        ∑ i ∈ range U.length, h.getD i 0 • U.getD i 0) := by
  have hle := l_eq hpp
  have hl := (PSS.good_of_new hpp).lpos
  obtain ⟨w, hw, how⟩ := dMsm_chunks_timed hpp hQ dbg hWl hW hax hm0 .zero
  obtain ⟨u, hu, hou⟩ := dMsm_chunks_timed hpp hQ dbg hUl hU hh hm1 .one
  refine ⟨fun p => ssh p • Ash p + rsh p • Bsh p - (rsh p * ssh p) • M + w p + u p,
    Timed.par hw hu (fun _ _ => trivial) (fun _ _ => trivial) (by intro s h h'; rw [h] at h'; cases h') (Timed.done _), ?_⟩
  have how := how.product
  have hou := hou.product
  rw [HoldsValue, ← hle] at hA hr hs
  rw [HoldsProduct, ← hle] at how hou hrB ⊢
  have hd : 2 * pp.l + 2 * pp.l - 1 = 4 * pp.l - 1 := by omega
  have h1 := SharedValue.mul hs hA
  have h2 := SharedValue.mulConst (SharedValue.mul hr hs) M
  rw [hd] at h1 h2
  exact SharedValue.add (SharedValue.add (SharedValue.sub (SharedValue.add h1 hrB) h2) how) hou

end prove

section groups
variable {G1 G2 : Type} [AddCommGroup G1] [Module F G1] [DecidableEq G1] [FixedWire G1]
  [AddCommGroup G2] [Module F G2] [DecidableEq G2] [FixedWire G2]

theorem dsha256_timed {dbg₀ : Bool} {b : Nat} {pp : PSS F} (hpp : PSS.new dbg₀ (2 ^ b) = .ok pp) {Q : Nat → Prop} (hQ : Remain (4 * 2 ^ b) Q (4 * 2 ^ b - 1)) (dbg : Bool) (a : Nat)
    (ha : a < 64) {dom dom2 : Domain F} (hdom : Domain.new (2 ^ (a + b)) = some dom)
    (hdom2 : Domain.new (2 ^ (a + b + 1)) = some dom2) {q : Nat → PackedQAPShare F} (hq : ∀ p < 4 * 2 ^ b, (q p).domain = dom)
    {va vb vc : List F} (hva : HoldsInput pp a b (fun p => (q p).a) va) (hvb : HoldsInput pp a b (fun p => (q p).b) vb)
    (hvc : HoldsInput pp a b (fun p => (q p).c) vc) {A B C : F[X]}
    (hA : Interpolates dom.groupGen (2 ^ (a + b)) (fun i => va.getD i 0) A)
    (hB : Interpolates dom.groupGen (2 ^ (a + b)) (fun i => vb.getD i 0) B)
    (hC : Interpolates dom.groupGen (2 ^ (a + b)) (fun i => vc.getD i 0) C)
    {crs : Nat → PackedProvingKeyShare G1 G2} {a0 b0 α1 β1 δ1 : G1} {v0 β2 δ2 : G2}
    (hpub : ∀ p, (crs p).aQuery0 = a0 ∧ (crs p).bG1Query0 = b0 ∧ (crs p).bG2Query0 = v0 ∧ (crs p).deltaG1 = δ1 ∧
        (crs p).deltaG2 = δ2 ∧ (crs p).alphaG1 = α1 ∧ (crs p).betaG1 = β1 ∧ (crs p).betaG2 = β2)
    {S H W U : List G1} {V : List G2} (hS : HoldsChunks pp b (fun p => (crs p).s) S) (hU : HoldsChunks pp b (fun p => (crs p).u) U)
    (hW : HoldsChunks pp b (fun p => (crs p).w) W) (hH : HoldsChunks pp b (fun p => (crs p).h) H)
    (hV : HoldsChunks pp b (fun p => (crs p).v) V) {z ax : List F} (hzS : z.length = S.length) (hzH : z.length = H.length)
    (hzV : z.length = V.length) (hax : ax.length = W.length) (hUl : U.length = 2 ^ (a + b)) {zsh axsh : Nat → List F}
    (hz : HoldsChunks pp b zsh z) (hx : HoldsChunks pp b axsh ax) {rsh ssh : Nat → F} {r s : F} (hr : HoldsValue pp b rsh r)
    (hs : HoldsValue pp b ssh s) (hr0 : (∀ p < 4 * 2 ^ b, rsh p ≠ 0) ∨ ∀ p < 4 * 2 ^ b, rsh p = 0)
    {masks : Nat → Nat → FftMask F} (hm : IsCircomMasks pp dom2.groupGen dom masks)
    {dmask : Nat → DegRedMask F} (hd : IsDegRedMasks pp (2 ^ a) dmask) {m1 : Nat → Nat → MsmMask G1}
    (hm1 : ∀ k < 4, IsMsmMasks pp fun p => m1 p k) {m2 : Nat → MsmMask G2} (hm2 : IsMsmMasks pp m2) (rng : Nat → Nat → Nat → F) :
    ∃ (oA : Nat → G1) (oB : Nat → G2) (oC : Nat → G1) (pA pB1 : G1),
      Timed (four_pos b) Q (fun _ => True)
        (fun i : Fin (4 * 2 ^ b) => pp.dsha256 dbg (4 * 2 ^ b) i (crs i) (q i) (zsh i) (axsh i) (rsh i) (ssh i)
        (masks i) (dmask i) (m1 i) (m2 i) rng) (fun i => (oA i, oB i, oC i)) ∧
      pA = a0 + r • δ1 + (∑ i ∈ range S.length, z.getD i 0 • S.getD i 0) + α1 ∧
      pB1 = b0 + s • δ1 + (∑ i ∈ range H.length, z.getD i 0 • H.getD i 0) + β1 ∧
      HoldsValue pp b oA pA ∧
      HoldsValue pp b oB (v0 + s • δ2 + (∑ i ∈ range V.length, z.getD i 0 • V.getD i 0) + β2) ∧
      HoldsProduct pp b oC (s • pA + r • pB1 - (r * s) • δ1 + (∑ i ∈ range W.length, ax.getD i 0 • W.getD i 0) +
        ∑ i ∈ range U.length, (A * B - C).eval (dom2.groupGen ^ (2 * i + 1)) • U.getD i 0) := by
  have h2 := Domain.new_double hdom hdom2
  obtain ⟨oh, rh, hh⟩ := circomH_timed hpp hQ dbg a ha hdom hdom2 hq hva hvb hvc hA hB hC hm hd rng
  have hp : ∀ i, dom2.groupGen * dom.groupGen ^ i = dom2.groupGen ^ (2 * i + 1) := fun i => by
    rw [← h2, ← pow_mul, pow_succ, mul_comm]
  simp only [hp] at hh
  obtain ⟨oA, rA, hoA⟩ := proveA_timed hpp hQ dbg a0 δ1 α1 hzS hS hz hr (hm1 0 (by omega)) .zero
  obtain ⟨oB, rB, hoB⟩ := proveA_timed hpp hQ dbg v0 δ2 β2 hzV hV hz hs hm2 .zero
  have hB1 : ∃ oB1 : Nat → G1,
      Timed (four_pos b) Q (only .zero) (fun i : Fin (4 * 2 ^ b) => pp.proveBInG1 dbg (4 * 2 ^ b) i b0 δ1 β1 (crs i).h (zsh i) (ssh i) (rsh i) (m1 i 1)
        .zero) (fun i => oB1 i) ∧
      HoldsProduct pp b (fun p => rsh p • oB1 p) (r • (b0 + s • δ1 + (∑ i ∈ range H.length, z.getD i 0 • H.getD i 0) + β1)) := by
    rcases hr0 with hr0 | hr0
    · obtain ⟨o, ro, ho⟩ := proveA_timed hpp hQ dbg b0 δ1 β1 hzH hH hz hs (hm1 1 (by omega)) .zero
      refine ⟨o, ro.congr (fun i => ?_) (fun _ => rfl), hr.mul hpp ho⟩
      exact proveBInG1_eq_A _ _ _ _ _ _ _ _ _ (hr0 i i.2) _ _
    · have hz : r = 0 := by
        by_contra h
        obtain ⟨p, hp, h'⟩ := hr.exists_ne_zero hpp h
        exact h' (hr0 p hp)
      refine ⟨fun _ => 0, (Timed.done _).congr (fun i => ?_) (fun _ => rfl), ?_⟩
      · rw [PSS.proveBInG1, if_pos (hr0 i i.2)]
      · have := SharedValue.const (pp := pp) (d := 4 * 2 ^ b - 1) (by have : 0 < 2 ^ b := by positivity
                                                                      omega) (0 : G1)
        rw [PSS.SharedValue, l_eq hpp] at this
        simp only [smul_zero, hz, zero_smul]
        exact this
  obtain ⟨oB1, rB1, hoB1⟩ := hB1
  obtain ⟨oC, rC, hoC⟩ := proveC_timed hpp hQ dbg δ1 hoA hr hs hoB1 hax (by simp [hUl]) hW hU hx hh.chunks
    (hm1 2 (by omega)) (hm1 3 (by omega))
  refine ⟨oA, oB, oC, _, _, ?_, rfl, rfl, hoA, hoB, ?_⟩
  · refine Timed.congr (Timed.bind rh (f := fun i h => (pp.proveA dbg (4 * 2 ^ b) i a0 δ1 α1 (crs i).s (zsh i) (rsh i) (m1 i 0) .zero).bind fun piA =>
        (pp.proveBInG1 dbg (4 * 2 ^ b) i b0 δ1 β1 (crs i).h (zsh i) (ssh i) (rsh i) (m1 i 1) .zero).bind fun piB1 =>
        (pp.proveBInG2 dbg (4 * 2 ^ b) i v0 δ2 β2 (crs i).v (zsh i) (ssh i) (m2 i) .zero).bind fun piB2 =>
        (pp.proveC dbg (4 * 2 ^ b) i piA piB1 (ssh i) (rsh i) δ1 (crs i).w (crs i).u (axsh i) h (m1 i 2) (m1 i 3)).bind fun piC =>
        Proc.done (.ok (piA, piB2, piC)))
      (Timed.bind ((rA.mono fun _ _ => trivial)) (Timed.bind ((rB1.mono fun _ _ => trivial))
        (Timed.bind ((rB.mono fun _ _ => trivial)) (Timed.bind (rC) (Timed.done _))))))
      (fun i => ?_) (fun _ => rfl)
    obtain ⟨e1, e2, e3, e4, e5, e6, e7, e8⟩ := hpub i
    unfold PSS.dsha256
    rw [e1, e2, e3, e4, e5, e6, e7, e8]
    rfl
  · refine cast ?_ hoC
    congr 2
    apply sum_congr rfl
    intro i hi
    rw [getD_map_range, if_pos (by rw [← hUl]; exact mem_range.1 hi)]

end groups

end ZkSaas.Properties
