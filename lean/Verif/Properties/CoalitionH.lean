import Verif.Properties.Coalition

/-!
# C58: what `l` servers see of `circom_h` and `libsnark_h`
-/

set_option linter.unusedSectionVars false

namespace ZkSaas.Properties

open Finset Polynomial Spec

variable {F : Type} [Field F] [FftField F] [DecidableEq F] [FixedWire F]

/-- The masks of `libsnark_h` are dealt with the tapes `t 0`, …, `t 6`. -/
def LibsnarkDealt (pp : PSS F) (a b : Nat) (dom : Domain F) (t : Nat → VecTape F) (masks : Nat → Nat → FftMask F) : Prop :=
  (∀ p, ∀ k < 3, masks p k = pp.fftDealt a b true FftField.GENERATOR dom.groupGenInv (t k) p) ∧
  (∀ p, ∀ k < 3, masks p (3 + k) = pp.fftDealt a b true 1 dom.groupGen (t (3 + k)) p) ∧
  ∀ p, masks p 6 = pp.fftDealt a b false FftField.GENERATOR⁻¹ dom.groupGenInv (t 6) p

theorem libsnarkH_unfold {pp : PSS F} (dbg : Bool) {n a b : Nat} {dom : Domain F} (hdom : Domain.new (2 ^ (a + b)) = some dom)
    (hz : (FftField.GENERATOR : F) ^ 2 ^ (a + b) - 1 ≠ 0) {q : PackedQAPShare F} (hq : q.domain = dom) (masks : Nat → FftMask F)
    (rng : Nat → Nat → Nat → F) (i : Nat) :
    pp.libsnarkH dbg n i q masks rng =
      tryJoin3 (pp.dIfft dbg n i q.a (masks 0) true dom FftField.GENERATOR .zero (rng 0))
        (pp.dIfft dbg n i q.b (masks 1) true dom FftField.GENERATOR .one (rng 1))
        (pp.dIfft dbg n i q.c (masks 2) true dom FftField.GENERATOR .two (rng 2)) fun aCoeff bCoeff cCoeff =>
      tryJoin3 (pp.dFft dbg n i aCoeff (masks 3) true dom .zero (rng 3))
        (pp.dFft dbg n i bCoeff (masks 4) true dom .one (rng 4))
        (pp.dFft dbg n i cCoeff (masks 5) true dom .two (rng 5)) fun aEval bEval cEval =>
      pp.dIfft dbg n i (List.zipWith (fun ab c => (ab.1 * ab.2 - c) * (FftField.GENERATOR ^ 2 ^ (a + b) - 1)⁻¹) (List.zip aEval bEval) cEval)
        (masks 6) false dom FftField.GENERATOR⁻¹ .zero (rng 6) := by
  obtain ⟨-, hoff, -, hsize⟩ := Domain.new_pow2 hdom
  have hg0 : (FftField.GENERATOR : F) ≠ 0 := FftField.generator_ne_zero
  rw [PSS.libsnarkH, hq, Domain.getCoset, if_neg hg0, Domain.evalVanishing, hoff, hsize, one_pow, fieldInverse, if_neg hz]
  rfl

theorem libsnarkH_couple {dbg₀ : Bool} {b : Nat} {pp : PSS F} (hpp : PSS.new dbg₀ (2 ^ b) = .ok pp)
    (hgen : (FftField.GENERATOR : F) ^ (4 * 2 ^ b) ≠ 1) (dbg : Bool) (a : Nat)
    (ha : a < 64) {dom : Domain F} (hdom : Domain.new (2 ^ (a + b)) = some dom) (hcos : ∃ x : F, x ≠ 0 ∧ x ^ 2 ^ (a + b) ≠ 1)
    (xa xb xc xa' xb' xc' : Nat → F)
    (P : Fin (2 ^ b) → Nat) (hinj : Function.Injective P) (hlt : ∀ i, P i < 4 * 2 ^ b) :
    ∃ δ : Nat → VecTape F,
      (∀ k < 3, ∀ t i, pp.fftDealt a b true FftField.GENERATOR dom.groupGenInv (t.add (δ k)) (P i) =
        pp.fftDealt a b true FftField.GENERATOR dom.groupGenInv t (P i)) ∧
      (∀ k < 3, ∀ t i, pp.fftDealt a b true 1 dom.groupGen (t.add (δ (3 + k))) (P i) =
        pp.fftDealt a b true 1 dom.groupGen t (P i)) ∧
      (∀ t i, pp.fftDealt a b false FftField.GENERATOR⁻¹ dom.groupGenInv (t.add (δ 6)) (P i) =
        pp.fftDealt a b false FftField.GENERATOR⁻¹ dom.groupGenInv t (P i)) ∧
      ∀ (tf : Nat → VecTape F) (rng : Nat → Nat → Nat → F) (q q' : Nat → PackedQAPShare F)
        (masks masks' : Nat → Nat → FftMask F), SharesProgram pp a b dom q xa xb xc → SharesProgram pp a b dom q' xa' xb' xc' →
        LibsnarkDealt pp a b dom tf masks → LibsnarkDealt pp a b dom (fun k => (tf k).add (δ k)) masks' →
        Couple (fun _ => True) P
          (fun i : Fin (4 * 2 ^ b) => pp.libsnarkH dbg (4 * 2 ^ b) i (q i) (masks i) rng)
          (fun i : Fin (4 * 2 ^ b) => pp.libsnarkH dbg (4 * 2 ^ b) i (q' i) (masks' i) rng)
          (fun _ => True) (fun _ => True) := by
  have hle := l_eq hpp
  have hg := PSS.good_of_new hpp
  have hl := hg.lpos
  have hz := generator_pow_ne_one hcos
  obtain ⟨hwf, hoff, -, hsize⟩ := Domain.new_pow2 hdom
  have hprim : IsPrimitiveRoot dom.groupGenInv (2 ^ (a + b)) := by rw [hwf.ginv, ← hsize]; exact hwf.prim.inv
  set g : F := FftField.GENERATOR with hgdef
  obtain ⟨δa, εa, da, ea, Ra, Ra', a1, a2⟩ := toCoset_couple hpp hgen dbg a ha hdom xa xa' g true P hinj hlt
  obtain ⟨δb, εb, db, eb, Rb, Rb', b1, b2⟩ := toCoset_couple hpp hgen dbg a ha hdom xb xb' g true P hinj hlt
  obtain ⟨δc, εc, dc, ec, Rc, Rc', c1, c2⟩ := toCoset_couple hpp hgen dbg a ha hdom xc xc' g true P hinj hlt
  let e := fun x => cosetVals dom (2 ^ (a + b)) g x
  obtain ⟨ε, dε, h3⟩ := PSS.dIfft_couple (n := 4 * 2 ^ b) hg dbg (by rw [hle]) ha hle (by rw [offset_eq hpp]; exact hgen) hsize hprim
    (fun i => (e xa i * e xb i - e xc i) * (g ^ 2 ^ (a + b) - 1)⁻¹) (fun i => (e xa' i * e xb' i - e xc' i) * (g ^ 2 ^ (a + b) - 1)⁻¹)
    g⁻¹ false P hinj hlt
  refine ⟨fun k => if k = 0 then δa else if k = 1 then δb else if k = 2 then δc else if k = 3 then εa else if k = 4 then εb else
    if k = 5 then εc else ε, ?_, ?_, dε, ?_⟩
  · intro k hk
    obtain rfl | rfl | rfl : k = 0 ∨ k = 1 ∨ k = 2 := by omega
    exacts [da, db, dc]
  · intro k hk
    obtain rfl | rfl | rfl : k = 0 ∨ k = 1 ∨ k = 2 := by omega
    exacts [ea, eb, ec]
  · rintro tf rng q q' masks masks' ⟨hq, hqa, hqb, hqc⟩ ⟨hq', hqa', hqb', hqc'⟩ ⟨hm1, hm2, hm3⟩ ⟨hm1', hm2', hm3'⟩
    refine Couple.congr ?_ (fun i => libsnarkH_unfold dbg hdom hz (hq i i.2) (masks i) rng i)
      (fun i => libsnarkH_unfold dbg hdom hz (hq' i i.2) (masks' i) rng i)
    have k0 := fun i => hm1 i 0 (by omega)
    have k1 := fun i => hm1 i 1 (by omega)
    have k2 := fun i => hm1 i 2 (by omega)
    have k3 := fun i => hm2 i 0 (by omega)
    have k4 := fun i => hm2 i 1 (by omega)
    have k5 := fun i => hm2 i 2 (by omega)
    have k0' := fun i => hm1' i 0 (by omega)
    have k1' := fun i => hm1' i 1 (by omega)
    have k2' := fun i => hm1' i 2 (by omega)
    have k3' := fun i => hm2' i 0 (by omega)
    have k4' := fun i => hm2' i 1 (by omega)
    have k5' := fun i => hm2' i 2 (by omega)
    simp only [Nat.add_zero, Nat.reduceAdd, if_true, one_ne_zero, OfNat.ofNat_ne_zero, OfNat.ofNat_ne_one, if_false, Nat.reduceEqDiff]
      at k3 k4 k5 k0' k1' k2' k3' k4' k5' hm3'
    simp only [k0, k1, k2, k3, k4, k5, k0', k1', k2', k3', k4', k5', hm3, hm3']
    refine Couple.tryJoin3 (a1 (tf 0) .zero (rng 0) _ _ hqa hqa') (b1 (tf 1) .one (rng 1) _ _ hqb hqb')
      (c1 (tf 2) .two (rng 2) _ _ hqc hqc') (fun _ _ => trivial) (fun _ _ => trivial) (fun _ _ => trivial) ?_
    rintro oa oa' ob ob' oc oc' ra ra' - rb rb' - rc rc' -
    refine Couple.tryJoin3 (a2 (tf 3) .zero (rng 3) _ _ ra ra') (b2 (tf 4) .one (rng 4) _ _ rb rb')
      (c2 (tf 5) .two (rng 5) _ _ rc rc') (fun _ _ => trivial) (fun _ _ => trivial) (fun _ _ => trivial) ?_
    rintro pa pa' pb pb' pc pc' ra ra' - rb rb' - rc rc' -
    have key : ∀ {pa pb pc : Nat → List F} {xa xb xc : Nat → F}, pp.SharedVec (2 * pp.l) (2 ^ a) pa (packed true a b xa) →
        pp.SharedVec (2 * pp.l) (2 ^ a) pb (packed true a b xb) → pp.SharedVec (2 * pp.l) (2 ^ a) pc (packed true a b xc) →
        pp.SharedVec (4 * pp.l - 1) (2 ^ a) (fun p => List.zipWith (fun ab c => (ab.1 * ab.2 - c) * (g ^ 2 ^ (a + b) - 1)⁻¹)
          (List.zip (pa p) (pb p)) (pc p)) (packed true a b fun i => (xa i * xb i - xc i) * (g ^ 2 ^ (a + b) - 1)⁻¹) := by
      intro pa pb pc xa xb xc ra rb rc
      refine SharedVec.congr (SharedVec.scale (SharedVec.mulSub hg hle true rfl ra rb rc) (g ^ 2 ^ (a + b) - 1)⁻¹) (fun p _ => ?_)
        fun c hc => packed_smul _ _ _ _ _ _
      rw [List.map_zipWith]
    exact ((h3 (tf 6) .zero (rng 6) (4 * pp.l - 1) _ _ (by omega) le_rfl (key ra rb rc) (key ra' rb' rc')).mono fun _ _ => trivial).imp
      (fun _ _ => trivial) fun _ _ => trivial

/-! ### The masks as the client draws them -/

/-- The masks of `circom_h`, sampled with the tapes `t 0`, …, `t 5` (`groth16/examples/sha256.rs:226-275`). -/
def CircomSampled (pp : PSS F) (dbg : Bool) (root : F) (dom : Domain F) (t : Nat → VecTape F) (masks : Nat → Nat → FftMask F) : Prop :=
  (∀ k < 3, FftMask.sample pp dbg true root dom.groupGenInv dom.size (t k).vals (t k).rngIn (t k).rngOut =
    .ok ((List.range pp.n).map fun p => masks p k)) ∧
  ∀ k < 3, FftMask.sample pp dbg false 1 dom.groupGen dom.size (t (3 + k)).vals (t (3 + k)).rngIn (t (3 + k)).rngOut =
    .ok ((List.range pp.n).map fun p => masks p (3 + k))

/-- The masks of `libsnark_h`, sampled with the tapes `t 0`, …, `t 6` (`groth16/src/ext_wit.rs:316-373`). -/
def LibsnarkSampled (pp : PSS F) (dbg : Bool) (dom : Domain F) (t : Nat → VecTape F) (masks : Nat → Nat → FftMask F) : Prop :=
  (∀ k < 3, FftMask.sample pp dbg true FftField.GENERATOR dom.groupGenInv dom.size (t k).vals (t k).rngIn (t k).rngOut =
    .ok ((List.range pp.n).map fun p => masks p k)) ∧
  (∀ k < 3, FftMask.sample pp dbg true 1 dom.groupGen dom.size (t (3 + k)).vals (t (3 + k)).rngIn (t (3 + k)).rngOut =
    .ok ((List.range pp.n).map fun p => masks p (3 + k))) ∧
  FftMask.sample pp dbg false FftField.GENERATOR⁻¹ dom.groupGenInv dom.size (t 6).vals (t 6).rngIn (t 6).rngOut =
    .ok ((List.range pp.n).map fun p => masks p 6)

/-- The masks the tapes give. -/
def circomMasks (pp : PSS F) (a b : Nat) (root : F) (dom : Domain F) (t : Nat → VecTape F) (p k : Nat) : FftMask F :=
  if k < 3 then pp.fftDealt a b true root dom.groupGenInv (t k) p else pp.fftDealt a b false 1 dom.groupGen (t k) p

/-- The masks the tapes give. -/
def libsnarkMasks (pp : PSS F) (a b : Nat) (dom : Domain F) (t : Nat → VecTape F) (p k : Nat) : FftMask F :=
  if k < 3 then pp.fftDealt a b true FftField.GENERATOR dom.groupGenInv (t k) p else
  if k < 6 then pp.fftDealt a b true 1 dom.groupGen (t k) p else
  pp.fftDealt a b false FftField.GENERATOR⁻¹ dom.groupGenInv (t k) p

theorem circomMasks_dealt (pp : PSS F) (a b : Nat) (root : F) (dom : Domain F) (t : Nat → VecTape F) :
    CircomDealt pp a b root dom t (circomMasks pp a b root dom t) :=
  ⟨fun p k hk => by rw [circomMasks, if_pos hk], fun p k hk => by rw [circomMasks, if_neg (by omega)]⟩

theorem libsnarkMasks_dealt (pp : PSS F) (a b : Nat) (dom : Domain F) (t : Nat → VecTape F) :
    LibsnarkDealt pp a b dom t (libsnarkMasks pp a b dom t) :=
  ⟨fun p k hk => by rw [libsnarkMasks, if_pos hk], fun p k hk => by rw [libsnarkMasks, if_neg (by omega), if_pos (by omega)],
    fun p => by rw [libsnarkMasks, if_neg (by omega), if_neg (by omega)]⟩

theorem CircomDealt.sampled {dbg₀ : Bool} {b : Nat} {pp : PSS F} (hpp : PSS.new dbg₀ (2 ^ b) = .ok pp) (dbg : Bool) {a : Nat}
    {dom : Domain F} (hdom : Domain.new (2 ^ (a + b)) = some dom) {root : F} {t : Nat → VecTape F} {masks : Nat → Nat → FftMask F}
    (h : CircomDealt pp a b root dom t masks) : CircomSampled pp dbg root dom t masks := by
  have hle := l_eq hpp
  have hg := PSS.good_of_new hpp
  obtain ⟨hwf, -, -, hsize⟩ := Domain.new_pow2 hdom
  have hprim : IsPrimitiveRoot dom.groupGen (2 ^ (a + b)) := by rw [← hsize]; exact hwf.prim
  have hprim' : IsPrimitiveRoot dom.groupGenInv (2 ^ (a + b)) := by rw [hwf.ginv]; exact hprim.inv
  refine ⟨fun k hk => ?_, fun k hk => ?_⟩
  · rw [hsize, FftMask.sample_dealt hg dbg hle hprim', hg.n_eq]
    simp only [h.1 _ k hk]
  · rw [hsize, FftMask.sample_dealt hg dbg hle hprim, hg.n_eq]
    simp only [h.2 _ k hk]

theorem LibsnarkDealt.sampled {dbg₀ : Bool} {b : Nat} {pp : PSS F} (hpp : PSS.new dbg₀ (2 ^ b) = .ok pp) (dbg : Bool) {a : Nat}
    {dom : Domain F} (hdom : Domain.new (2 ^ (a + b)) = some dom) {t : Nat → VecTape F} {masks : Nat → Nat → FftMask F}
    (h : LibsnarkDealt pp a b dom t masks) : LibsnarkSampled pp dbg dom t masks := by
  have hle := l_eq hpp
  have hg := PSS.good_of_new hpp
  obtain ⟨hwf, -, -, hsize⟩ := Domain.new_pow2 hdom
  have hprim : IsPrimitiveRoot dom.groupGen (2 ^ (a + b)) := by rw [← hsize]; exact hwf.prim
  have hprim' : IsPrimitiveRoot dom.groupGenInv (2 ^ (a + b)) := by rw [hwf.ginv]; exact hprim.inv
  refine ⟨fun k hk => ?_, fun k hk => ?_, ?_⟩
  · rw [hsize, FftMask.sample_dealt hg dbg hle hprim', hg.n_eq]
    simp only [h.1 _ k hk]
  · rw [hsize, FftMask.sample_dealt hg dbg hle hprim, hg.n_eq]
    simp only [h.2.1 _ k hk]
  · rw [hsize, FftMask.sample_dealt hg dbg hle hprim', hg.n_eq]
    simp only [h.2.2]

/-- The parties hold fresh shares of the three vectors of a program. -/
structure HoldsProgram (pp : PSS F) (a b : Nat) (dom : Domain F) (q : Nat → PackedQAPShare F) (va vb vc : List F) : Prop where
  domain : ∀ p < 4 * 2 ^ b, (q p).domain = dom
  vecA : HoldsOutput pp true a b (fun p => (q p).a) va
  vecB : HoldsOutput pp true a b (fun p => (q p).b) vb
  vecC : HoldsOutput pp true a b (fun p => (q p).c) vc

theorem HoldsProgram.shares {dbg₀ : Bool} {b : Nat} {pp : PSS F} (hpp : PSS.new dbg₀ (2 ^ b) = .ok pp) {a : Nat} {dom : Domain F}
    {q : Nat → PackedQAPShare F} {va vb vc : List F} (h : HoldsProgram pp a b dom q va vb vc) :
    SharesProgram pp a b dom q (fun i => va.getD i 0) (fun i => vb.getD i 0) (fun i => vc.getD i 0) := by
  obtain ⟨hd, ⟨-, ha⟩, ⟨-, hb⟩, ⟨-, hc⟩⟩ := h
  rw [← l_eq hpp] at ha hb hc
  exact ⟨hd, ha, hb, hc⟩

/-! ### C58 -/

/-- **C58** `circom_h`: for two programs and any `l` parties there are values such that adding them to the tapes of the seven masks
turns a run on the first program into a run on the second in which every party but the king is sent the same bytes, and the `l` parties
hold the same masks and end with the same outputs. -/
theorem C58_circom_h {dbg₀ : Bool} {b : Nat} {pp : PSS F} (hpp : PSS.new dbg₀ (2 ^ b) = .ok pp)
    (hgen : (FftField.GENERATOR : F) ^ (4 * 2 ^ b) ≠ 1) (dbg : Bool) (a : Nat) (ha : a < 64) {dom dom2 : Domain F}
    (hdom : Domain.new (2 ^ (a + b)) = some dom) (hdom2 : Domain.new (2 ^ (a + b + 1)) = some dom2)
    (va vb vc va' vb' vc' : List F) (P : Fin (2 ^ b) → Nat) (hinj : Function.Injective P) (hlt : ∀ i, P i < 4 * 2 ^ b) :
    ∃ (δ : Nat → VecTape F) (ε : VecTape F), ∀ (t : Nat → VecTape F) (td : VecTape F),
      ∃ (masks masks' : Nat → Nat → FftMask F) (dm dm' : Nat → DegRedMask F),
      CircomSampled pp dbg dom2.groupGen dom t masks ∧ CircomSampled pp dbg dom2.groupGen dom (fun k => (t k).add (δ k)) masks' ∧
      DegRedMask.sample pp dbg (1 : F) (2 ^ a) td.vals td.rngIn td.rngOut = .ok ((List.range (4 * 2 ^ b)).map dm) ∧
      DegRedMask.sample pp dbg (1 : F) (2 ^ a) (td.add ε).vals (td.add ε).rngIn (td.add ε).rngOut =
        .ok ((List.range (4 * 2 ^ b)).map dm') ∧
      (∀ i, (∀ k < 6, masks (P i) k = masks' (P i) k) ∧ dm (P i) = dm' (P i)) ∧
      ∀ q q' : Nat → PackedQAPShare F, HoldsProgram pp a b dom q va vb vc → HoldsProgram pp a b dom q' va' vb' vc' →
        ∀ rng : Nat → Nat → Nat → F, ∃ (outs outs' : Nat → List F) (views views' : Fin (4 * 2 ^ b) → Transcript),
          AlwaysYields (Net.init fun i : Fin (4 * 2 ^ b) => (pp.circomH dbg (4 * 2 ^ b) i (q i) (masks i) (dm i) rng).recorded)
            (fun i => (outs i, views i)) ∧
          AlwaysYields (Net.init fun i : Fin (4 * 2 ^ b) => (pp.circomH dbg (4 * 2 ^ b) i (q' i) (masks' i) (dm' i) rng).recorded)
            (fun i => (outs' i, views' i)) ∧ (∀ i, i.val ≠ 0 → views i = views' i) ∧ ∀ i, outs (P i) = outs' (P i) := by
  have hle := l_eq hpp
  have hg := PSS.good_of_new hpp
  obtain ⟨δ, ε, y, y', -, -, h1, h2, h3, h⟩ := circomH_couple hpp hgen dbg a ha hdom hdom2 (fun i => va.getD i 0) (fun i => vb.getD i 0)
    (fun i => vc.getD i 0) (fun i => va'.getD i 0) (fun i => vb'.getD i 0) (fun i => vc'.getD i 0) P hinj hlt
  have dm := fun t => DegRedMask.sample_dealt hg dbg (N := 2 ^ a) (by positivity) t
  rw [hle] at dm
  refine ⟨δ, ε, fun t td => ⟨_, _, _, _, (circomMasks_dealt pp a b dom2.groupGen dom t).sampled hpp dbg hdom,
    (circomMasks_dealt pp a b dom2.groupGen dom fun k => (t k).add (δ k)).sampled hpp dbg hdom, dm td, dm (td.add ε),
    fun i => ⟨fun k hk => ?_, (h3 td i).symm⟩, fun q q' hq hq' rng => ?_⟩⟩
  · unfold circomMasks
    split
    · next hk => exact (h1 k hk _ i).symm
    · next hk' =>
      obtain ⟨j, rfl⟩ : ∃ j, k = 3 + j := ⟨k - 3, by omega⟩
      exact (h2 j (by omega) _ i).symm
  · obtain ⟨outs, outs', views, views', r, r', hv, -, -, he⟩ := h t td rng q q' _ _ (hq.shares hpp) (hq'.shares hpp)
      (circomMasks_dealt pp a b dom2.groupGen dom t) (circomMasks_dealt pp a b dom2.groupGen dom fun k => (t k).add (δ k))
    exact ⟨outs, outs', views, views', r.alwaysYields fun i => circomH_wf _ (by positivity) _ _ _ _ _,
      r'.alwaysYields fun i => circomH_wf _ (by positivity) _ _ _ _ _, hv, he⟩

/-- **C58** `libsnark_h`: the same. -/
theorem C58_libsnark_h {dbg₀ : Bool} {b : Nat} {pp : PSS F} (hpp : PSS.new dbg₀ (2 ^ b) = .ok pp)
    (hgen : (FftField.GENERATOR : F) ^ (4 * 2 ^ b) ≠ 1) (dbg : Bool) (a : Nat) (ha : a < 64) {dom : Domain F}
    (hdom : Domain.new (2 ^ (a + b)) = some dom) (hcos : ∃ x : F, x ≠ 0 ∧ x ^ 2 ^ (a + b) ≠ 1)
    (va vb vc va' vb' vc' : List F) (P : Fin (2 ^ b) → Nat) (hinj : Function.Injective P) (hlt : ∀ i, P i < 4 * 2 ^ b) :
    ∃ δ : Nat → VecTape F, ∀ t : Nat → VecTape F, ∃ masks masks' : Nat → Nat → FftMask F,
      LibsnarkSampled pp dbg dom t masks ∧ LibsnarkSampled pp dbg dom (fun k => (t k).add (δ k)) masks' ∧
      (∀ i, ∀ k < 7, masks (P i) k = masks' (P i) k) ∧
      ∀ q q' : Nat → PackedQAPShare F, HoldsProgram pp a b dom q va vb vc → HoldsProgram pp a b dom q' va' vb' vc' →
        ∀ rng : Nat → Nat → Nat → F, ∃ (outs outs' : Nat → List F) (views views' : Fin (4 * 2 ^ b) → Transcript),
          AlwaysYields (Net.init fun i : Fin (4 * 2 ^ b) => (pp.libsnarkH dbg (4 * 2 ^ b) i (q i) (masks i) rng).recorded)
            (fun i => (outs i, views i)) ∧
          AlwaysYields (Net.init fun i : Fin (4 * 2 ^ b) => (pp.libsnarkH dbg (4 * 2 ^ b) i (q' i) (masks' i) rng).recorded)
            (fun i => (outs' i, views' i)) ∧ (∀ i, i.val ≠ 0 → views i = views' i) ∧ ∀ i, outs (P i) = outs' (P i) := by
  obtain ⟨δ, h1, h2, h3, h⟩ := libsnarkH_couple hpp hgen dbg a ha hdom hcos (fun i => va.getD i 0) (fun i => vb.getD i 0)
    (fun i => vc.getD i 0) (fun i => va'.getD i 0) (fun i => vb'.getD i 0) (fun i => vc'.getD i 0) P hinj hlt
  refine ⟨δ, fun t => ⟨_, _, (libsnarkMasks_dealt pp a b dom t).sampled hpp dbg hdom,
    (libsnarkMasks_dealt pp a b dom fun k => (t k).add (δ k)).sampled hpp dbg hdom, fun i k hk => ?_, fun q q' hq hq' rng => ?_⟩⟩
  · unfold libsnarkMasks
    split
    · next hk => exact (h1 k hk _ i).symm
    · split
      · obtain ⟨j, rfl⟩ : ∃ j, k = 3 + j := ⟨k - 3, by omega⟩
        exact (h2 j (by omega) _ i).symm
      · obtain rfl : k = 6 := by omega
        exact (h3 _ i).symm
  · obtain ⟨outs, outs', views, views', r, r', hv, -, -, he⟩ := h t rng q q' _ _ (hq.shares hpp) (hq'.shares hpp)
      (libsnarkMasks_dealt pp a b dom t) (libsnarkMasks_dealt pp a b dom fun k => (t k).add (δ k))
    exact ⟨outs, outs', views, views', r.alwaysYields fun i => libsnarkH_wf _ (by positivity) _ _ _ _,
      r'.alwaysYields fun i => libsnarkH_wf _ (by positivity) _ _ _ _, hv, he⟩

/-! ### Examples -/

/-- Shares of a program over the example field. -/
theorem program17 (va vb vc : List (ZMod 17)) (ha : va.length = 4) (hb : vb.length = 4) (hc : vc.length = 4) :
    ∃ q : Nat → PackedQAPShare (ZMod 17), HoldsProgram pp17 1 1 dom17 q va vb vc := by
  obtain ⟨sa, -, h1⟩ := C27_fresh_input (pp17_eq true) true 1 va ha fun _ _ => 1
  obtain ⟨sb, -, h2⟩ := C27_fresh_input (pp17_eq true) true 1 vb hb fun _ _ => 1
  obtain ⟨sc, -, h3⟩ := C27_fresh_input (pp17_eq true) true 1 vc hc fun _ _ => 1
  exact ⟨fun p => ⟨2, 2, _, _, _, dom17⟩, fun _ _ => rfl, h1, h2, h3⟩

/-- The programs of the two roots of `x·x = 9` look the same to parties 3 and 6 during `circom_h` … -/
example (t : Nat → VecTape (ZMod 17)) (td : VecTape (ZMod 17)) : ∃ (q q' : Nat → PackedQAPShare (ZMod 17))
    (masks masks' : Nat → Nat → FftMask (ZMod 17)) (dm dm' : Nat → DegRedMask (ZMod 17)) (outs outs' : Nat → List (ZMod 17))
    (views views' : Fin (4 * 2 ^ 1) → Transcript), HoldsProgram pp17 1 1 dom17 q [3, 9, 1, 9] [3, 1, 0, 0] [9, 9, 0, 0] ∧
    HoldsProgram pp17 1 1 dom17 q' [14, 9, 1, 9] [14, 1, 0, 0] [9, 9, 0, 0] ∧ CircomSampled pp17 true 9 dom17 t masks ∧
    AlwaysYields (Net.init fun i : Fin (4 * 2 ^ 1) =>
      (pp17.circomH true (4 * 2 ^ 1) i (q i) (masks i) (dm i) fun _ i j => i + j).recorded) (fun i => (outs i, views i)) ∧
    AlwaysYields (Net.init fun i : Fin (4 * 2 ^ 1) =>
      (pp17.circomH true (4 * 2 ^ 1) i (q' i) (masks' i) (dm' i) fun _ i j => i + j).recorded) (fun i => (outs' i, views' i)) ∧
    (∀ i, i.val ≠ 0 → views i = views' i) ∧ ∀ i, outs (pair17 i) = outs' (pair17 i) := by
  obtain ⟨q, hq⟩ := program17 [3, 9, 1, 9] [3, 1, 0, 0] [9, 9, 0, 0] rfl rfl rfl
  obtain ⟨q', hq'⟩ := program17 [14, 9, 1, 9] [14, 1, 0, 0] [9, 9, 0, 0] rfl rfl rfl
  obtain ⟨δ, ε, h⟩ := C58_circom_h (pp17_eq true) gen17 true 1 (by norm_num) dom17_eq dom17b_eq [3, 9, 1, 9] [3, 1, 0, 0] [9, 9, 0, 0]
    [14, 9, 1, 9] [14, 1, 0, 0] [9, 9, 0, 0] pair17 pair17_inj pair17_lt
  obtain ⟨masks, masks', dm, dm', hm, -, -, -, -, hr⟩ := h t td
  obtain ⟨outs, outs', views, views', h1, h2, h3, h4⟩ := hr q q' hq hq' fun _ i j => i + j
  exact ⟨q, q', masks, masks', dm, dm', outs, outs', views, views', hq, hq', hm, h1, h2, h3, h4⟩

/-- … and during `libsnark_h`. -/
example (t : Nat → VecTape (ZMod 17)) : ∃ (q q' : Nat → PackedQAPShare (ZMod 17))
    (masks masks' : Nat → Nat → FftMask (ZMod 17)) (outs outs' : Nat → List (ZMod 17))
    (views views' : Fin (4 * 2 ^ 1) → Transcript), HoldsProgram pp17 1 1 dom17 q [3, 9, 1, 9] [3, 1, 0, 0] [9, 9, 0, 0] ∧
    HoldsProgram pp17 1 1 dom17 q' [14, 9, 1, 9] [14, 1, 0, 0] [9, 9, 0, 0] ∧ LibsnarkSampled pp17 true dom17 t masks ∧
    AlwaysYields (Net.init fun i : Fin (4 * 2 ^ 1) =>
      (pp17.libsnarkH true (4 * 2 ^ 1) i (q i) (masks i) fun _ i j => i + j).recorded) (fun i => (outs i, views i)) ∧
    AlwaysYields (Net.init fun i : Fin (4 * 2 ^ 1) =>
      (pp17.libsnarkH true (4 * 2 ^ 1) i (q' i) (masks' i) fun _ i j => i + j).recorded) (fun i => (outs' i, views' i)) ∧
    (∀ i, i.val ≠ 0 → views i = views' i) ∧ ∀ i, outs (pair17 i) = outs' (pair17 i) := by
  obtain ⟨q, hq⟩ := program17 [3, 9, 1, 9] [3, 1, 0, 0] [9, 9, 0, 0] rfl rfl rfl
  obtain ⟨q', hq'⟩ := program17 [14, 9, 1, 9] [14, 1, 0, 0] [9, 9, 0, 0] rfl rfl rfl
  obtain ⟨δ, h⟩ := C58_libsnark_h (pp17_eq true) gen17 true 1 (by norm_num) dom17_eq ⟨3, by decide, by decide⟩ [3, 9, 1, 9] [3, 1, 0, 0]
    [9, 9, 0, 0] [14, 9, 1, 9] [14, 1, 0, 0] [9, 9, 0, 0] pair17 pair17_inj pair17_lt
  obtain ⟨masks, masks', hm, -, -, hr⟩ := h t
  obtain ⟨outs, outs', views, views', h1, h2, h3, h4⟩ := hr q q' hq hq' fun _ i j => i + j
  exact ⟨q, q', masks, masks', outs, outs', views, views', hq, hq', hm, h1, h2, h3, h4⟩

end ZkSaas.Properties
