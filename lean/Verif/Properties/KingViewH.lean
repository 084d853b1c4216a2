import Verif.Properties.CoalitionH
import Verif.Properties.KingView

/-!
# C61, C62: what the king and `l - 1` other servers see of transforms of wide sharings, of `circom_h` and of `libsnark_h`
-/

set_option linter.unusedSectionVars false

namespace ZkSaas.Properties

open Finset Polynomial Spec

variable {F : Type} [Field F] [FftField F] [DecidableEq F] [FixedWire F]

/-! ### C61 for inputs with more than `2l` coefficients -/

theorem HoldsInput.wide {dbg₀ : Bool} {b : Nat} {pp : PSS F} (hpp : PSS.new dbg₀ (2 ^ b) = .ok pp) {a : Nat} {sh : Nat → List F} {v : List F}
    (h : HoldsInput pp a b sh v) : pp.SharedVec (4 * pp.l - 1) (2 ^ a) sh (packed true a b fun i => v.getD i 0) := by
  obtain ⟨-, d, -, hd, h⟩ := h
  rw [← l_eq hpp] at h hd
  exact SharedVec.mono hd h

/-- **C61** `d_fft` of inputs with up to `4l - 1` coefficients: if the shares of the two vectors differ by shares with `2l` coefficients, runs
on both may look the same to everybody and to the `l` parties, as in `C61_d_fft`. -/
theorem C61_d_fft_wide {dbg₀ : Bool} {b : Nat} {pp : PSS F} (hpp : PSS.new dbg₀ (2 ^ b) = .ok pp)
    (hgen : (FftField.GENERATOR : F) ^ (4 * 2 ^ b) ≠ 1) (dbg : Bool) (a : Nat) (ha : a < 64)
    {dom : Domain F} (hdom : Domain.new (2 ^ (a + b)) = some dom) (v v' : List F) (rearrange : Bool)
    (P : Fin (2 ^ b) → Nat) (hinj : Function.Injective P) (hlt : ∀ i, P i < 4 * 2 ^ b)
    (sh sh' : Nat → List F) (hsh : HoldsInput pp a b sh v) (hsh' : HoldsInput pp a b sh' v')
    (hP : ∀ i, sh (P i) = sh' (P i)) {D : Nat → List F}
    (hD : Spec.SharedVec pp.share.groupGen pp.secret.offset (2 ^ b) (2 * 2 ^ b) (2 ^ a) (fun p => List.zipWith (· - ·) (sh p) (sh' p)) D) :
    ∃ δ : VecTape F, ∀ t : VecTape F, ∃ masks masks' : Nat → FftMask F,
      FftMask.sample pp dbg rearrange 1 dom.groupGen (2 ^ (a + b)) t.vals t.rngIn t.rngOut =
        .ok ((List.range (4 * 2 ^ b)).map masks) ∧
      FftMask.sample pp dbg rearrange 1 dom.groupGen (2 ^ (a + b)) (t.add δ).vals (t.add δ).rngIn (t.add δ).rngOut =
        .ok ((List.range (4 * 2 ^ b)).map masks') ∧
      (∀ i, masks (P i) = masks' (P i)) ∧
      ∀ (sid : Sid) (rng : Nat → Nat → F), ∃ (outs outs' : Nat → List F) (views : Fin (4 * 2 ^ b) → Transcript),
          AlwaysYields (Net.init fun i : Fin (4 * 2 ^ b) =>
            (pp.dFft dbg (4 * 2 ^ b) i (sh i) (masks i) rearrange dom sid rng).recorded) (fun i => (outs i, views i)) ∧
          AlwaysYields (Net.init fun i : Fin (4 * 2 ^ b) =>
            (pp.dFft dbg (4 * 2 ^ b) i (sh' i) (masks' i) rearrange dom sid rng).recorded) (fun i => (outs' i, views i)) ∧
          ∀ i, outs (P i) = outs' (P i) := by
  have hle := l_eq hpp
  have hg := PSS.good_of_new hpp
  obtain ⟨hwf, -, -, hsize⟩ := Domain.new_pow2 hdom
  have hprim : IsPrimitiveRoot dom.groupGen (2 ^ (a + b)) := by rw [← hsize]; exact hwf.prim
  rw [← offset_eq hpp] at hgen
  rw [← hle] at hD
  obtain ⟨δ, hδ, h⟩ := PSS.dFft_kcouple_wide (n := 4 * 2 ^ b) hg dbg (by rw [hle]) ha hle hgen hsize hprim (fun i => v.getD i 0)
    (fun i => v'.getD i 0) rearrange P hinj hlt sh sh' (hsh.wide hpp) (hsh'.wide hpp) hP hD
  have fm := fun t => FftMask.sample_dealt hg dbg hle hprim rearrange 1 t
  rw [hle] at fm
  refine ⟨δ, fun t => ⟨_, _, fm t, fm (t.add δ), fun i => (hδ t i).symm, fun sid rng => ?_⟩⟩
  obtain ⟨outs, outs', views, h1, h2, -, -, h3⟩ := h t sid rng
  exact ⟨outs, outs', views, h1.alwaysYields fun i => PSS.dFft_wf _ (by positivity) _ _ _ _ _ _ _,
    h2.alwaysYields fun i => PSS.dFft_wf _ (by positivity) _ _ _ _ _ _ _, h3⟩

/-- **C61** `d_ifft`: the same. -/
theorem C61_d_ifft_wide {dbg₀ : Bool} {b : Nat} {pp : PSS F} (hpp : PSS.new dbg₀ (2 ^ b) = .ok pp)
    (hgen : (FftField.GENERATOR : F) ^ (4 * 2 ^ b) ≠ 1) (dbg : Bool) (a : Nat) (ha : a < 64)
    {dom : Domain F} (hdom : Domain.new (2 ^ (a + b)) = some dom) (v v' : List F) (g : F) (rearrange : Bool)
    (P : Fin (2 ^ b) → Nat) (hinj : Function.Injective P) (hlt : ∀ i, P i < 4 * 2 ^ b)
    (sh sh' : Nat → List F) (hsh : HoldsInput pp a b sh v) (hsh' : HoldsInput pp a b sh' v')
    (hP : ∀ i, sh (P i) = sh' (P i)) {D : Nat → List F}
    (hD : Spec.SharedVec pp.share.groupGen pp.secret.offset (2 ^ b) (2 * 2 ^ b) (2 ^ a) (fun p => List.zipWith (· - ·) (sh p) (sh' p)) D) :
    ∃ δ : VecTape F, ∀ t : VecTape F, ∃ masks masks' : Nat → FftMask F,
      FftMask.sample pp dbg rearrange g dom.groupGenInv (2 ^ (a + b)) t.vals t.rngIn t.rngOut =
        .ok ((List.range (4 * 2 ^ b)).map masks) ∧
      FftMask.sample pp dbg rearrange g dom.groupGenInv (2 ^ (a + b)) (t.add δ).vals (t.add δ).rngIn (t.add δ).rngOut =
        .ok ((List.range (4 * 2 ^ b)).map masks') ∧
      (∀ i, masks (P i) = masks' (P i)) ∧
      ∀ (sid : Sid) (rng : Nat → Nat → F), ∃ (outs outs' : Nat → List F) (views : Fin (4 * 2 ^ b) → Transcript),
          AlwaysYields (Net.init fun i : Fin (4 * 2 ^ b) =>
            (pp.dIfft dbg (4 * 2 ^ b) i (sh i) (masks i) rearrange dom g sid rng).recorded) (fun i => (outs i, views i)) ∧
          AlwaysYields (Net.init fun i : Fin (4 * 2 ^ b) =>
            (pp.dIfft dbg (4 * 2 ^ b) i (sh' i) (masks' i) rearrange dom g sid rng).recorded) (fun i => (outs' i, views i)) ∧
          ∀ i, outs (P i) = outs' (P i) := by
  have hle := l_eq hpp
  have hg := PSS.good_of_new hpp
  obtain ⟨hwf, -, -, hsize⟩ := Domain.new_pow2 hdom
  have hprim : IsPrimitiveRoot dom.groupGenInv (2 ^ (a + b)) := by rw [hwf.ginv, ← hsize]; exact hwf.prim.inv
  rw [← offset_eq hpp] at hgen
  rw [← hle] at hD
  obtain ⟨δ, hδ, h⟩ := PSS.dIfft_kcouple_wide (n := 4 * 2 ^ b) hg dbg (by rw [hle]) ha hle hgen hsize hprim (fun i => v.getD i 0)
    (fun i => v'.getD i 0) g rearrange P hinj hlt sh sh' (hsh.wide hpp) (hsh'.wide hpp) hP hD
  have fm := fun t => FftMask.sample_dealt hg dbg hle hprim rearrange g t
  rw [hle] at fm
  refine ⟨δ, fun t => ⟨_, _, fm t, fm (t.add δ), fun i => (hδ t i).symm, fun sid rng => ?_⟩⟩
  obtain ⟨outs, outs', views, h1, h2, -, -, h3⟩ := h t sid rng
  exact ⟨outs, outs', views, h1.alwaysYields fun i => PSS.dIfft_wf _ (by positivity) _ _ _ _ _ _ _ _,
    h2.alwaysYields fun i => PSS.dIfft_wf _ (by positivity) _ _ _ _ _ _ _ _, h3⟩

/-- **C61** `d_fft` reveals everything else to the king: when the king is sent the same bytes in runs on two vectors of shares, with any
masks, the shares differ by shares with `2l` coefficients. -/
theorem C61_d_fft_leaks {dbg₀ : Bool} {b : Nat} {pp : PSS F} (hpp : PSS.new dbg₀ (2 ^ b) = .ok pp) (dbg : Bool) (a : Nat) (ha : a < 64)
    {dom : Domain F} (hdom : Domain.new (2 ^ (a + b)) = some dom) (v v' : List F) (rearrange : Bool)
    (sh sh' : Nat → List F) (hsh : HoldsInput pp a b sh v) (hsh' : HoldsInput pp a b sh' v')
    {t t' : VecTape F} {masks masks' : Nat → FftMask F}
    (hm : FftMask.sample pp dbg rearrange 1 dom.groupGen (2 ^ (a + b)) t.vals t.rngIn t.rngOut = .ok ((List.range (4 * 2 ^ b)).map masks))
    (hm' : FftMask.sample pp dbg rearrange 1 dom.groupGen (2 ^ (a + b)) t'.vals t'.rngIn t'.rngOut = .ok ((List.range (4 * 2 ^ b)).map masks'))
    (sid : Sid) (rng rng' : Nat → Nat → F) {outs outs' : Nat → List F} {views views' : Fin (4 * 2 ^ b) → Transcript}
    (hr : AlwaysYields (Net.init fun i : Fin (4 * 2 ^ b) =>
      (pp.dFft dbg (4 * 2 ^ b) i (sh i) (masks i) rearrange dom sid rng).recorded) (fun i => (outs i, views i)))
    (hr' : AlwaysYields (Net.init fun i : Fin (4 * 2 ^ b) =>
      (pp.dFft dbg (4 * 2 ^ b) i (sh' i) (masks' i) rearrange dom sid rng').recorded) (fun i => (outs' i, views' i)))
    (hv : ∀ i, i.val = 0 → views i = views' i) :
    ∃ D, Spec.SharedVec pp.share.groupGen pp.secret.offset (2 ^ b) (2 * 2 ^ b) (2 ^ a) (fun p => List.zipWith (· - ·) (sh p) (sh' p)) D := by
  have hle := l_eq hpp
  have hg := PSS.good_of_new hpp
  have hb0 : 0 < 4 * 2 ^ b := by positivity
  obtain ⟨hwf, -, -, hsize⟩ := Domain.new_pow2 hdom
  have hprim : IsPrimitiveRoot dom.groupGen (2 ^ (a + b)) := by rw [← hsize]; exact hwf.prim
  have fm := fun t => FftMask.sample_dealt hg dbg hle hprim rearrange 1 t
  rw [hle] at fm
  have hsh := hsh.wide hpp
  have hsh' := hsh'.wide hpp
  have view : ∀ {v : List F} {sh : Nat → List F} {t : VecTape F} {masks : Nat → FftMask F} {rng : Nat → Nat → F} {outs : Nat → List F}
      {views : Fin (4 * 2 ^ b) → Transcript}, pp.SharedVec (4 * pp.l - 1) (2 ^ a) sh (packed true a b fun i => v.getD i 0) →
      FftMask.sample pp dbg rearrange 1 dom.groupGen (2 ^ (a + b)) t.vals t.rngIn t.rngOut = .ok ((List.range (4 * 2 ^ b)).map masks) →
      AlwaysYields (Net.init fun i : Fin (4 * 2 ^ b) => (pp.dFft dbg (4 * 2 ^ b) i (sh i) (masks i) rearrange dom sid rng).recorded)
        (fun i => (outs i, views i)) → views ⟨0, hb0⟩ = gathered (4 * 2 ^ b) fun p => addMask (fft1Val a b dom.groupGen (sh p))
          (pp.fftDealt a b rearrange 1 dom.groupGen t p).inMask := by
    intro v sh t masks rng outs views hsh hm hr
    have eqm : ∀ p < 4 * 2 ^ b, masks p = pp.fftDealt a b rearrange 1 dom.groupGen t p := fun p hp =>
      (List.map_inj_left.1 (Except.ok.inj (hm.symm.trans (fm t)))) p (List.mem_range.2 hp)
    obtain ⟨o, ans, r, -⟩ := PSS.dFft_view (n := 4 * 2 ^ b) hg dbg (by rw [hle]) ha hle hsize hprim (fun i => v.getD i 0) rearrange hsh t
      sid rng
    have r' := (r.congr (ps' := fun i : Fin (4 * 2 ^ b) => pp.dFft dbg (4 * 2 ^ b) i (sh i) (masks i) rearrange dom sid rng)
      (fun i => by rw [eqm i i.2]) (fun _ => rfl) fun _ => rfl).alwaysYields fun i => PSS.dFft_wf _ (by positivity) _ _ _ _ _ _ _
    exact congrArg Prod.snd (congrFun (AlwaysYields.unique hr r') ⟨0, hb0⟩)
  have e := view hsh hm hr
  rw [hv _ rfl, view hsh' hm' hr'] at e
  replace e := e.symm
  obtain ⟨D, hD⟩ := PSS.fft1_leaks hg (by rw [hle]) ha hle hprim rearrange 1 hsh.1 hsh'.1 t t' e
  exact ⟨D, by rw [← hle]; exact hD⟩

/-- **C61** `d_ifft`: the same. -/
theorem C61_d_ifft_leaks {dbg₀ : Bool} {b : Nat} {pp : PSS F} (hpp : PSS.new dbg₀ (2 ^ b) = .ok pp) (dbg : Bool) (a : Nat) (ha : a < 64)
    {dom : Domain F} (hdom : Domain.new (2 ^ (a + b)) = some dom) (v v' : List F) (g : F) (rearrange : Bool)
    (sh sh' : Nat → List F) (hsh : HoldsInput pp a b sh v) (hsh' : HoldsInput pp a b sh' v')
    {t t' : VecTape F} {masks masks' : Nat → FftMask F}
    (hm : FftMask.sample pp dbg rearrange g dom.groupGenInv (2 ^ (a + b)) t.vals t.rngIn t.rngOut = .ok ((List.range (4 * 2 ^ b)).map masks))
    (hm' : FftMask.sample pp dbg rearrange g dom.groupGenInv (2 ^ (a + b)) t'.vals t'.rngIn t'.rngOut = .ok ((List.range (4 * 2 ^ b)).map masks'))
    (sid : Sid) (rng rng' : Nat → Nat → F) {outs outs' : Nat → List F} {views views' : Fin (4 * 2 ^ b) → Transcript}
    (hr : AlwaysYields (Net.init fun i : Fin (4 * 2 ^ b) =>
      (pp.dIfft dbg (4 * 2 ^ b) i (sh i) (masks i) rearrange dom g sid rng).recorded) (fun i => (outs i, views i)))
    (hr' : AlwaysYields (Net.init fun i : Fin (4 * 2 ^ b) =>
      (pp.dIfft dbg (4 * 2 ^ b) i (sh' i) (masks' i) rearrange dom g sid rng').recorded) (fun i => (outs' i, views' i)))
    (hv : ∀ i, i.val = 0 → views i = views' i) :
    ∃ D, Spec.SharedVec pp.share.groupGen pp.secret.offset (2 ^ b) (2 * 2 ^ b) (2 ^ a) (fun p => List.zipWith (· - ·) (sh p) (sh' p)) D := by
  have hle := l_eq hpp
  have hg := PSS.good_of_new hpp
  have hb0 : 0 < 4 * 2 ^ b := by positivity
  obtain ⟨hwf, -, -, hsize⟩ := Domain.new_pow2 hdom
  have hprim : IsPrimitiveRoot dom.groupGenInv (2 ^ (a + b)) := by rw [hwf.ginv, ← hsize]; exact hwf.prim.inv
  have fm := fun t => FftMask.sample_dealt hg dbg hle hprim rearrange g t
  rw [hle] at fm
  have hsh := hsh.wide hpp
  have hsh' := hsh'.wide hpp
  have view : ∀ {v : List F} {sh : Nat → List F} {t : VecTape F} {masks : Nat → FftMask F} {rng : Nat → Nat → F} {outs : Nat → List F}
      {views : Fin (4 * 2 ^ b) → Transcript}, pp.SharedVec (4 * pp.l - 1) (2 ^ a) sh (packed true a b fun i => v.getD i 0) →
      FftMask.sample pp dbg rearrange g dom.groupGenInv (2 ^ (a + b)) t.vals t.rngIn t.rngOut = .ok ((List.range (4 * 2 ^ b)).map masks) →
      AlwaysYields (Net.init fun i : Fin (4 * 2 ^ b) => (pp.dIfft dbg (4 * 2 ^ b) i (sh i) (masks i) rearrange dom g sid rng).recorded)
        (fun i => (outs i, views i)) → views ⟨0, hb0⟩ = gathered (4 * 2 ^ b) fun p => addMask (fft1Val a b dom.groupGenInv ((sh p).map fun z => z * dom.sizeInv))
          (pp.fftDealt a b rearrange g dom.groupGenInv t p).inMask := by
    intro v sh t masks rng outs views hsh hm hr
    have eqm : ∀ p < 4 * 2 ^ b, masks p = pp.fftDealt a b rearrange g dom.groupGenInv t p := fun p hp =>
      (List.map_inj_left.1 (Except.ok.inj (hm.symm.trans (fm t)))) p (List.mem_range.2 hp)
    obtain ⟨o, ans, r, -⟩ := PSS.dIfft_view (n := 4 * 2 ^ b) hg dbg (by rw [hle]) ha hle hsize hprim (fun i => v.getD i 0) g rearrange hsh t
      sid rng
    have r' := (r.congr (ps' := fun i : Fin (4 * 2 ^ b) => pp.dIfft dbg (4 * 2 ^ b) i (sh i) (masks i) rearrange dom g sid rng)
      (fun i => by rw [eqm i i.2]) (fun _ => rfl) fun _ => rfl).alwaysYields fun i => PSS.dIfft_wf _ (by positivity) _ _ _ _ _ _ _ _
    exact congrArg Prod.snd (congrFun (AlwaysYields.unique hr r') ⟨0, hb0⟩)
  have e := view hsh hm hr
  rw [hv _ rfl, view hsh' hm' hr'] at e
  replace e := e.symm
  obtain ⟨D, hD⟩ := PSS.fft1_leaks hg (by rw [hle]) ha hle hprim rearrange g (fun p hp => by rw [List.length_map]; exact hsh.1 p hp)
    (fun p hp => by rw [List.length_map]; exact hsh'.1 p hp) t t' e
  rw [← hle]
  refine ⟨_, SharedVec.congr (SharedVec.scale hD (dom.size : F)) (fun p hp => ?_) fun _ _ => rfl⟩
  rw [diff, List.zipWith_map_left, List.zipWith_map_right, List.map_zipWith]
  have hs : dom.sizeInv * (dom.size : F) = 1 := by rw [hwf.sinv, inv_mul_cancel₀ hwf.szne]
  congr 1
  funext x y
  rw [← sub_mul, mul_assoc, hs, mul_one]

/-! ### Runs that look the same, the king's view included -/

/-- Two sharings of the same secrets with `2l` coefficients that agree for `l` parties agree for all. -/
theorem SharedVec.agree {T : Type} [AddCommGroup T] [Module F T] [DecidableEq T] {pp : PSS F} (hg : pp.Good) {l : Nat} (hle : pp.l = l)
    (hgen : pp.secret.offset ^ (4 * l) ≠ 1) {N : Nat} {x y sec : Nat → List T} (hx : pp.SharedVec (2 * pp.l) N x sec)
    (hy : pp.SharedVec (2 * pp.l) N y sec) (P : Fin l → Nat) (hinj : Function.Injective P) (hlt : ∀ i, P i < 4 * l)
    (hP : ∀ i, x (P i) = y (P i)) : ∀ p < 4 * pp.l, x p = y p := by
  obtain ⟨r, hr⟩ := PSS.tape_of_shares hg hx
  obtain ⟨s, hs⟩ := PSS.tape_of_shares hg hy
  have cut : ∀ (r : Nat → Nat → T) p, p < 4 * pp.l → pp.freshVec N sec (ext2 fun (c : Fin N) (i : Fin l) => r c i) p = pp.freshVec N sec r p := by
    intro r p hp
    apply list_ext_getD 0 (by rw [PSS.freshVec_length, PSS.freshVec_length])
    intro c hc
    rw [PSS.freshVec_length] at hc
    rw [PSS.freshVec_getD hg _ _ _ hp hc, PSS.freshVec_getD hg _ _ _ hp hc]
    congr 2
    refine PSS.packCoeffs_congr fun i hi => ?_
    rw [hg.t_eq, hle] at hi
    rw [ext2_fin _ hc hi]
  obtain ⟨tape, -, hu⟩ := PSS.freshVec_privacy hg hle hgen (N := N) (sec := sec) (fun c hc => by rw [(hx.2 c hc).2.1, hle]) P hinj hlt
    fun c i => (x (P i)).getD c.val 0
  have hp : ∀ i, P i < 4 * pp.l := fun i => by rw [hle]; exact hlt i
  have e1 := hu (fun c i => r c i) fun i c => by rw [cut r _ (hp i), hr _ (hp i)]
  have e2 := hu (fun c i => s c i) fun i c => by rw [cut s _ (hp i), hs _ (hp i), hP]
  intro p hp
  rw [← hr p hp, ← hs p hp, ← cut r p hp, ← cut s p hp, e1, e2]

/-- A change of random tapes in which the change of each tape depends on the earlier ones only. -/
def Triangular (δ : Nat → (Nat → VecTape F) → VecTape F) : Prop := ∀ k t t', (∀ j < k, t j = t' j) → δ k t = δ k t'

/-- The tapes after the change. -/
def shifted (δ : Nat → (Nat → VecTape F) → VecTape F) (t : Nat → VecTape F) (k : Nat) : VecTape F := (t k).add (δ k t)

theorem VecTape.add_cancel {t t' d : VecTape F} (h : t.add d = t'.add d) : t = t' := by
  obtain ⟨v, i, o⟩ := t
  obtain ⟨v', i', o'⟩ := t'
  simp only [VecTape.add, VecTape.mk.injEq] at h ⊢
  exact ⟨funext fun x => add_right_cancel (congrFun h.1 x), funext fun x => funext fun y => add_right_cancel (congrFun (congrFun h.2.1 x) y),
    funext fun x => funext fun y => add_right_cancel (congrFun (congrFun h.2.2 x) y)⟩

theorem VecTape.exists_sub (t d : VecTape F) : ∃ s : VecTape F, s.add d = t :=
  ⟨⟨fun i => t.vals i - d.vals i, fun i j => t.rngIn i j - d.rngIn i j, fun i j => t.rngOut i j - d.rngOut i j⟩, by
    obtain ⟨v, i, o⟩ := t
    simp [VecTape.add]⟩

/-- **C62** A triangular change of the tapes is a bijection: it does not change the distribution of tapes drawn uniformly. -/
theorem C62_shift_bijective {δ : Nat → (Nat → VecTape F) → VecTape F} (h : Triangular δ) : Function.Bijective (shifted δ) := by
  constructor
  · intro t t' e
    funext k
    induction k using Nat.strong_induction_on with
    | _ k ih =>
      have h1 := congrFun e k
      unfold shifted at h1
      rw [h k t t' ih] at h1
      exact VecTape.add_cancel h1
  · intro t
    choose sub hsub using fun t d : VecTape F => VecTape.exists_sub t d
    let z : VecTape F := ⟨fun _ => 0, fun _ _ => 0, fun _ _ => 0⟩
    -- the first `k` tapes
    let s : Nat → Nat → VecTape F := fun k => Nat.rec (fun _ => z) (fun k s => fun j => if j = k then sub (t k) (δ k s) else s j) k
    have hs : ∀ k j, s (k + 1) j = if j = k then sub (t k) (δ k (s k)) else s k j := fun _ _ => rfl
    have stable : ∀ k j m, j < k → k ≤ m → s m j = s k j := by
      intro k j m hj hkm
      induction m, hkm using Nat.le_induction with
      | base => rfl
      | succ m hm ih => rw [hs, if_neg (by omega), ih]
    refine ⟨fun j => s (j + 1) j, funext fun k => ?_⟩
    unfold shifted
    rw [h k (fun j => s (j + 1) j) (s k) fun j hj => (stable (j + 1) j k (by omega) (by omega)).symm]
    show (s (k + 1) k).add _ = _
    rw [hs, if_pos rfl]
    exact hsub _ _

theorem toCoset_kcouple {dbg₀ : Bool} {b : Nat} {pp : PSS F} (hpp : PSS.new dbg₀ (2 ^ b) = .ok pp)
    (hgen : (FftField.GENERATOR : F) ^ (4 * 2 ^ b) ≠ 1) (dbg : Bool) (a : Nat)
    (ha : a < 64) {dom : Domain F} (hdom : Domain.new (2 ^ (a + b)) = some dom) (x x' : Nat → F) (g : F) (re : Bool)
    (P : Fin (2 ^ b) → Nat) (hinj : Function.Injective P) (hlt : ∀ i, P i < 4 * 2 ^ b) (sh sh' : Nat → List F)
    (hsh : pp.SharedVec (2 * pp.l) (2 ^ a) sh (packed true a b x)) (hsh' : pp.SharedVec (2 * pp.l) (2 ^ a) sh' (packed true a b x'))
    (hP : ∀ i, sh (P i) = sh' (P i)) (sid : Sid) (r1 r2 : Nat → Nat → F) :
    ∃ (δ : VecTape F) (ε : VecTape F → VecTape F),
      (∀ t i, pp.fftDealt a b true g dom.groupGenInv (t.add δ) (P i) = pp.fftDealt a b true g dom.groupGenInv t (P i)) ∧
      (∀ s t i, pp.fftDealt a b re 1 dom.groupGen (t.add (ε s)) (P i) = pp.fftDealt a b re 1 dom.groupGen t (P i)) ∧
      ∀ s, ∃ (o o' : Nat → List F) (vs : Fin (4 * 2 ^ b) → Transcript),
        RunsV All (only sid) (fun i : Fin (4 * 2 ^ b) =>
          pp.dIfft dbg (4 * 2 ^ b) i (sh i) (pp.fftDealt a b true g dom.groupGenInv s i) true dom g sid r1) (fun i => o i) vs ∧
        RunsV All (only sid) (fun i : Fin (4 * 2 ^ b) =>
          pp.dIfft dbg (4 * 2 ^ b) i (sh' i) (pp.fftDealt a b true g dom.groupGenInv (s.add δ) i) true dom g sid r1) (fun i => o' i) vs ∧
        ∀ t, KCouple (only sid) P
          (fun i : Fin (4 * 2 ^ b) => pp.dFft dbg (4 * 2 ^ b) i (o i) (pp.fftDealt a b re 1 dom.groupGen t i) re dom sid r2)
          (fun i : Fin (4 * 2 ^ b) => pp.dFft dbg (4 * 2 ^ b) i (o' i) (pp.fftDealt a b re 1 dom.groupGen (t.add (ε s)) i) re dom sid r2)
          (fun e => pp.SharedVec (2 * pp.l) (2 ^ a) e (packed re a b (cosetVals dom (2 ^ (a + b)) g x)))
          (fun e => pp.SharedVec (2 * pp.l) (2 ^ a) e (packed re a b (cosetVals dom (2 ^ (a + b)) g x'))) := by
  have hle := l_eq hpp
  have hg := PSS.good_of_new hpp
  obtain ⟨hwf, -, -, hsize⟩ := Domain.new_pow2 hdom
  have hprim : IsPrimitiveRoot dom.groupGen (2 ^ (a + b)) := by rw [← hsize]; exact hwf.prim
  have hprim' : IsPrimitiveRoot dom.groupGenInv (2 ^ (a + b)) := by rw [hwf.ginv]; exact hprim.inv
  rw [← offset_eq hpp] at hgen
  obtain ⟨δ, hδ, h1⟩ := PSS.dIfft_kcouple (n := 4 * 2 ^ b) hg dbg (by rw [hle]) ha hle hgen hsize hprim' x x' g true P hinj hlt sh sh'
    hsh hsh' hP
  choose o o' vs q1 q2 q3 q4 q5 using fun s => h1 s sid r1
  choose ε hε h2 using fun s => PSS.dFft_kcouple (n := 4 * 2 ^ b) hg dbg (by rw [hle]) ha hle hgen hsize hprim
    (fun k => g ^ k * ∑ u ∈ range (2 ^ (a + b)), (dom.groupGenInv ^ k) ^ u * (x u * dom.sizeInv))
    (fun k => g ^ k * ∑ u ∈ range (2 ^ (a + b)), (dom.groupGenInv ^ k) ^ u * (x' u * dom.sizeInv)) re P hinj hlt (o s) (o' s) (q3 s) (q4 s)
    (q5 s)
  exact ⟨δ, ε, hδ, hε, fun s => ⟨o s, o' s, vs s, q1 s, q2 s, fun t => h2 s t sid r2⟩⟩

/-! ### The six transforms of `circom_h` and `libsnark_h` -/

/-- Running `d_ifft` and then `d_fft` on the shares `sh` gives the shares `e`. -/
def TransformsTo (pp : PSS F) (dbg : Bool) (b : Nat) (dom : Domain F) (root : F) (re : Bool) (sid : Sid) (sh : Nat → List F)
    (m m' : Nat → FftMask F) (r r' : Nat → Nat → F) (e : Nat → List F) : Prop :=
  ∃ c : Nat → List F,
    AlwaysYields (Net.init fun i : Fin (4 * 2 ^ b) => pp.dIfft dbg (4 * 2 ^ b) i (sh i) (m i) true dom root sid r) (fun i => c i) ∧
    AlwaysYields (Net.init fun i : Fin (4 * 2 ^ b) => pp.dFft dbg (4 * 2 ^ b) i (c i) (m' i) re dom sid r') (fun i => e i)

theorem TransformsTo.unique {pp : PSS F} {dbg : Bool} {b : Nat} {dom : Domain F} {root : F} {re : Bool} {sid : Sid} {sh : Nat → List F}
    {m m' : Nat → FftMask F} {r r' : Nat → Nat → F} {e e' : Nat → List F} (h : TransformsTo pp dbg b dom root re sid sh m m' r r' e)
    (h' : TransformsTo pp dbg b dom root re sid sh m m' r r' e') : ∀ p < 4 * 2 ^ b, e p = e' p := by
  obtain ⟨c, h1, h2⟩ := h
  obtain ⟨c', h1', h2'⟩ := h'
  have hc : ∀ i : Fin (4 * 2 ^ b), c i = c' i := fun i => congrFun (AlwaysYields.unique h1 h1') i
  simp only [hc] at h2
  exact fun p hp => congrFun (AlwaysYields.unique h2 h2') ⟨p, hp⟩

/-- The six transforms, followed by `k` (`groth16/src/ext_wit.rs:30-124` and `:138-244`). -/
def stages {β : Type} (pp : PSS F) (dbg : Bool) (b : Nat) (dom : Domain F) (root : F) (re : Bool) (q : PackedQAPShare F) (masks : Nat → FftMask F)
    (rng : Nat → Nat → Nat → F) (i : Nat) (k : List F → List F → List F → Proc β) : Proc β :=
  tryJoin3 (pp.dIfft dbg (4 * 2 ^ b) i q.a (masks 0) true dom root .zero (rng 0))
    (pp.dIfft dbg (4 * 2 ^ b) i q.b (masks 1) true dom root .one (rng 1))
    (pp.dIfft dbg (4 * 2 ^ b) i q.c (masks 2) true dom root .two (rng 2)) fun aCoeff bCoeff cCoeff =>
  tryJoin3 (pp.dFft dbg (4 * 2 ^ b) i aCoeff (masks 3) re dom .zero (rng 3))
    (pp.dFft dbg (4 * 2 ^ b) i bCoeff (masks 4) re dom .one (rng 4))
    (pp.dFft dbg (4 * 2 ^ b) i cCoeff (masks 5) re dom .two (rng 5)) k

/-- The six masks from six tapes. -/
def stageMasks (pp : PSS F) (a b : Nat) (root : F) (re : Bool) (dom : Domain F) (t : Nat → VecTape F) (p k : Nat) : FftMask F :=
  if k < 3 then pp.fftDealt a b true root dom.groupGenInv (t k) p else pp.fftDealt a b re 1 dom.groupGen (t k) p

/-- What the transforms of one program come to. -/
structure StagesTo (pp : PSS F) (dbg : Bool) (a b : Nat) (dom : Domain F) (root : F) (re : Bool) (q : Nat → PackedQAPShare F)
    (xa xb xc : Nat → F) (masks : Nat → Nat → FftMask F) (rng : Nat → Nat → Nat → F) (ea eb ec : Nat → List F)
    (w : Fin (4 * 2 ^ b) → Transcript) : Prop where
  toA : TransformsTo pp dbg b dom root re .zero (fun p => (q p).a) (fun p => masks p 0) (fun p => masks p 3) (rng 0) (rng 3) ea
  toB : TransformsTo pp dbg b dom root re .one (fun p => (q p).b) (fun p => masks p 1) (fun p => masks p 4) (rng 1) (rng 4) eb
  toC : TransformsTo pp dbg b dom root re .two (fun p => (q p).c) (fun p => masks p 2) (fun p => masks p 5) (rng 2) (rng 5) ec
  sharesA : pp.SharedVec (2 * pp.l) (2 ^ a) ea (packed re a b (cosetVals dom (2 ^ (a + b)) root xa))
  sharesB : pp.SharedVec (2 * pp.l) (2 ^ a) eb (packed re a b (cosetVals dom (2 ^ (a + b)) root xb))
  sharesC : pp.SharedVec (2 * pp.l) (2 ^ a) ec (packed re a b (cosetVals dom (2 ^ (a + b)) root xc))
  run : ∀ {β : Type} (k : Fin (4 * 2 ^ b) → List F → List F → List F → Proc β) (out : Fin (4 * 2 ^ b) → β) (r : Fin (4 * 2 ^ b) → Transcript),
    RunsV All (fun _ => True) (fun i => k i (ea i) (eb i) (ec i)) out r →
    RunsV All (fun _ => True) (fun i : Fin (4 * 2 ^ b) => stages pp dbg b dom root re (q i) (masks i) rng i (k i)) out fun i => w i ++ r i

theorem stages_kcouple {dbg₀ : Bool} {b : Nat} {pp : PSS F} (hpp : PSS.new dbg₀ (2 ^ b) = .ok pp)
    (hgen : (FftField.GENERATOR : F) ^ (4 * 2 ^ b) ≠ 1) (dbg : Bool) (a : Nat)
    (ha : a < 64) {dom : Domain F} (hdom : Domain.new (2 ^ (a + b)) = some dom) (xa xb xc xa' xb' xc' : Nat → F) (g : F) (re : Bool)
    (P : Fin (2 ^ b) → Nat) (hinj : Function.Injective P) (hlt : ∀ i, P i < 4 * 2 ^ b) (q q' : Nat → PackedQAPShare F)
    (hq : SharesProgram pp a b dom q xa xb xc) (hq' : SharesProgram pp a b dom q' xa' xb' xc')
    (hP : ∀ i, (q (P i)).a = (q' (P i)).a ∧ (q (P i)).b = (q' (P i)).b ∧ (q (P i)).c = (q' (P i)).c) (rng : Nat → Nat → Nat → F) :
    ∃ δ : Nat → (Nat → VecTape F) → VecTape F, Triangular δ ∧
      (∀ t i, ∀ k < 6, stageMasks pp a b g re dom (shifted δ t) (P i) k = stageMasks pp a b g re dom t (P i) k) ∧
      ∀ t, ∃ (ea eb ec ea' eb' ec' : Nat → List F) (w : Fin (4 * 2 ^ b) → Transcript),
        StagesTo pp dbg a b dom g re q xa xb xc (stageMasks pp a b g re dom t) rng ea eb ec w ∧
        StagesTo pp dbg a b dom g re q' xa' xb' xc' (stageMasks pp a b g re dom (shifted δ t)) rng ea' eb' ec' w ∧
        ∀ i, ea (P i) = ea' (P i) ∧ eb (P i) = eb' (P i) ∧ ec (P i) = ec' (P i) := by
  obtain ⟨-, hqa, hqb, hqc⟩ := hq
  obtain ⟨-, hqa', hqb', hqc'⟩ := hq'
  obtain ⟨δa, εa, da, fa, ka⟩ := toCoset_kcouple hpp hgen dbg a ha hdom xa xa' g re P hinj hlt _ _ hqa hqa' (fun i => (hP i).1) .zero (rng 0) (rng 3)
  obtain ⟨δb, εb, db, fb, kb⟩ := toCoset_kcouple hpp hgen dbg a ha hdom xb xb' g re P hinj hlt _ _ hqb hqb' (fun i => (hP i).2.1) .one (rng 1) (rng 4)
  obtain ⟨δc, εc, dc, fc, kc⟩ := toCoset_kcouple hpp hgen dbg a ha hdom xc xc' g re P hinj hlt _ _ hqc hqc' (fun i => (hP i).2.2) .two (rng 2) (rng 5)
  refine ⟨fun k t => if k = 0 then δa else if k = 1 then δb else if k = 2 then δc else if k = 3 then εa (t 0) else if k = 4 then εb (t 1) else
    if k = 5 then εc (t 2) else ⟨fun _ => 0, fun _ _ => 0, fun _ _ => 0⟩, ?_, ?_, fun t => ?_⟩
  · intro k t t' h
    dsimp only
    split_ifs with h0 h1 h2 h3 h4 h5
    · rfl
    · rfl
    · rfl
    · rw [h 0 (by omega)]
    · rw [h 1 (by omega)]
    · rw [h 2 (by omega)]
    · rfl
  · intro t i k hk
    obtain rfl | rfl | rfl | rfl | rfl | rfl : k = 0 ∨ k = 1 ∨ k = 2 ∨ k = 3 ∨ k = 4 ∨ k = 5 := by omega
    exacts [da _ i, db _ i, dc _ i, fa _ _ i, fb _ _ i, fc _ _ i]
  · obtain ⟨oa, oa', va, ra, ra', ka⟩ := ka (t 0)
    obtain ⟨ob, ob', vb, rb, rb', kb⟩ := kb (t 1)
    obtain ⟨oc, oc', vc, rc, rc', kc⟩ := kc (t 2)
    obtain ⟨ea, ea', wa, sa, sa', ha1, ha2, ha3⟩ := ka (t 3)
    obtain ⟨eb, eb', wb, sb, sb', hb1, hb2, hb3⟩ := kb (t 4)
    obtain ⟨ec, ec', wc, sc, sc', hc1, hc2, hc3⟩ := kc (t 5)
    have hpos : 0 < 4 * 2 ^ b := by positivity
    have mk : ∀ {sid : Sid} {sh o e : Nat → List F} {m m' : Nat → FftMask F} {r1 r2 : Nat → Nat → F} {v w : Fin (4 * 2 ^ b) → Transcript},
        RunsV All (only sid) (fun i : Fin (4 * 2 ^ b) => pp.dIfft dbg (4 * 2 ^ b) i (sh i) (m i) true dom g sid r1) (fun i => o i) v →
        RunsV All (only sid) (fun i : Fin (4 * 2 ^ b) => pp.dFft dbg (4 * 2 ^ b) i (o i) (m' i) re dom sid r2) (fun i => e i) w →
        TransformsTo pp dbg b dom g re sid sh m m' r1 r2 e := fun h1 h2 =>
      ⟨_, AlwaysYields.of_recorded (h1.alwaysYields fun i => PSS.dIfft_wf _ hpos _ _ _ _ _ _ _ _),
        AlwaysYields.of_recorded (h2.alwaysYields fun i => PSS.dFft_wf _ hpos _ _ _ _ _ _ _)⟩
    refine ⟨ea, eb, ec, ea', eb', ec', fun i => va i ++ (vb i ++ (vc i ++ (wa i ++ (wb i ++ wc i)))),
      ⟨mk ra sa, mk rb sb, mk rc sc, ha1, hb1, hc1, fun k out r hk => ?_⟩,
      ⟨mk ra' sa', mk rb' sb', mk rc' sc', ha2, hb2, hc2, fun k out r hk => ?_⟩, fun i => ⟨ha3 i, hb3 i, hc3 i⟩⟩
    · have h2 := RunsV.tryJoin3 (S := fun _ => True) sa sb sc (fun _ _ => trivial) (fun _ _ => trivial) (fun _ _ => trivial) (k := k) hk
      have h1 := RunsV.tryJoin3 (S := fun _ => True) ra rb rc (fun _ _ => trivial) (fun _ _ => trivial) (fun _ _ => trivial)
        (k := fun i x y z => tryJoin3 (pp.dFft dbg (4 * 2 ^ b) i x _ re dom .zero (rng 3)) (pp.dFft dbg (4 * 2 ^ b) i y _ re dom .one (rng 4))
          (pp.dFft dbg (4 * 2 ^ b) i z _ re dom .two (rng 5)) (k i)) h2
      exact RunsV.congr h1 (fun _ => rfl) (fun _ => rfl) fun i => by simp only [List.append_assoc]
    · have h2 := RunsV.tryJoin3 (S := fun _ => True) sa' sb' sc' (fun _ _ => trivial) (fun _ _ => trivial) (fun _ _ => trivial) (k := k) hk
      have h1 := RunsV.tryJoin3 (S := fun _ => True) ra' rb' rc' (fun _ _ => trivial) (fun _ _ => trivial) (fun _ _ => trivial)
        (k := fun i x y z => tryJoin3 (pp.dFft dbg (4 * 2 ^ b) i x _ re dom .zero (rng 3)) (pp.dFft dbg (4 * 2 ^ b) i y _ re dom .one (rng 4))
          (pp.dFft dbg (4 * 2 ^ b) i z _ re dom .two (rng 5)) (k i)) h2
      exact RunsV.congr h1 (fun _ => rfl) (fun _ => rfl) fun i => by simp only [List.append_assoc]

/-! ### C62 -/

/-- The transforms give the shares `e` of `A · B - C` on the coset: what goes into the last step of `circom_h` and, multiplied with a
constant, of `libsnark_h`. -/
def EvaluatesTo (pp : PSS F) (dbg : Bool) (b : Nat) (dom : Domain F) (root : F) (re : Bool) (q : Nat → PackedQAPShare F)
    (masks : Nat → Nat → FftMask F) (rng : Nat → Nat → Nat → F) (e : Nat → List F) : Prop :=
  ∃ ea eb ec : Nat → List F,
    TransformsTo pp dbg b dom root re .zero (fun p => (q p).a) (fun p => masks p 0) (fun p => masks p 3) (rng 0) (rng 3) ea ∧
    TransformsTo pp dbg b dom root re .one (fun p => (q p).b) (fun p => masks p 1) (fun p => masks p 4) (rng 1) (rng 4) eb ∧
    TransformsTo pp dbg b dom root re .two (fun p => (q p).c) (fun p => masks p 2) (fun p => masks p 5) (rng 2) (rng 5) ec ∧
    ∀ p < 4 * 2 ^ b, e p = List.zipWith (fun ab c => ab.1 * ab.2 - c) (List.zip (ea p) (eb p)) (ec p)

theorem EvaluatesTo.unique {pp : PSS F} {dbg : Bool} {b : Nat} {dom : Domain F} {root : F} {re : Bool} {q : Nat → PackedQAPShare F}
    {masks : Nat → Nat → FftMask F} {rng : Nat → Nat → Nat → F} {e e' : Nat → List F} (h : EvaluatesTo pp dbg b dom root re q masks rng e)
    (h' : EvaluatesTo pp dbg b dom root re q masks rng e') : ∀ p < 4 * 2 ^ b, e p = e' p := by
  obtain ⟨ea, eb, ec, h1, h2, h3, h4⟩ := h
  obtain ⟨ea', eb', ec', h1', h2', h3', h4'⟩ := h'
  intro p hp
  rw [h4 p hp, h4' p hp, h1.unique h1' p hp, h2.unique h2' p hp, h3.unique h3' p hp]

theorem TransformsTo.congr_masks {pp : PSS F} {dbg : Bool} {b : Nat} {dom : Domain F} {root : F} {re : Bool} {sid : Sid} {sh : Nat → List F}
    {m m' n n' : Nat → FftMask F} {r r' : Nat → Nat → F} {e : Nat → List F} (h : TransformsTo pp dbg b dom root re sid sh m m' r r' e)
    (hm : ∀ p < 4 * 2 ^ b, m p = n p) (hm' : ∀ p < 4 * 2 ^ b, m' p = n' p) : TransformsTo pp dbg b dom root re sid sh n n' r r' e := by
  obtain ⟨c, h1, h2⟩ := h
  have k1 : ∀ i : Fin (4 * 2 ^ b), m i = n i := fun i => hm i i.2
  have k2 : ∀ i : Fin (4 * 2 ^ b), m' i = n' i := fun i => hm' i i.2
  simp only [k1] at h1
  simp only [k2] at h2
  exact ⟨c, h1, h2⟩

theorem EvaluatesTo.congr_masks {pp : PSS F} {dbg : Bool} {b : Nat} {dom : Domain F} {root : F} {re : Bool} {q : Nat → PackedQAPShare F}
    {masks masks' : Nat → Nat → FftMask F} {rng : Nat → Nat → Nat → F} {e : Nat → List F} (h : EvaluatesTo pp dbg b dom root re q masks rng e)
    (hm : ∀ p < 4 * 2 ^ b, ∀ k < 6, masks p k = masks' p k) : EvaluatesTo pp dbg b dom root re q masks' rng e := by
  obtain ⟨ea, eb, ec, h1, h2, h3, h4⟩ := h
  exact ⟨ea, eb, ec, h1.congr_masks (fun p hp => hm p hp 0 (by omega)) fun p hp => hm p hp 3 (by omega),
    h2.congr_masks (fun p hp => hm p hp 1 (by omega)) fun p hp => hm p hp 4 (by omega),
    h3.congr_masks (fun p hp => hm p hp 2 (by omega)) fun p hp => hm p hp 5 (by omega), h4⟩

theorem StagesTo.evaluates {pp : PSS F} {dbg : Bool} {a b : Nat} {dom : Domain F} {root : F} {re : Bool} {q : Nat → PackedQAPShare F}
    {xa xb xc : Nat → F} {masks : Nat → Nat → FftMask F} {rng : Nat → Nat → Nat → F} {ea eb ec : Nat → List F}
    {w : Fin (4 * 2 ^ b) → Transcript} (h : StagesTo pp dbg a b dom root re q xa xb xc masks rng ea eb ec w) :
    EvaluatesTo pp dbg b dom root re q masks rng fun p => List.zipWith (fun ab c => ab.1 * ab.2 - c) (List.zip (ea p) (eb p)) (ec p) :=
  ⟨ea, eb, ec, h.toA, h.toB, h.toC, fun _ _ => rfl⟩

theorem gathered_length {T : Type} [Wire T] (n : Nat) (x : Nat → T) : (gathered n x).length = n := by
  rw [gathered, List.length_map, List.length_range]

/-- What the king is sent in the first inverse transform of one of the three vectors. -/
def sentFirst (pp : PSS F) (a b : Nat) (g : F) (dom : Domain F) (sh : Nat → List F) (t : VecTape F) : Transcript :=
  gathered (4 * 2 ^ b) fun p => addMask (fft1Val a b dom.groupGenInv ((sh p).map fun z => z * dom.sizeInv))
    (pp.fftDealt a b true g dom.groupGenInv t p).inMask

/-- One run of the six transforms: the king is sent six times `n` messages. -/
theorem stages_view {dbg₀ : Bool} {b : Nat} {pp : PSS F} (hpp : PSS.new dbg₀ (2 ^ b) = .ok pp) (dbg : Bool) (a : Nat)
    (ha : a < 64) {dom : Domain F} (hdom : Domain.new (2 ^ (a + b)) = some dom) (xa xb xc : Nat → F) (g : F) (re : Bool)
    (q : Nat → PackedQAPShare F) (hq : SharesProgram pp a b dom q xa xb xc) (rng : Nat → Nat → Nat → F) (t : Nat → VecTape F) :
    ∃ (ea eb ec : Nat → List F) (w : Fin (4 * 2 ^ b) → Transcript),
      StagesTo pp dbg a b dom g re q xa xb xc (stageMasks pp a b g re dom t) rng ea eb ec w ∧
      (∀ i, i.val = 0 → (w i).length = 6 * (4 * 2 ^ b)) ∧
      ∀ i, i.val = 0 → ∃ rest, w i = sentFirst pp a b g dom (fun p => (q p).a) (t 0) ++ (sentFirst pp a b g dom (fun p => (q p).b) (t 1) ++
        (sentFirst pp a b g dom (fun p => (q p).c) (t 2) ++ rest)) := by
  obtain ⟨-, hqa, hqb, hqc⟩ := hq
  have hle := l_eq hpp
  have hg := PSS.good_of_new hpp
  have hl := hg.lpos
  obtain ⟨hwf, -, -, hsize⟩ := Domain.new_pow2 hdom
  have hprim : IsPrimitiveRoot dom.groupGen (2 ^ (a + b)) := by rw [← hsize]; exact hwf.prim
  have hprim' : IsPrimitiveRoot dom.groupGenInv (2 ^ (a + b)) := by rw [hwf.ginv]; exact hprim.inv
  have hpos : 0 < 4 * 2 ^ b := by positivity
  have one : ∀ (x : Nat → F) (sh : Nat → List F) (sid : Sid) (r1 r2 : Nat → Nat → F) (s t : VecTape F),
      pp.SharedVec (2 * pp.l) (2 ^ a) sh (packed true a b x) → ∃ (o e : Nat → List F) (v w : Fin (4 * 2 ^ b) → Transcript),
        RunsV All (only sid) (fun i : Fin (4 * 2 ^ b) => pp.dIfft dbg (4 * 2 ^ b) i (sh i) (pp.fftDealt a b true g dom.groupGenInv s i) true dom g
          sid r1) (fun i => o i) v ∧
        RunsV All (only sid) (fun i : Fin (4 * 2 ^ b) => pp.dFft dbg (4 * 2 ^ b) i (o i) (pp.fftDealt a b re 1 dom.groupGen t i) re dom sid r2)
          (fun i => e i) w ∧
        pp.SharedVec (2 * pp.l) (2 ^ a) e (packed re a b (cosetVals dom (2 ^ (a + b)) g x)) ∧
        ∀ i, i.val = 0 → ((v i).length = 4 * 2 ^ b ∧ (w i).length = 4 * 2 ^ b) ∧ v i = sentFirst pp a b g dom sh s := by
    intro x sh sid r1 r2 s t hsh
    obtain ⟨o, ans, h1, h2⟩ := PSS.dIfft_view (n := 4 * 2 ^ b) hg dbg (by rw [hle]) ha hle hsize hprim' x g true
      (SharedVec.mono (by omega) hsh) s sid r1
    obtain ⟨e, ans', h3, h4⟩ := PSS.dFft_view (n := 4 * 2 ^ b) hg dbg (by rw [hle]) ha hle hsize hprim _ re (SharedVec.mono (by omega) h2)
      t sid r2
    refine ⟨o, e, _, _, h1, h3, h4, fun i hi => ?_⟩
    rw [if_pos hi, if_pos hi, gathered_length, gathered_length]
    exact ⟨⟨rfl, rfl⟩, rfl⟩
  obtain ⟨oa, ea, va, wa, ra, sa, ha1, la⟩ := one xa _ .zero (rng 0) (rng 3) (t 0) (t 3) hqa
  obtain ⟨ob, eb, vb, wb, rb, sb, hb1, lb⟩ := one xb _ .one (rng 1) (rng 4) (t 1) (t 4) hqb
  obtain ⟨oc, ec, vc, wc, rc, sc, hc1, lc⟩ := one xc _ .two (rng 2) (rng 5) (t 2) (t 5) hqc
  have mk : ∀ {sid : Sid} {sh o e : Nat → List F} {m m' : Nat → FftMask F} {r1 r2 : Nat → Nat → F} {v w : Fin (4 * 2 ^ b) → Transcript},
      RunsV All (only sid) (fun i : Fin (4 * 2 ^ b) => pp.dIfft dbg (4 * 2 ^ b) i (sh i) (m i) true dom g sid r1) (fun i => o i) v →
      RunsV All (only sid) (fun i : Fin (4 * 2 ^ b) => pp.dFft dbg (4 * 2 ^ b) i (o i) (m' i) re dom sid r2) (fun i => e i) w →
      TransformsTo pp dbg b dom g re sid sh m m' r1 r2 e := fun h1 h2 =>
    ⟨_, AlwaysYields.of_recorded (h1.alwaysYields fun i => PSS.dIfft_wf _ hpos _ _ _ _ _ _ _ _),
      AlwaysYields.of_recorded (h2.alwaysYields fun i => PSS.dFft_wf _ hpos _ _ _ _ _ _ _)⟩
  refine ⟨ea, eb, ec, fun i => va i ++ (vb i ++ (vc i ++ (wa i ++ (wb i ++ wc i)))),
    ⟨mk ra sa, mk rb sb, mk rc sc, ha1, hb1, hc1, fun k out r hk => ?_⟩, fun i hi => ?_, fun i hi => ?_⟩
  · have h2 := RunsV.tryJoin3 (S := fun _ => True) sa sb sc (fun _ _ => trivial) (fun _ _ => trivial) (fun _ _ => trivial) (k := k) hk
    have h1 := RunsV.tryJoin3 (S := fun _ => True) ra rb rc (fun _ _ => trivial) (fun _ _ => trivial) (fun _ _ => trivial)
      (k := fun i x y z => tryJoin3 (pp.dFft dbg (4 * 2 ^ b) i x _ re dom .zero (rng 3)) (pp.dFft dbg (4 * 2 ^ b) i y _ re dom .one (rng 4))
        (pp.dFft dbg (4 * 2 ^ b) i z _ re dom .two (rng 5)) (k i)) h2
    exact RunsV.congr h1 (fun _ => rfl) (fun _ => rfl) fun i => by simp only [List.append_assoc]
  · simp only [List.length_append, (la i hi).1.1, (la i hi).1.2, (lb i hi).1.1, (lb i hi).1.2, (lc i hi).1.1, (lc i hi).1.2]
    omega
  · dsimp only
    rw [(la i hi).2, (lb i hi).2, (lc i hi).2]
    exact ⟨_, rfl⟩

theorem stages_congr {β : Type} {pp : PSS F} {dbg : Bool} {b : Nat} {dom : Domain F} {root : F} {re : Bool} {q : PackedQAPShare F}
    {masks masks' : Nat → FftMask F} {rng : Nat → Nat → Nat → F} {i : Nat} {k : List F → List F → List F → Proc β}
    (hm : ∀ k < 6, masks k = masks' k) : stages pp dbg b dom root re q masks rng i k = stages pp dbg b dom root re q masks' rng i k := by
  unfold stages
  rw [hm 0 (by omega), hm 1 (by omega), hm 2 (by omega), hm 3 (by omega), hm 4 (by omega), hm 5 (by omega)]

theorem circomH_stages {pp : PSS F} (dbg : Bool) {a b : Nat} {dom dom2 : Domain F} (hdom : Domain.new (2 ^ (a + b)) = some dom)
    (hdom2 : Domain.new (2 ^ (a + b + 1)) = some dom2) {q : PackedQAPShare F} (hq : q.domain = dom) (masks : Nat → FftMask F)
    (dm : DegRedMask F) (rng : Nat → Nat → Nat → F) (i : Nat) :
    pp.circomH dbg (4 * 2 ^ b) i q masks dm rng = stages pp dbg b dom dom2.groupGen false q masks rng i fun x y z =>
      pp.degRed dbg (4 * 2 ^ b) i (List.zipWith (fun ab c => ab.1 * ab.2 - c) (List.zip x y) z) dm .zero (rng 6) := by
  obtain ⟨-, -, -, hsize⟩ := Domain.new_pow2 hdom
  obtain ⟨-, hoff2, -, -⟩ := Domain.new_pow2 hdom2
  have hroot : dom2.element 1 = dom2.groupGen := by rw [Domain.element, hoff2, one_mul, pow_one]
  rw [PSS.circomH, hq, hsize, ← pow_succ', hdom2, ← hroot]
  rfl

theorem libsnarkH_stages {pp : PSS F} (dbg : Bool) {a b : Nat} {dom : Domain F} (hdom : Domain.new (2 ^ (a + b)) = some dom)
    (hz : (FftField.GENERATOR : F) ^ 2 ^ (a + b) - 1 ≠ 0) {q : PackedQAPShare F} (hq : q.domain = dom) (masks : Nat → FftMask F)
    (rng : Nat → Nat → Nat → F) (i : Nat) :
    pp.libsnarkH dbg (4 * 2 ^ b) i q masks rng = stages pp dbg b dom FftField.GENERATOR true q masks rng i fun x y z =>
      pp.dIfft dbg (4 * 2 ^ b) i ((List.zipWith (fun ab c => ab.1 * ab.2 - c) (List.zip x y) z).map
        fun u => u * (FftField.GENERATOR ^ 2 ^ (a + b) - 1)⁻¹) (masks 6) false dom FftField.GENERATOR⁻¹ .zero (rng 6) := by
  rw [libsnarkH_unfold dbg hdom hz hq]
  unfold stages
  simp only [List.map_zipWith]

theorem sampled_eq {n : Nat} {α : Type} {r : Res (List α)} {f g : Nat → α} (h : r = .ok ((List.range n).map f)) (h' : r = .ok ((List.range n).map g)) :
    ∀ p < n, f p = g p := fun p hp => (List.map_inj_left.1 (Except.ok.inj (h.symm.trans h'))) p (List.mem_range.2 hp)

theorem stageMasks_circom (pp : PSS F) (a b : Nat) (root : F) (dom : Domain F) (t : Nat → VecTape F) :
    CircomDealt pp a b root dom t (stageMasks pp a b root false dom t) :=
  ⟨fun p k hk => by rw [stageMasks, if_pos hk], fun p k hk => by rw [stageMasks, if_neg (by omega)]⟩

/-- The masks of `libsnark_h`: six for the transforms, one for the last step. -/
theorem stageMasks_libsnark (pp : PSS F) (a b : Nat) (dom : Domain F) (t : Nat → VecTape F) (p k : Nat) (hk : k < 6) :
    libsnarkMasks pp a b dom t p k = stageMasks pp a b FftField.GENERATOR true dom t p k := by
  unfold libsnarkMasks stageMasks
  split
  · rfl
  · first | rfl | rw [if_pos hk]

theorem CircomSampled.eq {dbg₀ : Bool} {b : Nat} {pp : PSS F} (hpp : PSS.new dbg₀ (2 ^ b) = .ok pp) {dbg : Bool} {a : Nat}
    {dom : Domain F} (hdom : Domain.new (2 ^ (a + b)) = some dom) {root : F} {t : Nat → VecTape F} {masks : Nat → Nat → FftMask F}
    (h : CircomSampled pp dbg root dom t masks) : ∀ p < 4 * 2 ^ b, ∀ k < 6, masks p k = stageMasks pp a b root false dom t p k := by
  have h' := (stageMasks_circom pp a b root dom t).sampled hpp dbg hdom
  have hn : pp.n = 4 * 2 ^ b := by rw [(PSS.good_of_new hpp).n_eq, l_eq hpp]
  intro p hp k hk
  rw [← hn] at hp
  by_cases h3 : k < 3
  · exact sampled_eq (h.1 k h3) (h'.1 k h3) p hp
  · obtain ⟨j, rfl⟩ : ∃ j, k = 3 + j := ⟨k - 3, by omega⟩
    exact sampled_eq (h.2 j (by omega)) (h'.2 j (by omega)) p hp

theorem LibsnarkSampled.eq {dbg₀ : Bool} {b : Nat} {pp : PSS F} (hpp : PSS.new dbg₀ (2 ^ b) = .ok pp) {dbg : Bool} {a : Nat}
    {dom : Domain F} (hdom : Domain.new (2 ^ (a + b)) = some dom) {t : Nat → VecTape F} {masks : Nat → Nat → FftMask F}
    (h : LibsnarkSampled pp dbg dom t masks) : ∀ p < 4 * 2 ^ b, ∀ k < 7, masks p k = libsnarkMasks pp a b dom t p k := by
  have h' := (libsnarkMasks_dealt pp a b dom t).sampled hpp dbg hdom
  have hn : pp.n = 4 * 2 ^ b := by rw [(PSS.good_of_new hpp).n_eq, l_eq hpp]
  intro p hp k hk
  rw [← hn] at hp
  by_cases h3 : k < 3
  · exact sampled_eq (h.1 k h3) (h'.1 k h3) p hp
  by_cases h6 : k < 6
  · obtain ⟨j, rfl⟩ : ∃ j, k = 3 + j := ⟨k - 3, by omega⟩
    exact sampled_eq (h.2.1 j (by omega)) (h'.2.1 j (by omega)) p hp
  · obtain rfl : k = 6 := by omega
    exact sampled_eq h.2.2 h'.2.2 p hp

theorem mulSub_diff {N : Nat} {x y z z' : List F} (hx : x.length = N) (hy : y.length = N) (hz : z.length = N) (hz' : z'.length = N) :
    List.zipWith (· - ·) (List.zipWith (fun ab c => ab.1 * ab.2 - c) (List.zip x y) z) (List.zipWith (fun ab c => ab.1 * ab.2 - c) (List.zip x y) z') =
      List.zipWith (· - ·) z' z := by
  apply List.ext_getElem
  · simp [hx, hy, hz, hz']
  · intro i h1 h2
    simp

/-- **C62** `circom_h` and the king: for shares of two programs that `l` parties cannot tell apart, the king among them or not, there is a
change of the random tapes of the six transforms, a bijection by `C62_shift_bijective`, after which everybody holds the shares `e'` of
`A · B - C` of the second program in place of the shares `e` of the first. If `e` and `e'` differ by shares with `2l` coefficients, there
is a change of the tape of the last mask such that the two runs look the same: every party, the king included, is sent the same bytes, and
the `l` parties hold the same masks and end with the same outputs. -/
theorem C62_circom_h {dbg₀ : Bool} {b : Nat} {pp : PSS F} (hpp : PSS.new dbg₀ (2 ^ b) = .ok pp)
    (hgen : (FftField.GENERATOR : F) ^ (4 * 2 ^ b) ≠ 1) (dbg : Bool) (a : Nat) (ha : a < 64) {dom dom2 : Domain F}
    (hdom : Domain.new (2 ^ (a + b)) = some dom) (hdom2 : Domain.new (2 ^ (a + b + 1)) = some dom2)
    (va vb vc va' vb' vc' : List F) (P : Fin (2 ^ b) → Nat) (hinj : Function.Injective P) (hlt : ∀ i, P i < 4 * 2 ^ b)
    (q q' : Nat → PackedQAPShare F) (hq : HoldsProgram pp a b dom q va vb vc) (hq' : HoldsProgram pp a b dom q' va' vb' vc')
    (hP : ∀ i, q (P i) = q' (P i)) (rng : Nat → Nat → Nat → F) :
    ∃ δ : Nat → (Nat → VecTape F) → VecTape F, Triangular δ ∧ ∀ t, ∃ (masks masks' : Nat → Nat → FftMask F) (e e' : Nat → List F),
      CircomSampled pp dbg dom2.groupGen dom t masks ∧ CircomSampled pp dbg dom2.groupGen dom (shifted δ t) masks' ∧
      (∀ i, ∀ k < 6, masks (P i) k = masks' (P i) k) ∧
      EvaluatesTo pp dbg b dom dom2.groupGen false q masks rng e ∧ EvaluatesTo pp dbg b dom dom2.groupGen false q' masks' rng e' ∧
      (va = va' → vb = vb' → ∃ D, Spec.SharedVec pp.share.groupGen pp.secret.offset (2 ^ b) (2 * 2 ^ b) (2 ^ a)
        (fun p => List.zipWith (· - ·) (e p) (e' p)) D) ∧
      ∀ D, Spec.SharedVec pp.share.groupGen pp.secret.offset (2 ^ b) (2 * 2 ^ b) (2 ^ a)
          (fun p => List.zipWith (· - ·) (e p) (e' p)) D →
        ∃ ε : VecTape F, ∀ td : VecTape F, ∃ dm dm' : Nat → DegRedMask F,
          DegRedMask.sample pp dbg (1 : F) (2 ^ a) td.vals td.rngIn td.rngOut = .ok ((List.range (4 * 2 ^ b)).map dm) ∧
          DegRedMask.sample pp dbg (1 : F) (2 ^ a) (td.add ε).vals (td.add ε).rngIn (td.add ε).rngOut =
            .ok ((List.range (4 * 2 ^ b)).map dm') ∧
          (∀ i, dm (P i) = dm' (P i)) ∧
          ∃ (outs outs' : Nat → List F) (views : Fin (4 * 2 ^ b) → Transcript),
            AlwaysYields (Net.init fun i : Fin (4 * 2 ^ b) => (pp.circomH dbg (4 * 2 ^ b) i (q i) (masks i) (dm i) rng).recorded)
              (fun i => (outs i, views i)) ∧
            AlwaysYields (Net.init fun i : Fin (4 * 2 ^ b) => (pp.circomH dbg (4 * 2 ^ b) i (q' i) (masks' i) (dm' i) rng).recorded)
              (fun i => (outs' i, views i)) ∧
            ∀ i, outs (P i) = outs' (P i) := by
  have hle := l_eq hpp
  have hg := PSS.good_of_new hpp
  have hl := hg.lpos
  have hN64 : 2 ^ a < 2 ^ 64 := Nat.pow_lt_pow_right (by omega) ha
  have hgen' := hgen
  rw [← offset_eq hpp] at hgen'
  obtain ⟨δ, tri, hδ, h⟩ := stages_kcouple hpp hgen dbg a ha hdom _ _ _ _ _ _ dom2.groupGen false P hinj hlt q q' (hq.shares hpp)
    (hq'.shares hpp) (fun i => by rw [hP i]; exact ⟨rfl, rfl, rfl⟩) rng
  have dm := fun t => DegRedMask.sample_dealt hg dbg (N := 2 ^ a) (by positivity) t
  rw [hle] at dm
  refine ⟨δ, tri, fun t => ?_⟩
  obtain ⟨ea, eb, ec, ea', eb', ec', w, k1, k2, hagree⟩ := h t
  refine ⟨_, _, _, _, (stageMasks_circom pp a b dom2.groupGen dom t).sampled hpp dbg hdom,
    (stageMasks_circom pp a b dom2.groupGen dom (shifted δ t)).sampled hpp dbg hdom, fun i k hk => (hδ t i k hk).symm, k1.evaluates, k2.evaluates,
    fun h1 h2 => ?_, fun D hD => ?_⟩
  · subst h1 h2
    have e1 := SharedVec.agree hg hle hgen' k1.sharesA k2.sharesA P hinj hlt fun i => (hagree i).1
    have e2 := SharedVec.agree hg hle hgen' k1.sharesB k2.sharesB P hinj hlt fun i => (hagree i).2.1
    have k := SharedVec.sub k2.sharesC k1.sharesC
    rw [← hle]
    refine ⟨_, SharedVec.congr k (fun p hp => ?_) fun _ _ => rfl⟩
    rw [← e1 p hp, ← e2 p hp]
    exact (mulSub_diff (k1.sharesA.1 p hp) (k1.sharesB.1 p hp) (k1.sharesC.1 p hp) (k2.sharesC.1 p hp)).symm
  · rw [← hle] at hD
    have s1 := SharedVec.mulSub hg hle false rfl k1.sharesA k1.sharesB k1.sharesC
    have s2 := SharedVec.mulSub hg hle false rfl k2.sharesA k2.sharesB k2.sharesC
    obtain ⟨ε, hε, hd⟩ := PSS.degRed_kcouple (n := 4 * 2 ^ b) hg dbg hle (by rw [hle]) hgen' (by positivity) hN64 P hinj hlt s1 s2
      (fun i => by rw [(hagree i).1, (hagree i).2.1, (hagree i).2.2]) hD
    refine ⟨ε, fun td => ⟨_, _, dm td, dm (td.add ε), fun i => (hε td i).symm, ?_⟩⟩
    obtain ⟨outs, outs', r, d1, d2, -, -, d3⟩ := hd td .zero (rng 6)
    have f1 := k1.run (fun i x y z => pp.degRed dbg (4 * 2 ^ b) i (List.zipWith (fun ab c => ab.1 * ab.2 - c) (List.zip x y) z)
      (pp.degDealt (2 ^ a) td i) .zero (rng 6)) _ _ (d1.mono fun _ _ => trivial)
    have f2 := k2.run (fun i x y z => pp.degRed dbg (4 * 2 ^ b) i (List.zipWith (fun ab c => ab.1 * ab.2 - c) (List.zip x y) z)
      (pp.degDealt (2 ^ a) (td.add ε) i) .zero (rng 6)) _ _ (d2.mono fun _ _ => trivial)
    refine ⟨outs, outs', fun i => w i ++ r i, ?_, ?_, d3⟩
    · exact (f1.congr (fun i => (circomH_stages dbg hdom hdom2 (hq.domain i i.2) _ _ rng i)) (fun _ => rfl) fun _ => rfl).alwaysYields
        fun i => circomH_wf _ (by positivity) _ _ _ _ _
    · exact (f2.congr (fun i => (circomH_stages dbg hdom hdom2 (hq'.domain i i.2) _ _ rng i)) (fun _ => rfl) fun _ => rfl).alwaysYields
        fun i => circomH_wf _ (by positivity) _ _ _ _ _

/-- A run of `circom_h`: the last messages of the king are those of `deg_red` on the shares of `A · B - C`. -/
theorem circomH_split {dbg₀ : Bool} {b : Nat} {pp : PSS F} (hpp : PSS.new dbg₀ (2 ^ b) = .ok pp) (dbg : Bool) {a : Nat} (ha : a < 64)
    {dom dom2 : Domain F} (hdom : Domain.new (2 ^ (a + b)) = some dom) (hdom2 : Domain.new (2 ^ (a + b + 1)) = some dom2)
    {va vb vc : List F} {q : Nat → PackedQAPShare F} (hq : HoldsProgram pp a b dom q va vb vc) {rng : Nat → Nat → Nat → F}
    {t : Nat → VecTape F} {td : VecTape F} {masks : Nat → Nat → FftMask F} {dm : Nat → DegRedMask F}
    (hm : CircomSampled pp dbg dom2.groupGen dom t masks)
    (hd : DegRedMask.sample pp dbg (1 : F) (2 ^ a) td.vals td.rngIn td.rngOut = .ok ((List.range (4 * 2 ^ b)).map dm))
    {e : Nat → List F} (he : EvaluatesTo pp dbg b dom dom2.groupGen false q masks rng e)
    {outs : Nat → List F} {views : Fin (4 * 2 ^ b) → Transcript}
    (hr : AlwaysYields (Net.init fun i : Fin (4 * 2 ^ b) => (pp.circomH dbg (4 * 2 ^ b) i (q i) (masks i) (dm i) rng).recorded)
      (fun i => (outs i, views i))) :
    ∃ (w r : Fin (4 * 2 ^ b) → Transcript) (outs' : Nat → List F) (sec : Nat → List F), (∀ i, views i = w i ++ r i) ∧
      (∀ i, i.val = 0 → (w i).length = 6 * (4 * 2 ^ b)) ∧
      pp.SharedVec (4 * pp.l - 1) (2 ^ a) e sec ∧
      AlwaysYields (Net.init fun i : Fin (4 * 2 ^ b) => (pp.degRed dbg (4 * 2 ^ b) i (e i) (dm i) .zero (rng 6)).recorded)
        (fun i => (outs' i, r i)) := by
  have hle := l_eq hpp
  have hg := PSS.good_of_new hpp
  have hl := hg.lpos
  have hN64 : 2 ^ a < 2 ^ 64 := Nat.pow_lt_pow_right (by omega) ha
  have hmasks := hm.eq hpp hdom
  obtain ⟨ea, eb, ec, w, k, hw, -⟩ := stages_view hpp dbg a ha hdom _ _ _ dom2.groupGen false q (hq.shares hpp) rng t
  have hee := (he.congr_masks hmasks).unique k.evaluates
  have s1 := SharedVec.mulSub hg hle false rfl k.sharesA k.sharesB k.sharesC
  have s2 : pp.SharedVec (4 * pp.l - 1) (2 ^ a) e _ := SharedVec.congr s1 (fun p hp => (hee p (by rw [← hle]; exact hp)).symm) fun _ _ => rfl
  have dms := DegRedMask.sample_dealt hg dbg (N := 2 ^ a) (by positivity) td
  rw [hle] at dms
  have hdm := sampled_eq hd dms
  obtain ⟨r, -⟩ := PSS.degRed_view (n := 4 * 2 ^ b) hg dbg (by rw [hle]) (by positivity) hN64 (by omega) le_rfl s2 td .zero (rng 6)
  have r1 := r.congr (ps' := fun i : Fin (4 * 2 ^ b) => pp.degRed dbg (4 * 2 ^ b) i (e i) (dm i) .zero (rng 6))
    (fun i => by rw [hdm i i.2]) (fun _ => rfl) fun _ => rfl
  have f := k.run (fun i x y z => pp.degRed dbg (4 * 2 ^ b) i (List.zipWith (fun ab c => ab.1 * ab.2 - c) (List.zip x y) z)
    (dm i) .zero (rng 6)) _ _ ((r1.congr (fun i => by rw [hee i i.2]) (fun _ => rfl) fun _ => rfl).mono fun _ _ => trivial)
  have f' := (f.congr (ps' := fun i : Fin (4 * 2 ^ b) => pp.circomH dbg (4 * 2 ^ b) i (q i) (masks i) (dm i) rng) (fun i => by
    rw [circomH_stages dbg hdom hdom2 (hq.domain i i.2)]
    exact stages_congr (hmasks i i.2)) (fun _ => rfl) fun _ => rfl).alwaysYields fun i => circomH_wf _ (by positivity) _ _ _ _ _
  have hr1 := r1.alwaysYields fun i => PSS.degRed_wf _ (by positivity) _ _ _ _ _
  exact ⟨w, _, fun p => addMask (pp.freshVec (2 ^ a) _ (rng 6) p) (pp.degDealt (2 ^ a) td p).outMask, _,
    fun i => congrArg Prod.snd (congrFun (AlwaysYields.unique hr f') i), hw, s2, hr1⟩

/-- **C62** `circom_h` reveals the rest to the king: when the king is sent the same bytes in runs on two programs, with any masks, the shares
of `A · B - C` held before the last step differ by shares with `2l` coefficients. -/
theorem C62_circom_h_leaks {dbg₀ : Bool} {b : Nat} {pp : PSS F} (hpp : PSS.new dbg₀ (2 ^ b) = .ok pp) (dbg : Bool) (a : Nat) (ha : a < 64)
    {dom dom2 : Domain F} (hdom : Domain.new (2 ^ (a + b)) = some dom) (hdom2 : Domain.new (2 ^ (a + b + 1)) = some dom2)
    {va vb vc va' vb' vc' : List F} {q q' : Nat → PackedQAPShare F} (hq : HoldsProgram pp a b dom q va vb vc)
    (hq' : HoldsProgram pp a b dom q' va' vb' vc') {rng rng' : Nat → Nat → Nat → F} {t t' : Nat → VecTape F} {td td' : VecTape F}
    {masks masks' : Nat → Nat → FftMask F} {dm dm' : Nat → DegRedMask F}
    (hm : CircomSampled pp dbg dom2.groupGen dom t masks) (hm' : CircomSampled pp dbg dom2.groupGen dom t' masks')
    (hd : DegRedMask.sample pp dbg (1 : F) (2 ^ a) td.vals td.rngIn td.rngOut = .ok ((List.range (4 * 2 ^ b)).map dm))
    (hd' : DegRedMask.sample pp dbg (1 : F) (2 ^ a) td'.vals td'.rngIn td'.rngOut = .ok ((List.range (4 * 2 ^ b)).map dm'))
    {e e' : Nat → List F} (he : EvaluatesTo pp dbg b dom dom2.groupGen false q masks rng e)
    (he' : EvaluatesTo pp dbg b dom dom2.groupGen false q' masks' rng' e')
    {outs outs' : Nat → List F} {views views' : Fin (4 * 2 ^ b) → Transcript}
    (hr : AlwaysYields (Net.init fun i : Fin (4 * 2 ^ b) => (pp.circomH dbg (4 * 2 ^ b) i (q i) (masks i) (dm i) rng).recorded)
      (fun i => (outs i, views i)))
    (hr' : AlwaysYields (Net.init fun i : Fin (4 * 2 ^ b) => (pp.circomH dbg (4 * 2 ^ b) i (q' i) (masks' i) (dm' i) rng').recorded)
      (fun i => (outs' i, views' i)))
    (hv : ∀ i, i.val = 0 → views i = views' i) :
    ∃ D, Spec.SharedVec pp.share.groupGen pp.secret.offset (2 ^ b) (2 * 2 ^ b) (2 ^ a) (fun p => List.zipWith (· - ·) (e p) (e' p)) D := by
  have hle := l_eq hpp
  have hg := PSS.good_of_new hpp
  have hl := hg.lpos
  have hN64 : 2 ^ a < 2 ^ 64 := Nat.pow_lt_pow_right (by omega) ha
  obtain ⟨w, r, o, sec, h1, h2, h3, h4⟩ := circomH_split hpp dbg ha hdom hdom2 hq hm hd he hr
  obtain ⟨w', r', o', sec', h1', h2', h3', h4'⟩ := circomH_split hpp dbg ha hdom hdom2 hq' hm' hd' he' hr'
  unfold PSS.SharedVec at h3 h3'
  rw [hle] at h3 h3'
  refine C61_deg_red_leaks hpp dbg (by positivity) hN64 h3 h3' hd hd' .zero (rng 6) (rng' 6) h4 h4' fun i hi => ?_
  have := hv i hi
  rw [h1, h1'] at this
  exact (List.append_inj this (by rw [h2 i hi, h2' i hi])).2

/-- **C62** `libsnark_h`: the same as `C62_circom_h`. The last step is a transform, and its mask is the seventh. -/
theorem C62_libsnark_h {dbg₀ : Bool} {b : Nat} {pp : PSS F} (hpp : PSS.new dbg₀ (2 ^ b) = .ok pp)
    (hgen : (FftField.GENERATOR : F) ^ (4 * 2 ^ b) ≠ 1) (dbg : Bool) (a : Nat) (ha : a < 64) {dom : Domain F}
    (hdom : Domain.new (2 ^ (a + b)) = some dom) (hcos : ∃ x : F, x ≠ 0 ∧ x ^ 2 ^ (a + b) ≠ 1)
    (va vb vc va' vb' vc' : List F) (P : Fin (2 ^ b) → Nat) (hinj : Function.Injective P) (hlt : ∀ i, P i < 4 * 2 ^ b)
    (q q' : Nat → PackedQAPShare F) (hq : HoldsProgram pp a b dom q va vb vc) (hq' : HoldsProgram pp a b dom q' va' vb' vc')
    (hP : ∀ i, q (P i) = q' (P i)) (rng : Nat → Nat → Nat → F) :
    ∃ δ : Nat → (Nat → VecTape F) → VecTape F, Triangular δ ∧ ∀ t, ∃ (m m' : Nat → Nat → FftMask F) (e e' : Nat → List F),
      EvaluatesTo pp dbg b dom FftField.GENERATOR true q m rng e ∧ EvaluatesTo pp dbg b dom FftField.GENERATOR true q' m' rng e' ∧
      (va = va' → vb = vb' → ∃ D, Spec.SharedVec pp.share.groupGen pp.secret.offset (2 ^ b) (2 * 2 ^ b) (2 ^ a)
        (fun p => List.zipWith (· - ·) (e p) (e' p)) D) ∧
      ∀ D, Spec.SharedVec pp.share.groupGen pp.secret.offset (2 ^ b) (2 * 2 ^ b) (2 ^ a)
          (fun p => List.zipWith (· - ·) (e p) (e' p)) D →
        ∃ ε : VecTape F, ∀ td : VecTape F, ∃ masks masks' : Nat → Nat → FftMask F,
          LibsnarkSampled pp dbg dom (fun k => if k < 6 then t k else td) masks ∧
          LibsnarkSampled pp dbg dom (fun k => if k < 6 then shifted δ t k else td.add ε) masks' ∧
          (∀ p, ∀ k < 6, masks p k = m p k ∧ masks' p k = m' p k) ∧ (∀ i, ∀ k < 7, masks (P i) k = masks' (P i) k) ∧
          ∃ (outs outs' : Nat → List F) (views : Fin (4 * 2 ^ b) → Transcript),
            AlwaysYields (Net.init fun i : Fin (4 * 2 ^ b) => (pp.libsnarkH dbg (4 * 2 ^ b) i (q i) (masks i) rng).recorded)
              (fun i => (outs i, views i)) ∧
            AlwaysYields (Net.init fun i : Fin (4 * 2 ^ b) => (pp.libsnarkH dbg (4 * 2 ^ b) i (q' i) (masks' i) rng).recorded)
              (fun i => (outs' i, views i)) ∧
            ∀ i, outs (P i) = outs' (P i) := by
  have hle := l_eq hpp
  have hg := PSS.good_of_new hpp
  have hl := hg.lpos
  have hz := generator_pow_ne_one hcos
  obtain ⟨hwf, -, -, hsize⟩ := Domain.new_pow2 hdom
  have hprim : IsPrimitiveRoot dom.groupGenInv (2 ^ (a + b)) := by rw [hwf.ginv, ← hsize]; exact hwf.prim.inv
  have hgen' := hgen
  rw [← offset_eq hpp] at hgen'
  obtain ⟨δ, tri, hδ, h⟩ := stages_kcouple hpp hgen dbg a ha hdom _ _ _ _ _ _ FftField.GENERATOR true P hinj hlt q q' (hq.shares hpp)
    (hq'.shares hpp) (fun i => by rw [hP i]; exact ⟨rfl, rfl, rfl⟩) rng
  refine ⟨δ, tri, fun t => ?_⟩
  obtain ⟨ea, eb, ec, ea', eb', ec', w, k1, k2, hagree⟩ := h t
  refine ⟨_, _, _, _, k1.evaluates, k2.evaluates, fun h1 h2 => ?_, fun D hD => ?_⟩
  · subst h1 h2
    have e1 := SharedVec.agree hg hle hgen' k1.sharesA k2.sharesA P hinj hlt fun i => (hagree i).1
    have e2 := SharedVec.agree hg hle hgen' k1.sharesB k2.sharesB P hinj hlt fun i => (hagree i).2.1
    have k := SharedVec.sub k2.sharesC k1.sharesC
    rw [← hle]
    refine ⟨_, SharedVec.congr k (fun p hp => ?_) fun _ _ => rfl⟩
    rw [← e1 p hp, ← e2 p hp]
    exact (mulSub_diff (k1.sharesA.1 p hp) (k1.sharesB.1 p hp) (k1.sharesC.1 p hp) (k2.sharesC.1 p hp)).symm
  · rw [← hle] at hD
    set zi : F := (FftField.GENERATOR ^ 2 ^ (a + b) - 1)⁻¹
    have s1 := SharedVec.congr (SharedVec.scale (SharedVec.mulSub hg hle true rfl k1.sharesA k1.sharesB k1.sharesC) zi) (fun _ _ => rfl)
      fun c _ => packed_smul _ _ _ _ _ _
    have s2 := SharedVec.congr (SharedVec.scale (SharedVec.mulSub hg hle true rfl k2.sharesA k2.sharesB k2.sharesC) zi) (fun _ _ => rfl)
      fun c _ => packed_smul _ _ _ _ _ _
    have hD' := SharedVec.scale hD zi
    obtain ⟨ε, hε, hd⟩ := PSS.dIfft_kcouple_wide (n := 4 * 2 ^ b) hg dbg (by rw [hle]) ha hle hgen' hsize hprim _ _ FftField.GENERATOR⁻¹ false
      P hinj hlt _ _ s1 s2 (fun i => by rw [(hagree i).1, (hagree i).2.1, (hagree i).2.2]) (SharedVec.congr hD' (fun p hp => by
        rw [diff, List.zipWith_map_left, List.zipWith_map_right, List.map_zipWith]
        simp only [sub_mul]) fun _ _ => rfl)
    refine ⟨ε, fun td => ⟨_, _, (libsnarkMasks_dealt pp a b dom _).sampled hpp dbg hdom, (libsnarkMasks_dealt pp a b dom _).sampled hpp dbg hdom,
      fun p k hk => ⟨?_, ?_⟩, fun i k hk => ?_, ?_⟩⟩
    · rw [stageMasks_libsnark _ _ _ _ _ _ _ hk]
      simp only [stageMasks, if_pos hk]
    · rw [stageMasks_libsnark _ _ _ _ _ _ _ hk]
      simp only [stageMasks, if_pos hk]
    · by_cases hk6 : k < 6
      · rw [stageMasks_libsnark _ _ _ _ _ _ _ hk6, stageMasks_libsnark _ _ _ _ _ _ _ hk6]
        have := hδ t i k hk6
        simp only [stageMasks, if_pos hk6] at this ⊢
        exact this.symm
      · simp only [libsnarkMasks, if_neg hk6, if_neg (show ¬ k < 3 by omega)]
        exact (hε td i).symm
    · obtain ⟨outs, outs', r, d1, d2, -, -, d3⟩ := hd td .zero (rng 6)
      have f1 := k1.run (fun i x y z => pp.dIfft dbg (4 * 2 ^ b) i ((List.zipWith (fun ab c => ab.1 * ab.2 - c) (List.zip x y) z).map
        fun u => u * zi) (pp.fftDealt a b false FftField.GENERATOR⁻¹ dom.groupGenInv td i) false dom FftField.GENERATOR⁻¹ .zero (rng 6)) _ _
        (d1.mono fun _ _ => trivial)
      have f2 := k2.run (fun i x y z => pp.dIfft dbg (4 * 2 ^ b) i ((List.zipWith (fun ab c => ab.1 * ab.2 - c) (List.zip x y) z).map
        fun u => u * zi) (pp.fftDealt a b false FftField.GENERATOR⁻¹ dom.groupGenInv (td.add ε) i) false dom FftField.GENERATOR⁻¹ .zero
        (rng 6)) _ _ (d2.mono fun _ _ => trivial)
      refine ⟨outs, outs', fun i => w i ++ r i, ?_, ?_, d3⟩
      · refine (f1.congr (fun i => ?_) (fun _ => rfl) fun _ => rfl).alwaysYields fun i => libsnarkH_wf _ (by positivity) _ _ _ _
        rw [libsnarkH_stages dbg hdom hz (hq.domain i i.2)]
        refine stages_congr fun k hk => ?_
        rw [stageMasks_libsnark _ _ _ _ _ _ _ hk]
        simp only [stageMasks, if_pos hk]
      · refine (f2.congr (fun i => ?_) (fun _ => rfl) fun _ => rfl).alwaysYields fun i => libsnarkH_wf _ (by positivity) _ _ _ _
        rw [libsnarkH_stages dbg hdom hz (hq'.domain i i.2)]
        refine stages_congr fun k hk => ?_
        rw [stageMasks_libsnark _ _ _ _ _ _ _ hk]
        simp only [stageMasks, if_pos hk]

/-- **C62** `libsnark_h` reveals the rest to the king, like `circom_h`. -/
theorem C62_libsnark_h_leaks {dbg₀ : Bool} {b : Nat} {pp : PSS F} (hpp : PSS.new dbg₀ (2 ^ b) = .ok pp) (dbg : Bool) (a : Nat) (ha : a < 64)
    {dom : Domain F} (hdom : Domain.new (2 ^ (a + b)) = some dom) (hcos : ∃ x : F, x ≠ 0 ∧ x ^ 2 ^ (a + b) ≠ 1)
    {va vb vc va' vb' vc' : List F} {q q' : Nat → PackedQAPShare F} (hq : HoldsProgram pp a b dom q va vb vc)
    (hq' : HoldsProgram pp a b dom q' va' vb' vc') {rng rng' : Nat → Nat → Nat → F} {t t' : Nat → VecTape F}
    {masks masks' : Nat → Nat → FftMask F}
    (hm : LibsnarkSampled pp dbg dom t masks) (hm' : LibsnarkSampled pp dbg dom t' masks')
    {e e' : Nat → List F} (he : EvaluatesTo pp dbg b dom FftField.GENERATOR true q masks rng e)
    (he' : EvaluatesTo pp dbg b dom FftField.GENERATOR true q' masks' rng' e')
    {outs outs' : Nat → List F} {views views' : Fin (4 * 2 ^ b) → Transcript}
    (hr : AlwaysYields (Net.init fun i : Fin (4 * 2 ^ b) => (pp.libsnarkH dbg (4 * 2 ^ b) i (q i) (masks i) rng).recorded)
      (fun i => (outs i, views i)))
    (hr' : AlwaysYields (Net.init fun i : Fin (4 * 2 ^ b) => (pp.libsnarkH dbg (4 * 2 ^ b) i (q' i) (masks' i) rng').recorded)
      (fun i => (outs' i, views' i)))
    (hv : ∀ i, i.val = 0 → views i = views' i) :
    ∃ D, Spec.SharedVec pp.share.groupGen pp.secret.offset (2 ^ b) (2 * 2 ^ b) (2 ^ a) (fun p => List.zipWith (· - ·) (e p) (e' p)) D := by
  have hle := l_eq hpp
  have hg := PSS.good_of_new hpp
  have hl := hg.lpos
  have hz := generator_pow_ne_one hcos
  obtain ⟨hwf, -, -, hsize⟩ := Domain.new_pow2 hdom
  have hprim : IsPrimitiveRoot dom.groupGenInv (2 ^ (a + b)) := by rw [hwf.ginv, ← hsize]; exact hwf.prim.inv
  have hn : pp.n = 4 * 2 ^ b := by rw [hg.n_eq, hle]
  set zi : F := (FftField.GENERATOR ^ 2 ^ (a + b) - 1)⁻¹ with hzi
  have one : ∀ {va vb vc : List F} {q : Nat → PackedQAPShare F} {rng : Nat → Nat → Nat → F} {t : Nat → VecTape F}
      {masks : Nat → Nat → FftMask F} {e : Nat → List F} {outs : Nat → List F} {views : Fin (4 * 2 ^ b) → Transcript},
      HoldsProgram pp a b dom q va vb vc → LibsnarkSampled pp dbg dom t masks →
      EvaluatesTo pp dbg b dom FftField.GENERATOR true q masks rng e →
      AlwaysYields (Net.init fun i : Fin (4 * 2 ^ b) => (pp.libsnarkH dbg (4 * 2 ^ b) i (q i) (masks i) rng).recorded)
        (fun i => (outs i, views i)) →
      ∃ (w r : Fin (4 * 2 ^ b) → Transcript) (outs' : Nat → List F) (v : List F), (∀ i, views i = w i ++ r i) ∧
        (∀ i, i.val = 0 → (w i).length = 6 * (4 * 2 ^ b)) ∧
        HoldsInput pp a b (fun p => (e p).map fun u => u * zi) v ∧
        AlwaysYields (Net.init fun i : Fin (4 * 2 ^ b) => (pp.dIfft dbg (4 * 2 ^ b) i ((e i).map fun u => u * zi) (masks i 6) false dom
          FftField.GENERATOR⁻¹ .zero (rng 6)).recorded) (fun i => (outs' i, r i)) := by
    intro va vb vc q rng t masks e outs views hq hm he hr
    have hmasks := hm.eq hpp hdom
    have hmasks6 : ∀ p < 4 * 2 ^ b, ∀ k < 6, masks p k = stageMasks pp a b FftField.GENERATOR true dom t p k := fun p hp k hk => by
      rw [hmasks p hp k (by omega), stageMasks_libsnark _ _ _ _ _ _ _ hk]
    have hlast : ∀ p < 4 * 2 ^ b, masks p 6 = pp.fftDealt a b false FftField.GENERATOR⁻¹ dom.groupGenInv (t 6) p := fun p hp => by
      rw [hmasks p hp 6 (by omega), libsnarkMasks, if_neg (by omega), if_neg (by omega)]
    obtain ⟨ea, eb, ec, w, k, hw, -⟩ := stages_view hpp dbg a ha hdom _ _ _ FftField.GENERATOR true q (hq.shares hpp) rng t
    have hee := (he.congr_masks hmasks6).unique k.evaluates
    have s1 := SharedVec.congr (SharedVec.scale (SharedVec.mulSub hg hle true rfl k.sharesA k.sharesB k.sharesC) zi) (fun _ _ => rfl)
      fun c _ => packed_smul _ _ _ _ _ _
    have s2 : pp.SharedVec (4 * pp.l - 1) (2 ^ a) (fun p => (e p).map fun u => u * zi) _ :=
      SharedVec.congr s1 (fun p hp => by rw [hee p (by rw [← hle]; exact hp)]) fun _ _ => rfl
    obtain ⟨o, ans, r, -⟩ := PSS.dIfft_view (n := 4 * 2 ^ b) hg dbg (by rw [hle]) ha hle hsize hprim _ FftField.GENERATOR⁻¹ false s2 (t 6)
      .zero (rng 6)
    have r1 := r.congr (ps' := fun i : Fin (4 * 2 ^ b) => pp.dIfft dbg (4 * 2 ^ b) i ((e i).map fun u => u * zi) (masks i 6) false dom
      FftField.GENERATOR⁻¹ .zero (rng 6)) (fun i => by rw [hlast i i.2]) (fun _ => rfl) fun _ => rfl
    have f := k.run (fun i x y z => pp.dIfft dbg (4 * 2 ^ b) i ((List.zipWith (fun ab c => ab.1 * ab.2 - c) (List.zip x y) z).map
      fun u => u * zi) (masks i 6) false dom FftField.GENERATOR⁻¹ .zero (rng 6)) _ _
      ((r1.congr (fun i => by rw [hee i i.2]) (fun _ => rfl) fun _ => rfl).mono fun _ _ => trivial)
    have f' := (f.congr (ps' := fun i : Fin (4 * 2 ^ b) => pp.libsnarkH dbg (4 * 2 ^ b) i (q i) (masks i) rng) (fun i => by
      rw [libsnarkH_stages dbg hdom hz (hq.domain i i.2)]
      exact stages_congr (hmasks6 i i.2)) (fun _ => rfl) fun _ => rfl).alwaysYields fun i => libsnarkH_wf _ (by positivity) _ _ _ _
    refine ⟨w, _, o, (List.range (2 ^ (a + b))).map fun i => (cosetVals dom (2 ^ (a + b)) FftField.GENERATOR (fun i => va.getD i 0) i *
      cosetVals dom (2 ^ (a + b)) FftField.GENERATOR (fun i => vb.getD i 0) i -
      cosetVals dom (2 ^ (a + b)) FftField.GENERATOR (fun i => vc.getD i 0) i) * zi,
      fun i => congrArg Prod.snd (congrFun (AlwaysYields.unique hr f') i), hw, ⟨by simp, 4 * 2 ^ b - 1, by omega, le_rfl, ?_⟩,
      r1.alwaysYields fun i => PSS.dIfft_wf _ (by positivity) _ _ _ _ _ _ _ _⟩
    rw [← hle]
    refine SharedVec.congr s2 (fun _ _ => rfl) fun c hc => packed_congr _ hc fun i hi => ?_
    rw [getD_map_range, if_pos hi]
  obtain ⟨w, r, o, v, h1, h2, h3, h4⟩ := one hq hm he hr
  obtain ⟨w', r', o', v', h1', h2', h3', h4'⟩ := one hq' hm' he' hr'
  have m6 := hm.2.2
  have m6' := hm'.2.2
  rw [hn, hsize] at m6 m6'
  obtain ⟨D, hD⟩ := C61_d_ifft_leaks hpp dbg a ha hdom v v' FftField.GENERATOR⁻¹ false _ _ h3 h3' m6 m6' .zero (rng 6) (rng' 6) h4 h4' fun i hi => by
    have := hv i hi
    rw [h1, h1'] at this
    exact (List.append_inj this (by rw [h2 i hi, h2' i hi])).2
  rw [← hle] at hD
  have hD := SharedVec.scale hD (FftField.GENERATOR ^ 2 ^ (a + b) - 1)
  rw [← hle]
  refine ⟨_, SharedVec.congr hD (fun p hp => ?_) fun _ _ => rfl⟩
  rw [List.zipWith_map_left, List.zipWith_map_right, List.map_zipWith]
  congr 1
  funext x y
  rw [← sub_mul, mul_assoc, hzi, inv_mul_cancel₀ hz, mul_one]

/-! ### Examples -/

/-- Shares of a second program that look the same to the king and party 3. -/
theorem program17_alike {va vb vc : List (ZMod 17)} (va' vb' vc' : List (ZMod 17)) (ha : va'.length = 4) (hb : vb'.length = 4)
    (hc : vc'.length = 4) {q : Nat → PackedQAPShare (ZMod 17)} (hq : HoldsProgram pp17 1 1 dom17 q va vb vc) :
    ∃ q' : Nat → PackedQAPShare (ZMod 17), HoldsProgram pp17 1 1 dom17 q' va' vb' vc' ∧ ∀ i, q (king17 i) = q' (king17 i) := by
  obtain ⟨sa, h1, p1⟩ := C61_inputs_exist (pp17_eq true) gen17 1 _ va' ha king17 king17_inj king17_lt _ hq.vecA
  obtain ⟨sb, h2, p2⟩ := C61_inputs_exist (pp17_eq true) gen17 1 _ vb' hb king17 king17_inj king17_lt _ hq.vecB
  obtain ⟨sc, h3, p3⟩ := C61_inputs_exist (pp17_eq true) gen17 1 _ vc' hc king17 king17_inj king17_lt _ hq.vecC
  refine ⟨fun p => { q p with a := sa p, b := sb p, c := sc p }, ⟨hq.domain, h1, h2, h3⟩, fun i => ?_⟩
  have e1 := p1 i
  have e2 := p2 i
  have e3 := p3 i
  show q (king17 i) = { q (king17 i) with a := sa (king17 i), b := sb (king17 i), c := sc (king17 i) }
  rw [← e1, ← e2, ← e3]

/-- Programs with the same `a` and `b` but other `c` may look the same to the king and party 3 during `circom_h`; and then the king's view
tells that the shares of `A · B - C` differ by shares with few coefficients. -/
example (t : Nat → VecTape (ZMod 17)) (td : VecTape (ZMod 17)) : ∃ (q q' : Nat → PackedQAPShare (ZMod 17))
    (masks masks' : Nat → Nat → FftMask (ZMod 17)) (dm dm' : Nat → DegRedMask (ZMod 17)) (outs outs' e e' : Nat → List (ZMod 17))
    (views : Fin (4 * 2 ^ 1) → Transcript), HoldsProgram pp17 1 1 dom17 q [3, 9, 1, 9] [3, 1, 0, 0] [9, 9, 0, 0] ∧
    HoldsProgram pp17 1 1 dom17 q' [3, 9, 1, 9] [3, 1, 0, 0] [0, 0, 0, 1] ∧ CircomSampled pp17 true 9 dom17 t masks ∧
    AlwaysYields (Net.init fun i : Fin (4 * 2 ^ 1) =>
      (pp17.circomH true (4 * 2 ^ 1) i (q i) (masks i) (dm i) fun _ i j => i + j).recorded) (fun i => (outs i, views i)) ∧
    AlwaysYields (Net.init fun i : Fin (4 * 2 ^ 1) =>
      (pp17.circomH true (4 * 2 ^ 1) i (q' i) (masks' i) (dm' i) fun _ i j => i + j).recorded) (fun i => (outs' i, views i)) ∧
    (∀ i, q (king17 i) = q' (king17 i) ∧ dm (king17 i) = dm' (king17 i) ∧ outs (king17 i) = outs' (king17 i)) ∧
    EvaluatesTo pp17 true 1 dom17 9 false q masks (fun _ i j => i + j) e ∧
    EvaluatesTo pp17 true 1 dom17 9 false q' masks' (fun _ i j => i + j) e' ∧
    ∃ D, Spec.SharedVec pp17.share.groupGen pp17.secret.offset (2 ^ 1) (2 * 2 ^ 1) (2 ^ 1) (fun p => List.zipWith (· - ·) (e p) (e' p)) D := by
  obtain ⟨q, hq⟩ := program17 [3, 9, 1, 9] [3, 1, 0, 0] [9, 9, 0, 0] rfl rfl rfl
  obtain ⟨q', hq', hP⟩ := program17_alike [3, 9, 1, 9] [3, 1, 0, 0] [0, 0, 0, 1] rfl rfl rfl hq
  obtain ⟨δ, -, h⟩ := C62_circom_h (pp17_eq true) gen17 true 1 (by norm_num) dom17_eq dom17b_eq _ _ _ _ _ _ king17 king17_inj king17_lt
    q q' hq hq' hP fun _ i j => i + j
  obtain ⟨masks, masks', e, e', h1, h1', -, h2, h3, hs, hr⟩ := h t
  obtain ⟨D, hD⟩ := hs rfl rfl
  obtain ⟨ε, hε⟩ := hr D hD
  obtain ⟨dm, dm', d1, d2, d3, outs, outs', views, r1, r2, r3⟩ := hε td
  exact ⟨q, q', masks, masks', dm, dm', outs, outs', e, e', views, hq, hq', h1, r1, r2, fun i => ⟨hP i, d3 i, r3 i⟩, h2, h3,
    C62_circom_h_leaks (pp17_eq true) true 1 (by norm_num) dom17_eq dom17b_eq hq hq' h1 h1' d1 d2 h2 h3 r1 r2 fun _ _ => rfl⟩

/-- The same for `libsnark_h`. -/
example (t : Nat → VecTape (ZMod 17)) (td : VecTape (ZMod 17)) : ∃ (q q' : Nat → PackedQAPShare (ZMod 17))
    (masks masks' : Nat → Nat → FftMask (ZMod 17)) (outs outs' : Nat → List (ZMod 17))
    (views : Fin (4 * 2 ^ 1) → Transcript), HoldsProgram pp17 1 1 dom17 q [3, 9, 1, 9] [3, 1, 0, 0] [9, 9, 0, 0] ∧
    HoldsProgram pp17 1 1 dom17 q' [3, 9, 1, 9] [3, 1, 0, 0] [0, 0, 0, 1] ∧
    LibsnarkSampled pp17 true dom17 (fun k => if k < 6 then t k else td) masks ∧
    AlwaysYields (Net.init fun i : Fin (4 * 2 ^ 1) =>
      (pp17.libsnarkH true (4 * 2 ^ 1) i (q i) (masks i) fun _ i j => i + j).recorded) (fun i => (outs i, views i)) ∧
    AlwaysYields (Net.init fun i : Fin (4 * 2 ^ 1) =>
      (pp17.libsnarkH true (4 * 2 ^ 1) i (q' i) (masks' i) fun _ i j => i + j).recorded) (fun i => (outs' i, views i)) ∧
    (∀ i, q (king17 i) = q' (king17 i) ∧ outs (king17 i) = outs' (king17 i)) ∧
    ∀ e e', EvaluatesTo pp17 true 1 dom17 FftField.GENERATOR true q masks (fun _ i j => i + j) e →
      EvaluatesTo pp17 true 1 dom17 FftField.GENERATOR true q' masks' (fun _ i j => i + j) e' →
      ∃ D, Spec.SharedVec pp17.share.groupGen pp17.secret.offset (2 ^ 1) (2 * 2 ^ 1) (2 ^ 1) (fun p => List.zipWith (· - ·) (e p) (e' p)) D := by
  obtain ⟨q, hq⟩ := program17 [3, 9, 1, 9] [3, 1, 0, 0] [9, 9, 0, 0] rfl rfl rfl
  obtain ⟨q', hq', hP⟩ := program17_alike [3, 9, 1, 9] [3, 1, 0, 0] [0, 0, 0, 1] rfl rfl rfl hq
  have hcos : ∃ x : ZMod 17, x ≠ 0 ∧ x ^ 2 ^ (1 + 1) ≠ 1 := ⟨3, by decide, by decide⟩
  obtain ⟨δ, -, h⟩ := C62_libsnark_h (pp17_eq true) gen17 true 1 (by norm_num) dom17_eq hcos _ _ _ _ _ _
    king17 king17_inj king17_lt q q' hq hq' hP fun _ i j => i + j
  obtain ⟨m, m', e, e', -, -, hs, hr⟩ := h t
  obtain ⟨D, hD⟩ := hs rfl rfl
  obtain ⟨ε, hε⟩ := hr D hD
  obtain ⟨masks, masks', d1, d2, -, -, outs, outs', views, r1, r2, r3⟩ := hε td
  exact ⟨q, q', masks, masks', outs, outs', views, hq, hq', d1, r1, r2, fun i => ⟨hP i, r3 i⟩, fun e e' h2 h3 =>
    C62_libsnark_h_leaks (pp17_eq true) true 1 (by norm_num) dom17_eq hcos hq hq' d1 d2 h2 h3 r1 r2 fun _ _ => rfl⟩

/-- Shares of `X^6` twice: an input of `d_fft` with more than `2l` coefficients. -/
def wide17 (p : Nat) : List (ZMod 17) := [9 ^ (6 * p), 9 ^ (6 * p)]

/-- Shares of `X^6 + (X - 1)(X - 15)` and `X^6`: the same for the king and party 3. -/
def wide17' (p : Nat) : List (ZMod 17) := [9 ^ (6 * p) + (9 ^ p - 1) * (9 ^ p - 15), 9 ^ (6 * p)]

theorem wide17_holds : HoldsInput pp17 1 1 wide17 [15, 2, 15, 2] := by
  refine ⟨rfl, 4 * 2 ^ 1 - 1, by norm_num, le_rfl, fun _ _ => rfl, fun c hc => ⟨by simp, rfl, fun j => if j = 6 then 1 else 0, ?_, ?_⟩⟩
  · obtain rfl | rfl : c = 0 ∨ c = 1 := by omega
    all_goals decide +kernel
  · obtain rfl | rfl : c = 0 ∨ c = 1 := by omega
    all_goals decide +kernel

theorem wide17_holds' : HoldsInput pp17 1 1 wide17' [8, 13, 15, 2] := by
  refine ⟨rfl, 4 * 2 ^ 1 - 1, by norm_num, le_rfl, fun _ _ => rfl, fun c hc => ⟨by simp, rfl, fun j => if j = 6 then 1 else
    if c = 1 then 0 else if j = 2 then 1 else if j = 1 then 1 else if j = 0 then 15 else 0, ?_, ?_⟩⟩
  · obtain rfl | rfl : c = 0 ∨ c = 1 := by omega
    all_goals decide +kernel
  · obtain rfl | rfl : c = 0 ∨ c = 1 := by omega
    all_goals decide +kernel

theorem wide17_diff : Spec.SharedVec pp17.share.groupGen pp17.secret.offset (2 ^ 1) (2 * 2 ^ 1) (2 ^ 1)
    (fun p => List.zipWith (· - ·) (wide17 p) (wide17' p)) fun c => if c = 0 then [7, 6] else [0, 0] := by
  refine ⟨fun _ _ => rfl, fun c hc => ⟨by simp, by dsimp only; split <;> rfl, fun j => if c = 1 then 0 else if j = 2 then -1 else
    if j = 1 then -1 else if j = 0 then 2 else 0, ?_, ?_⟩⟩
  · obtain rfl | rfl : c = 0 ∨ c = 1 := by omega
    all_goals decide +kernel
  · obtain rfl | rfl : c = 0 ∨ c = 1 := by omega
    all_goals decide +kernel

theorem wide17_agree : ∀ i, wide17 (king17 i) = wide17' (king17 i) := by decide +kernel

/-- Transforms of these may look the same to everybody, the king included. -/
example (t : VecTape (ZMod 17)) : ∃ (masks masks' : Nat → FftMask (ZMod 17)) (outs outs' : Nat → List (ZMod 17))
    (views : Fin (4 * 2 ^ 1) → Transcript),
    AlwaysYields (Net.init fun i : Fin (4 * 2 ^ 1) =>
      (pp17.dFft true (4 * 2 ^ 1) i (wide17 i) (masks i) false dom17 .zero fun i j => i + j).recorded) (fun i => (outs i, views i)) ∧
    AlwaysYields (Net.init fun i : Fin (4 * 2 ^ 1) =>
      (pp17.dFft true (4 * 2 ^ 1) i (wide17' i) (masks' i) false dom17 .zero fun i j => i + j).recorded) (fun i => (outs' i, views i)) ∧
    ∀ i, masks (king17 i) = masks' (king17 i) ∧ outs (king17 i) = outs' (king17 i) := by
  obtain ⟨δ, hδ⟩ := C61_d_fft_wide (pp17_eq true) gen17 true 1 (by norm_num) dom17_eq _ _ false king17 king17_inj king17_lt _ _
    wide17_holds wide17_holds' wide17_agree wide17_diff
  obtain ⟨masks, masks', -, -, hm, hr⟩ := hδ t
  obtain ⟨outs, outs', views, h1, h2, h3⟩ := hr .zero fun i j => i + j
  exact ⟨masks, masks', outs, outs', views, h1, h2, fun i => ⟨hm i, h3 i⟩⟩

/-- The same for the inverse transform. -/
example (t : VecTape (ZMod 17)) : ∃ (masks masks' : Nat → FftMask (ZMod 17)) (outs outs' : Nat → List (ZMod 17))
    (views : Fin (4 * 2 ^ 1) → Transcript),
    AlwaysYields (Net.init fun i : Fin (4 * 2 ^ 1) =>
      (pp17.dIfft true (4 * 2 ^ 1) i (wide17 i) (masks i) true dom17 3 .zero fun i j => i + j).recorded) (fun i => (outs i, views i)) ∧
    AlwaysYields (Net.init fun i : Fin (4 * 2 ^ 1) =>
      (pp17.dIfft true (4 * 2 ^ 1) i (wide17' i) (masks' i) true dom17 3 .zero fun i j => i + j).recorded) (fun i => (outs' i, views i)) ∧
    ∀ i, masks (king17 i) = masks' (king17 i) ∧ outs (king17 i) = outs' (king17 i) := by
  obtain ⟨δ, hδ⟩ := C61_d_ifft_wide (pp17_eq true) gen17 true 1 (by norm_num) dom17_eq _ _ 3 true king17 king17_inj king17_lt _ _
    wide17_holds wide17_holds' wide17_agree wide17_diff
  obtain ⟨masks, masks', -, -, hm, hr⟩ := hδ t
  obtain ⟨outs, outs', views, h1, h2, h3⟩ := hr .zero fun i j => i + j
  exact ⟨masks, masks', outs, outs', views, h1, h2, fun i => ⟨hm i, h3 i⟩⟩

theorem zero17_holds : HoldsInput pp17 1 1 (fun _ => [0, 0]) [0, 0, 0, 0] := by
  refine ⟨rfl, 4 * 2 ^ 1 - 1, by norm_num, le_rfl, fun _ _ => rfl, fun c hc => ⟨by simp, rfl, fun _ => 0, ?_, ?_⟩⟩
  · obtain rfl | rfl : c = 0 ∨ c = 1 := by omega
    all_goals decide +kernel
  · obtain rfl | rfl : c = 0 ∨ c = 1 := by omega
    all_goals decide +kernel

theorem wide17_sextic {D : Nat → List (ZMod 17)} : ¬ Spec.SharedVec pp17.share.groupGen pp17.secret.offset (2 ^ 1) (2 * 2 ^ 1) (2 ^ 1)
    (fun p => List.zipWith (· - ·) (wide17 p) [0, 0]) D := by
  intro hD
  have hg := PSS.good_of_new (pp17_eq true)
  have h1 := PSS.unpack_of_shares (pp := pp17) hg (d := 2 * pp17.l) le_rfl (hD.2 0 (by norm_num))
  have h2 := PSS.unpack2_of_shares (pp := pp17) hg true (d := 2 * pp17.l) (by decide) (hD.2 0 (by norm_num))
  rw [← h1] at h2
  revert h2
  decide +kernel

/-- The king tells the transform of `X^6` from that of zeros, with whatever masks … -/
example (t t' : VecTape (ZMod 17)) (masks masks' : Nat → FftMask (ZMod 17))
    (hm : FftMask.sample pp17 true false 1 dom17.groupGen (2 ^ (1 + 1)) t.vals t.rngIn t.rngOut = .ok ((List.range (4 * 2 ^ 1)).map masks))
    (hm' : FftMask.sample pp17 true false 1 dom17.groupGen (2 ^ (1 + 1)) t'.vals t'.rngIn t'.rngOut = .ok ((List.range (4 * 2 ^ 1)).map masks'))
    (outs outs' : Nat → List (ZMod 17)) (views views' : Fin (4 * 2 ^ 1) → Transcript)
    (hr : AlwaysYields (Net.init fun i : Fin (4 * 2 ^ 1) =>
      (pp17.dFft true (4 * 2 ^ 1) i (wide17 i) (masks i) false dom17 .zero fun i j => i + j).recorded) (fun i => (outs i, views i)))
    (hr' : AlwaysYields (Net.init fun i : Fin (4 * 2 ^ 1) =>
      (pp17.dFft true (4 * 2 ^ 1) i [0, 0] (masks' i) false dom17 .zero fun i j => i + j).recorded) (fun i => (outs' i, views' i))) :
    views 0 ≠ views' 0 := by
  intro hv
  obtain ⟨D, hD⟩ := C61_d_fft_leaks (pp17_eq true) true 1 (by norm_num) dom17_eq _ _ false _ _ wide17_holds zero17_holds hm hm' .zero _ _ hr hr'
    (fun i hi => by rw [show i = 0 from Fin.ext hi]; exact hv)
  exact wide17_sextic hD

/-- … and the inverse transforms. -/
example (t t' : VecTape (ZMod 17)) (masks masks' : Nat → FftMask (ZMod 17))
    (hm : FftMask.sample pp17 true true 3 dom17.groupGenInv (2 ^ (1 + 1)) t.vals t.rngIn t.rngOut = .ok ((List.range (4 * 2 ^ 1)).map masks))
    (hm' : FftMask.sample pp17 true true 3 dom17.groupGenInv (2 ^ (1 + 1)) t'.vals t'.rngIn t'.rngOut =
      .ok ((List.range (4 * 2 ^ 1)).map masks'))
    (outs outs' : Nat → List (ZMod 17)) (views views' : Fin (4 * 2 ^ 1) → Transcript)
    (hr : AlwaysYields (Net.init fun i : Fin (4 * 2 ^ 1) =>
      (pp17.dIfft true (4 * 2 ^ 1) i (wide17 i) (masks i) true dom17 3 .zero fun i j => i + j).recorded) (fun i => (outs i, views i)))
    (hr' : AlwaysYields (Net.init fun i : Fin (4 * 2 ^ 1) =>
      (pp17.dIfft true (4 * 2 ^ 1) i [0, 0] (masks' i) true dom17 3 .zero fun i j => i + j).recorded) (fun i => (outs' i, views' i))) :
    views 0 ≠ views' 0 := by
  intro hv
  obtain ⟨D, hD⟩ := C61_d_ifft_leaks (pp17_eq true) true 1 (by norm_num) dom17_eq _ _ 3 true _ _ wide17_holds zero17_holds hm hm' .zero _ _ hr hr'
    (fun i hi => by rw [show i = 0 from Fin.ext hi]; exact hv)
  exact wide17_sextic hD

/-- A change of the tapes that adds the first tape to the second is a bijection. -/
example : Function.Bijective (shifted fun k (t : Nat → VecTape (ZMod 17)) => if k = 1 then t 0 else ⟨fun _ => 1, fun _ _ => 0, fun _ _ => 0⟩) := by
  refine C62_shift_bijective fun k t t' h => ?_
  split
  · rw [h 0 (by omega)]
  · rfl

end ZkSaas.Properties
