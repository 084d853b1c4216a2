import Verif.Properties.Coalition
import Verif.Lemmas.KingView

/-!
# C61: what the king and `l - 1` other servers see of one protocol
-/

set_option linter.unusedSectionVars false

namespace ZkSaas.Properties

open Finset Polynomial Spec

variable {F : Type} [Field F] [FftField F] [DecidableEq F] [FixedWire F]

/-- Shares of any other secrets with `2l` coefficients that give `l` parties prescribed values. -/
theorem exists_agreeing {T : Type} [AddCommGroup T] [Module F T] [DecidableEq T] {dbg₀ : Bool} {b : Nat} {pp : PSS F}
    (hpp : PSS.new dbg₀ (2 ^ b) = .ok pp) (hgen : (FftField.GENERATOR : F) ^ (4 * 2 ^ b) ≠ 1) {N : Nat} {sec : Nat → List T}
    (hsec : ∀ c < N, (sec c).length = 2 ^ b) (P : Fin (2 ^ b) → Nat) (hinj : Function.Injective P) (hlt : ∀ i, P i < 4 * 2 ^ b)
    (x : Nat → List T) (hx : ∀ p < 4 * 2 ^ b, (x p).length = N) :
    ∃ sh : Nat → List T, Spec.SharedVec pp.share.groupGen pp.secret.offset (2 ^ b) (2 * 2 ^ b) N sh sec ∧ ∀ i, sh (P i) = x (P i) := by
  have hle := l_eq hpp
  have hg := PSS.good_of_new hpp
  obtain ⟨tape, ht, -⟩ := PSS.freshVec_privacy hg hle (by rwa [offset_eq hpp]) hsec P hinj hlt fun c i => (x (P i)).getD c 0
  have h := PSS.freshVec_shared hg (sec := sec) (N := N) (fun c hc => by rw [hsec c hc, hle]) (ext2 tape)
  rw [PSS.SharedVec, hle] at h
  refine ⟨_, h, fun i => ?_⟩
  apply list_ext_getD 0 (by rw [PSS.freshVec_length, hx _ (hlt i)])
  intro c hc
  rw [PSS.freshVec_length] at hc
  exact ht i ⟨c, hc⟩

/-- **C61** Whatever `l` parties, the king among them or not, hold of a vector, they may hold of any other vector. -/
theorem C61_inputs_exist {dbg₀ : Bool} {b : Nat} {pp : PSS F} (hpp : PSS.new dbg₀ (2 ^ b) = .ok pp)
    (hgen : (FftField.GENERATOR : F) ^ (4 * 2 ^ b) ≠ 1) (a : Nat) (v v' : List F) (hv' : v'.length = 2 ^ (a + b))
    (P : Fin (2 ^ b) → Nat) (hinj : Function.Injective P) (hlt : ∀ i, P i < 4 * 2 ^ b) (sh : Nat → List F)
    (hsh : HoldsOutput pp true a b sh v) :
    ∃ sh' : Nat → List F, HoldsOutput pp true a b sh' v' ∧ ∀ i, sh (P i) = sh' (P i) := by
  obtain ⟨sh', h, he⟩ := exists_agreeing hpp hgen (N := 2 ^ a) (sec := packed true a b fun i => v'.getD i 0)
    (fun c _ => packed_length _ _ _ _ _) P hinj hlt sh hsh.2.1
  exact ⟨sh', ⟨hv', h⟩, fun i => (he i).symm⟩

/-- **C61** `d_fft`: for any two vectors, shared with `2l` coefficients so that `l` parties hold the same shares of both, there are
values such that adding them to the tape of the masks turns a run on the first vector into a run on the second in which every party,
the king included, is sent the same bytes, and the `l` parties hold the same masks and end with the same outputs. So the king together
with any `l - 1` other parties, or any `l` parties and everything the king sees, learn nothing about the vector. -/
theorem C61_d_fft {dbg₀ : Bool} {b : Nat} {pp : PSS F} (hpp : PSS.new dbg₀ (2 ^ b) = .ok pp)
    (hgen : (FftField.GENERATOR : F) ^ (4 * 2 ^ b) ≠ 1) (dbg : Bool) (a : Nat) (ha : a < 64)
    {dom : Domain F} (hdom : Domain.new (2 ^ (a + b)) = some dom) (v v' : List F) (rearrange : Bool)
    (P : Fin (2 ^ b) → Nat) (hinj : Function.Injective P) (hlt : ∀ i, P i < 4 * 2 ^ b)
    (sh sh' : Nat → List F) (hsh : HoldsOutput pp true a b sh v) (hsh' : HoldsOutput pp true a b sh' v')
    (hP : ∀ i, sh (P i) = sh' (P i)) :
    ∃ δ : VecTape F, ∀ t : VecTape F, ∃ masks masks' : Nat → FftMask F,
      FftMask.sample pp dbg rearrange 1 dom.groupGen (2 ^ (a + b)) t.vals t.rngIn t.rngOut =
        .ok ((List.range (4 * 2 ^ b)).map masks) ∧
      FftMask.sample pp dbg rearrange 1 dom.groupGen (2 ^ (a + b)) (t.add δ).vals (t.add δ).rngIn (t.add δ).rngOut =
        .ok ((List.range (4 * 2 ^ b)).map masks') ∧
      (∀ i, masks (P i) = masks' (P i)) ∧
      ∀ (sid : Sid) (rng : Nat → Nat → F), ∃ (outs outs' : Nat → List F) (views : Fin (4 * 2 ^ b) → Transcript),
          AlwaysYields (Net.init fun i : Fin (4 * 2 ^ b) =>
            (pp.dFft dbg (4 * 2 ^ b) i (sh i) (masks i) rearrange dom sid rng).recorded) (fun i => (outs i, views i)) ∧
          AlwaysYields (Net.init fun i : Fin (4 * 2 ^ b) =>
            (pp.dFft dbg (4 * 2 ^ b) i (sh' i) (masks' i) rearrange dom sid rng).recorded) (fun i => (outs' i, views i)) ∧
          ∀ i, outs (P i) = outs' (P i) := by
  have hle := l_eq hpp
  have hg := PSS.good_of_new hpp
  obtain ⟨hwf, -, -, hsize⟩ := Domain.new_pow2 hdom
  have hprim : IsPrimitiveRoot dom.groupGen (2 ^ (a + b)) := by rw [← hsize]; exact hwf.prim
  rw [← offset_eq hpp] at hgen
  obtain ⟨-, hsh⟩ := hsh
  obtain ⟨-, hsh'⟩ := hsh'
  rw [← hle] at hsh hsh'
  obtain ⟨δ, hδ, h⟩ := PSS.dFft_kcouple (n := 4 * 2 ^ b) hg dbg (by rw [hle]) ha hle hgen hsize hprim (fun i => v.getD i 0)
    (fun i => v'.getD i 0) rearrange P hinj hlt sh sh' hsh hsh' hP
  have fm := fun t => FftMask.sample_dealt hg dbg hle hprim rearrange 1 t
  rw [hle] at fm
  refine ⟨δ, fun t => ⟨_, _, fm t, fm (t.add δ), fun i => (hδ t i).symm, fun sid rng => ?_⟩⟩
  obtain ⟨outs, outs', views, h1, h2, -, -, h3⟩ := h t sid rng
  exact ⟨outs, outs', views, h1.alwaysYields fun i => PSS.dFft_wf _ (by positivity) _ _ _ _ _ _ _,
    h2.alwaysYields fun i => PSS.dFft_wf _ (by positivity) _ _ _ _ _ _ _, h3⟩

/-- **C61** `d_ifft`: the same. -/
theorem C61_d_ifft {dbg₀ : Bool} {b : Nat} {pp : PSS F} (hpp : PSS.new dbg₀ (2 ^ b) = .ok pp)
    (hgen : (FftField.GENERATOR : F) ^ (4 * 2 ^ b) ≠ 1) (dbg : Bool) (a : Nat) (ha : a < 64)
    {dom : Domain F} (hdom : Domain.new (2 ^ (a + b)) = some dom) (v v' : List F) (g : F) (rearrange : Bool)
    (P : Fin (2 ^ b) → Nat) (hinj : Function.Injective P) (hlt : ∀ i, P i < 4 * 2 ^ b)
    (sh sh' : Nat → List F) (hsh : HoldsOutput pp true a b sh v) (hsh' : HoldsOutput pp true a b sh' v')
    (hP : ∀ i, sh (P i) = sh' (P i)) :
    ∃ δ : VecTape F, ∀ t : VecTape F, ∃ masks masks' : Nat → FftMask F,
      FftMask.sample pp dbg rearrange g dom.groupGenInv (2 ^ (a + b)) t.vals t.rngIn t.rngOut =
        .ok ((List.range (4 * 2 ^ b)).map masks) ∧
      FftMask.sample pp dbg rearrange g dom.groupGenInv (2 ^ (a + b)) (t.add δ).vals (t.add δ).rngIn (t.add δ).rngOut =
        .ok ((List.range (4 * 2 ^ b)).map masks') ∧
      (∀ i, masks (P i) = masks' (P i)) ∧
      ∀ (sid : Sid) (rng : Nat → Nat → F), ∃ (outs outs' : Nat → List F) (views : Fin (4 * 2 ^ b) → Transcript),
          AlwaysYields (Net.init fun i : Fin (4 * 2 ^ b) =>
            (pp.dIfft dbg (4 * 2 ^ b) i (sh i) (masks i) rearrange dom g sid rng).recorded) (fun i => (outs i, views i)) ∧
          AlwaysYields (Net.init fun i : Fin (4 * 2 ^ b) =>
            (pp.dIfft dbg (4 * 2 ^ b) i (sh' i) (masks' i) rearrange dom g sid rng).recorded) (fun i => (outs' i, views i)) ∧
          ∀ i, outs (P i) = outs' (P i) := by
  have hle := l_eq hpp
  have hg := PSS.good_of_new hpp
  obtain ⟨hwf, -, -, hsize⟩ := Domain.new_pow2 hdom
  have hprim : IsPrimitiveRoot dom.groupGenInv (2 ^ (a + b)) := by rw [hwf.ginv, ← hsize]; exact hwf.prim.inv
  rw [← offset_eq hpp] at hgen
  obtain ⟨-, hsh⟩ := hsh
  obtain ⟨-, hsh'⟩ := hsh'
  rw [← hle] at hsh hsh'
  obtain ⟨δ, hδ, h⟩ := PSS.dIfft_kcouple (n := 4 * 2 ^ b) hg dbg (by rw [hle]) ha hle hgen hsize hprim (fun i => v.getD i 0)
    (fun i => v'.getD i 0) g rearrange P hinj hlt sh sh' hsh hsh' hP
  have fm := fun t => FftMask.sample_dealt hg dbg hle hprim rearrange g t
  rw [hle] at fm
  refine ⟨δ, fun t => ⟨_, _, fm t, fm (t.add δ), fun i => (hδ t i).symm, fun sid rng => ?_⟩⟩
  obtain ⟨outs, outs', views, h1, h2, -, -, h3⟩ := h t sid rng
  exact ⟨outs, outs', views, h1.alwaysYields fun i => PSS.dIfft_wf _ (by positivity) _ _ _ _ _ _ _ _,
    h2.alwaysYields fun i => PSS.dIfft_wf _ (by positivity) _ _ _ _ _ _ _ _, h3⟩

/-- **C61** `deg_red`: for two vectors of shares with up to `4l - 1` coefficients that `l` parties hold alike, and whose difference has
only `2l` coefficients, there are values such that adding them to the tape of the masks turns a run on the first into a run on the
second in which every party, the king included, is sent the same bytes, and the `l` parties hold the same masks and end with the same
outputs. -/
theorem C61_deg_red {dbg₀ : Bool} {b : Nat} {pp : PSS F} (hpp : PSS.new dbg₀ (2 ^ b) = .ok pp)
    (hgen : (FftField.GENERATOR : F) ^ (4 * 2 ^ b) ≠ 1) (dbg : Bool) {N : Nat} (hN : 0 < N) (hN64 : N < 2 ^ 64)
    (P : Fin (2 ^ b) → Nat) (hinj : Function.Injective P) (hlt : ∀ i, P i < 4 * 2 ^ b) {sec sec' sh sh' D : Nat → List F}
    (hsh : Spec.SharedVec pp.share.groupGen pp.secret.offset (2 ^ b) (4 * 2 ^ b - 1) N sh sec)
    (hsh' : Spec.SharedVec pp.share.groupGen pp.secret.offset (2 ^ b) (4 * 2 ^ b - 1) N sh' sec') (hP : ∀ i, sh (P i) = sh' (P i))
    (hD : Spec.SharedVec pp.share.groupGen pp.secret.offset (2 ^ b) (2 * 2 ^ b) N (fun p => List.zipWith (· - ·) (sh p) (sh' p)) D) :
    ∃ δ : VecTape F, ∀ t : VecTape F, ∃ masks masks' : Nat → DegRedMask F,
      DegRedMask.sample pp dbg (1 : F) N t.vals t.rngIn t.rngOut = .ok ((List.range (4 * 2 ^ b)).map masks) ∧
      DegRedMask.sample pp dbg (1 : F) N (t.add δ).vals (t.add δ).rngIn (t.add δ).rngOut =
        .ok ((List.range (4 * 2 ^ b)).map masks') ∧
      (∀ i, masks (P i) = masks' (P i)) ∧
      ∀ (sid : Sid) (rng : Nat → Nat → F), ∃ (outs outs' : Nat → List F) (views : Fin (4 * 2 ^ b) → Transcript),
          AlwaysYields (Net.init fun i : Fin (4 * 2 ^ b) => (pp.degRed dbg (4 * 2 ^ b) i (sh i) (masks i) sid rng).recorded)
            (fun i => (outs i, views i)) ∧
          AlwaysYields (Net.init fun i : Fin (4 * 2 ^ b) => (pp.degRed dbg (4 * 2 ^ b) i (sh' i) (masks' i) sid rng).recorded)
            (fun i => (outs' i, views i)) ∧
          ∀ i, outs (P i) = outs' (P i) := by
  have hle := l_eq hpp
  have hg := PSS.good_of_new hpp
  have hl := hg.lpos
  rw [← offset_eq hpp] at hgen
  rw [← hle] at hsh hsh' hD
  obtain ⟨δ, hδ, h⟩ := PSS.degRed_kcouple (n := 4 * 2 ^ b) hg dbg hle (by rw [hle]) hgen hN hN64 P hinj hlt hsh hsh' hP hD
  have dm := fun t => DegRedMask.sample_dealt hg dbg hN t
  rw [hle] at dm
  refine ⟨δ, fun t => ⟨_, _, dm t, dm (t.add δ), fun i => (hδ t i).symm, fun sid rng => ?_⟩⟩
  obtain ⟨outs, outs', views, h1, h2, -, -, h3⟩ := h t sid rng
  exact ⟨outs, outs', views, h1.alwaysYields fun i => PSS.degRed_wf _ (by positivity) _ _ _ _ _,
    h2.alwaysYields fun i => PSS.degRed_wf _ (by positivity) _ _ _ _ _, h3⟩

/-- **C61** `deg_red` hides the secrets of fixed shares: whatever vector of shares is reduced, and whatever other secrets, there are
shares of the other secrets which the `l` parties hold alike and which look the same in a run, to the king too, with suitably changed
masks. -/
theorem C61_deg_red_secrets {dbg₀ : Bool} {b : Nat} {pp : PSS F} (hpp : PSS.new dbg₀ (2 ^ b) = .ok pp)
    (hgen : (FftField.GENERATOR : F) ^ (4 * 2 ^ b) ≠ 1) (dbg : Bool) {N : Nat} (hN : 0 < N) (hN64 : N < 2 ^ 64)
    (P : Fin (2 ^ b) → Nat) (hinj : Function.Injective P) (hlt : ∀ i, P i < 4 * 2 ^ b) {sec sec' sh : Nat → List F}
    (hsh : Spec.SharedVec pp.share.groupGen pp.secret.offset (2 ^ b) (4 * 2 ^ b - 1) N sh sec)
    (hs' : ∀ c < N, (sec' c).length = 2 ^ b) :
    ∃ sh' : Nat → List F, Spec.SharedVec pp.share.groupGen pp.secret.offset (2 ^ b) (4 * 2 ^ b - 1) N sh' sec' ∧
      (∀ i, sh (P i) = sh' (P i)) ∧
      ∃ δ : VecTape F, ∀ t : VecTape F, ∃ masks masks' : Nat → DegRedMask F,
      DegRedMask.sample pp dbg (1 : F) N t.vals t.rngIn t.rngOut = .ok ((List.range (4 * 2 ^ b)).map masks) ∧
      DegRedMask.sample pp dbg (1 : F) N (t.add δ).vals (t.add δ).rngIn (t.add δ).rngOut =
        .ok ((List.range (4 * 2 ^ b)).map masks') ∧
      (∀ i, masks (P i) = masks' (P i)) ∧
      ∀ (sid : Sid) (rng : Nat → Nat → F), ∃ (outs outs' : Nat → List F) (views : Fin (4 * 2 ^ b) → Transcript),
          AlwaysYields (Net.init fun i : Fin (4 * 2 ^ b) => (pp.degRed dbg (4 * 2 ^ b) i (sh i) (masks i) sid rng).recorded)
            (fun i => (outs i, views i)) ∧
          AlwaysYields (Net.init fun i : Fin (4 * 2 ^ b) => (pp.degRed dbg (4 * 2 ^ b) i (sh' i) (masks' i) sid rng).recorded)
            (fun i => (outs' i, views i)) ∧
          ∀ i, outs (P i) = outs' (P i) := by
  have hb0 : 0 < 2 ^ b := by positivity
  have hs : ∀ c < N, (sec c).length = 2 ^ b := fun c hc => (hsh.2 c hc).2.1
  obtain ⟨Δ, hΔ, h0⟩ := exists_agreeing hpp hgen (N := N) (sec := fun c => List.zipWith (· - ·) (sec c) (sec' c))
    (fun c hc => by simp [hs c hc, hs' c hc]) P hinj hlt (fun _ => List.replicate N 0) (fun p _ => by simp)
  have hsub : ∀ (x y : List F) {n : Nat}, x.length = n → y.length = n → List.zipWith (· - ·) x (List.zipWith (· - ·) x y) = y := by
    intro x y n hx hy
    apply list_ext_getD 0 (by simp [hx, hy])
    intro c hc
    have hc : c < n := by simpa [hx, hy] using hc
    rw [getD_zipWith _ _ _ _ 0 0 _ (by omega) (by simp [hx, hy, hc]), getD_zipWith _ _ _ _ 0 0 _ (by omega) (by omega), sub_sub_cancel]
  have hle := l_eq hpp
  have hsh' : Spec.SharedVec pp.share.groupGen pp.secret.offset (2 ^ b) (4 * 2 ^ b - 1) N (diff sh Δ) sec' := by
    rw [← hle] at hsh hΔ ⊢
    refine SharedVec.congr (SharedVec.sub hsh (SharedVec.mono (by rw [hle]; omega) hΔ)) (fun _ _ => rfl) fun c hc => ?_
    exact hsub _ _ (hs c hc) (hs' c hc)
  have hP : ∀ i, sh (P i) = diff sh Δ (P i) := by
    intro i
    have hl := hsh.1 _ (hlt i)
    rw [diff, h0]
    apply list_ext_getD 0 (by simp [hl])
    intro c hc
    rw [hl] at hc
    rw [getD_zipWith _ _ _ _ 0 0 _ (by omega) (by simp [hc]), getD_replicate_self, sub_zero]
  refine ⟨diff sh Δ, hsh', hP, C61_deg_red hpp hgen dbg hN hN64 P hinj hlt hsh hsh' hP
    (D := fun c => List.zipWith (· - ·) (sec c) (sec' c)) ?_⟩
  rw [← hle] at hΔ ⊢
  refine SharedVec.congr hΔ (fun p hp => ?_) fun _ _ => rfl
  rw [hle] at hp
  exact (hsub _ _ (hsh.1 p hp) (by rw [← hle] at hp; exact hΔ.1 p hp)).symm

/-- **C61** `deg_red` reveals everything else to the king: when the king is sent the same bytes in runs on two vectors of shares, with
any masks, then their difference has `2l` coefficients. So the king learns the upper coefficients of the sharing polynomials, exactly. -/
theorem C61_deg_red_leaks {dbg₀ : Bool} {b : Nat} {pp : PSS F} (hpp : PSS.new dbg₀ (2 ^ b) = .ok pp) (dbg : Bool) {N : Nat} (hN : 0 < N)
    (hN64 : N < 2 ^ 64) {sec sec' sh sh' : Nat → List F}
    (hsh : Spec.SharedVec pp.share.groupGen pp.secret.offset (2 ^ b) (4 * 2 ^ b - 1) N sh sec)
    (hsh' : Spec.SharedVec pp.share.groupGen pp.secret.offset (2 ^ b) (4 * 2 ^ b - 1) N sh' sec')
    {t t' : VecTape F} {masks masks' : Nat → DegRedMask F}
    (hm : DegRedMask.sample pp dbg (1 : F) N t.vals t.rngIn t.rngOut = .ok ((List.range (4 * 2 ^ b)).map masks))
    (hm' : DegRedMask.sample pp dbg (1 : F) N t'.vals t'.rngIn t'.rngOut = .ok ((List.range (4 * 2 ^ b)).map masks'))
    (sid : Sid) (rng rng' : Nat → Nat → F) {outs outs' : Nat → List F} {views views' : Fin (4 * 2 ^ b) → Transcript}
    (hr : AlwaysYields (Net.init fun i : Fin (4 * 2 ^ b) => (pp.degRed dbg (4 * 2 ^ b) i (sh i) (masks i) sid rng).recorded)
      (fun i => (outs i, views i)))
    (hr' : AlwaysYields (Net.init fun i : Fin (4 * 2 ^ b) => (pp.degRed dbg (4 * 2 ^ b) i (sh' i) (masks' i) sid rng').recorded)
      (fun i => (outs' i, views' i))) (hv : ∀ i, i.val = 0 → views i = views' i) :
    ∃ D, Spec.SharedVec pp.share.groupGen pp.secret.offset (2 ^ b) (2 * 2 ^ b) N (fun p => List.zipWith (· - ·) (sh p) (sh' p)) D := by
  have hle := l_eq hpp
  have hg := PSS.good_of_new hpp
  have hl := hg.lpos
  have hb0 : 0 < 4 * 2 ^ b := by positivity
  have dm := fun t => DegRedMask.sample_dealt hg dbg hN t
  rw [hle] at dm
  have eqm : ∀ {t : VecTape F} {masks : Nat → DegRedMask F},
      DegRedMask.sample pp dbg (1 : F) N t.vals t.rngIn t.rngOut = .ok ((List.range (4 * 2 ^ b)).map masks) →
      ∀ p < 4 * 2 ^ b, masks p = pp.degDealt N t p := by
    intro t masks hm p hp
    exact (List.map_inj_left.1 (Except.ok.inj (hm.symm.trans (dm t)))) p (List.mem_range.2 hp)
  rw [← hle] at hsh hsh'
  have view : ∀ {sec sh : Nat → List F} {t : VecTape F} {masks : Nat → DegRedMask F} {rng : Nat → Nat → F} {outs : Nat → List F}
      {views : Fin (4 * 2 ^ b) → Transcript}, pp.SharedVec (4 * pp.l - 1) N sh sec → (∀ p < 4 * 2 ^ b, masks p = pp.degDealt N t p) →
      AlwaysYields (Net.init fun i : Fin (4 * 2 ^ b) => (pp.degRed dbg (4 * 2 ^ b) i (sh i) (masks i) sid rng).recorded)
      (fun i => (outs i, views i)) → views ⟨0, hb0⟩ = gathered (4 * 2 ^ b) fun p => addMask (sh p) (pp.degDealt N t p).inMask := by
    intro sec sh t masks rng outs views hsh hm hr
    obtain ⟨r, -⟩ := PSS.degRed_view (n := 4 * 2 ^ b) hg dbg (by rw [hle]) hN hN64 (by omega) le_rfl hsh t sid rng
    have r' := (r.congr (ps' := fun i : Fin (4 * 2 ^ b) => pp.degRed dbg (4 * 2 ^ b) i (sh i) (masks i) sid rng)
      (fun i => by rw [hm i i.2]) (fun _ => rfl) fun _ => rfl).alwaysYields fun i => PSS.degRed_wf _ (by positivity) _ _ _ _ _
    have := congrFun (AlwaysYields.unique hr r') ⟨0, hb0⟩
    exact congrArg Prod.snd this
  have e := view hsh (eqm hm) hr
  have e' := view hsh' (eqm hm') hr'
  rw [hv _ rfl, e'] at e
  have hlen : ∀ t p, (pp.degDealt N t p).inMask.length = N := fun t p => pp.freshVec_length _ _ _ _
  have eq : ∀ p < 4 * pp.l, List.zipWith (· - ·) (sh p) (sh' p) = diff (fun p => (pp.degDealt N t' p).inMask) (fun p => (pp.degDealt N t p).inMask) p := by
    intro p hp
    have hx := hsh.1 p hp
    have hy := hsh'.1 p hp
    have h1 := (List.map_inj_left.1 e) p (List.mem_range.2 (by rw [← hle]; exact hp))
    have h1 := congrArg Prod.snd h1
    have hadd : ∀ (v m : List F), v.length = N → m.length = N → (addMask v m).length < 2 ^ 64 := by
      intro v m hv hm
      have : (addMask v m).length = N := by simp [addMask, hv, hm]
      rw [this]
      exact hN64
    have h2 := Wire.Ok.enc_inj (Wire.ok_list _ (hadd _ _ hy (hlen t' p))) (Wire.ok_list _ (hadd _ _ hx (hlen t p))) h1
    unfold diff
    apply list_ext_getD 0 (by simp [hx, hy, hlen])
    intro c hc
    have hc : c < N := by simpa [hx, hy] using hc
    have h3 := congrArg (fun v => v.getD c 0) h2
    dsimp only [addMask] at h3
    rw [getD_zipWith _ _ _ _ 0 0 _ (by omega) (by rw [hlen]; exact hc), getD_zipWith _ _ _ _ 0 0 _ (by omega) (by rw [hlen]; exact hc)] at h3
    rw [getD_zipWith _ _ _ _ 0 0 _ (by omega) (by omega), getD_zipWith _ _ _ _ 0 0 _ (by rw [hlen]; exact hc) (by rw [hlen]; exact hc)]
    rw [sub_eq_sub_iff_add_eq_add, ← h3]
    ring
  have hin : ∀ t, pp.SharedVec (2 * pp.l) N (fun p => (pp.degDealt N t p).inMask) (chunks pp.l t.vals) := fun t =>
    PSS.freshVec_shared hg (fun c _ => chunks_length _ _ _) _
  refine ⟨diff (chunks pp.l t'.vals) (chunks pp.l t.vals), ?_⟩
  rw [← hle]
  exact SharedVec.congr (SharedVec.sub (hin t') (hin t)) (fun p hp => (eq p hp).symm) fun _ _ => rfl

section msm
variable {G : Type} [AddCommGroup G] [Module F G] [DecidableEq G] [FixedWire G]

/-- The share of a multi-scalar multiplication that a party computes from its shares of the bases and of the scalars. -/
def msmOf (N : Nat) (bs : List G) (ss : List F) : G := ∑ c ∈ range N, ss.getD c 0 • bs.getD c 0

/-- **C61** `d_msm`: for two vectors of scalars that `l` parties hold alike, such that the parties' local sums differ by shares with
`2l` coefficients, there are values such that adding them to the tape of the masks turns a run on the first into a run on the second
in which every party, the king included, is sent the same bytes, and the `l` parties hold the same masks and end with the same
outputs. -/
theorem C61_d_msm {dbg₀ : Bool} {b : Nat} {pp : PSS F} (hpp : PSS.new dbg₀ (2 ^ b) = .ok pp)
    (hgen : (FftField.GENERATOR : F) ^ (4 * 2 ^ b) ≠ 1) (dbg : Bool) (gen : G) (hspan : ∀ g : G, ∃ c : F, c • gen = g)
    {y : List G} {x x' : List F} (hlen : x.length = y.length) (hlen' : x'.length = y.length)
    (P : Fin (2 ^ b) → Nat) (hinj : Function.Injective P) (hlt : ∀ i, P i < 4 * 2 ^ b)
    {bs : Nat → List G} {ss ss' : Nat → List F} (hb : HoldsChunks pp b bs y) (hs : HoldsChunks pp b ss x)
    (hs' : HoldsChunks pp b ss' x') (hP : ∀ i, ss (P i) = ss' (P i)) {D : List G}
    (hD : Sharing pp.share.groupGen pp.secret.offset (2 ^ b) (2 * 2 ^ b) ((List.range (4 * 2 ^ b)).map fun p =>
      msmOf ((y.length + 2 ^ b - 1) / 2 ^ b) (bs p) (ss p) - msmOf ((y.length + 2 ^ b - 1) / 2 ^ b) (bs p) (ss' p)) D) :
    ∃ δ : MsmTape F G, ∀ t : MsmTape F G, ∃ masks masks' : Nat → MsmMask G,
      MsmMask.sample pp dbg gen t.vals t.rngIn t.rngOut = .ok ((List.range (4 * 2 ^ b)).map masks) ∧
      MsmMask.sample pp dbg gen (t.add δ).vals (t.add δ).rngIn (t.add δ).rngOut = .ok ((List.range (4 * 2 ^ b)).map masks') ∧
      (∀ i, masks (P i) = masks' (P i)) ∧
      ∀ sid : Sid, ∃ (outs outs' : Nat → G) (views : Fin (4 * 2 ^ b) → Transcript),
          AlwaysYields (Net.init fun i : Fin (4 * 2 ^ b) => (pp.dMsm dbg (4 * 2 ^ b) i (bs i) (ss i) (masks i) sid).recorded)
            (fun i => (outs i, views i)) ∧
          AlwaysYields (Net.init fun i : Fin (4 * 2 ^ b) => (pp.dMsm dbg (4 * 2 ^ b) i (bs i) (ss' i) (masks' i) sid).recorded)
            (fun i => (outs' i, views i)) ∧
          ∀ i, outs (P i) = outs' (P i) := by
  have hle := l_eq hpp
  have hg := PSS.good_of_new hpp
  have hl := hg.lpos
  rw [← offset_eq hpp] at hgen
  rw [HoldsChunks, hlen] at hs
  rw [HoldsChunks, hlen'] at hs'
  rw [HoldsChunks] at hb
  rw [← hle] at hb hs hs' hD
  obtain ⟨δ, hδ, h⟩ := PSS.dMsm_kcouple (n := 4 * 2 ^ b) hg dbg hle (by rw [hle]) hgen gen hspan P hinj hlt (by omega) (by omega)
    hb hb hs hs' (fun _ => rfl) hP rfl rfl hD
  have mm := fun t => MsmMask.sample_dealt hg dbg gen t
  rw [hle] at mm
  refine ⟨δ, fun t => ⟨_, _, mm t, mm (t.add δ), fun i => (hδ t i).symm, fun sid => ?_⟩⟩
  obtain ⟨outs, outs', views, h1, h2, -, -, h3⟩ := h t sid
  exact ⟨outs, outs', views, h1.alwaysYields fun i => PSS.dMsm_wf _ (by positivity) _ _ _ _ _,
    h2.alwaysYields fun i => PSS.dMsm_wf _ (by positivity) _ _ _ _ _, h3⟩

/-- **C61** `d_msm` reveals everything else to the king: when the king is sent the same bytes in runs on two vectors of scalars, with
any masks, then the parties' local sums differ by shares with `2l` coefficients. -/
theorem C61_d_msm_leaks {dbg₀ : Bool} {b : Nat} {pp : PSS F} (hpp : PSS.new dbg₀ (2 ^ b) = .ok pp) (dbg : Bool) (gen : G)
    {y : List G} {x x' : List F} (hlen : x.length = y.length) (hlen' : x'.length = y.length)
    {bs : Nat → List G} {ss ss' : Nat → List F} (hb : HoldsChunks pp b bs y) (hs : HoldsChunks pp b ss x)
    (hs' : HoldsChunks pp b ss' x') {t t' : MsmTape F G} {masks masks' : Nat → MsmMask G}
    (hm : MsmMask.sample pp dbg gen t.vals t.rngIn t.rngOut = .ok ((List.range (4 * 2 ^ b)).map masks))
    (hm' : MsmMask.sample pp dbg gen t'.vals t'.rngIn t'.rngOut = .ok ((List.range (4 * 2 ^ b)).map masks'))
    (sid : Sid) {outs outs' : Nat → G} {views views' : Fin (4 * 2 ^ b) → Transcript}
    (hr : AlwaysYields (Net.init fun i : Fin (4 * 2 ^ b) => (pp.dMsm dbg (4 * 2 ^ b) i (bs i) (ss i) (masks i) sid).recorded)
      (fun i => (outs i, views i)))
    (hr' : AlwaysYields (Net.init fun i : Fin (4 * 2 ^ b) => (pp.dMsm dbg (4 * 2 ^ b) i (bs i) (ss' i) (masks' i) sid).recorded)
      (fun i => (outs' i, views' i))) (hv : ∀ i, i.val = 0 → views i = views' i) :
    ∃ D, Sharing pp.share.groupGen pp.secret.offset (2 ^ b) (2 * 2 ^ b) ((List.range (4 * 2 ^ b)).map fun p =>
      msmOf ((y.length + 2 ^ b - 1) / 2 ^ b) (bs p) (ss p) - msmOf ((y.length + 2 ^ b - 1) / 2 ^ b) (bs p) (ss' p)) D := by
  have hle := l_eq hpp
  have hg := PSS.good_of_new hpp
  have hl := hg.lpos
  have hb0 : 0 < 4 * 2 ^ b := by positivity
  have mm := fun t => MsmMask.sample_dealt hg dbg gen t
  rw [hle] at mm
  have eqm : ∀ {t : MsmTape F G} {masks : Nat → MsmMask G},
      MsmMask.sample pp dbg gen t.vals t.rngIn t.rngOut = .ok ((List.range (4 * 2 ^ b)).map masks) →
      ∀ p < 4 * 2 ^ b, masks p = pp.msmDealt gen t p := by
    intro t masks hm p hp
    exact (List.map_inj_left.1 (Except.ok.inj (hm.symm.trans (mm t)))) p (List.mem_range.2 hp)
  rw [HoldsChunks, hlen] at hs
  rw [HoldsChunks, hlen'] at hs'
  rw [HoldsChunks] at hb
  rw [← hle] at hb hs hs'
  have view : ∀ {ssec ss : Nat → List F} {t : MsmTape F G} {masks : Nat → MsmMask G} {outs : Nat → G}
      {views : Fin (4 * 2 ^ b) → Transcript}, pp.SharedVec (2 * pp.l) ((y.length + pp.l - 1) / pp.l) ss ssec →
      (∀ p < 4 * 2 ^ b, masks p = pp.msmDealt gen t p) →
      AlwaysYields (Net.init fun i : Fin (4 * 2 ^ b) => (pp.dMsm dbg (4 * 2 ^ b) i (bs i) (ss i) (masks i) sid).recorded)
      (fun i => (outs i, views i)) → views ⟨0, hb0⟩ = gathered (4 * 2 ^ b) fun p =>
        msmOf ((y.length + pp.l - 1) / pp.l) (bs p) (ss p) + (pp.msmDealt gen t p).inMask := by
    intro ssec ss t masks outs views hs hm hr
    obtain ⟨r, -⟩ := PSS.dMsm_view (n := 4 * 2 ^ b) hg dbg (by rw [hle]) (by omega) (by omega) hb hs gen t sid rfl
    have r' := (r.congr (ps' := fun i : Fin (4 * 2 ^ b) => pp.dMsm dbg (4 * 2 ^ b) i (bs i) (ss i) (masks i) sid)
      (fun i => by rw [hm i i.2]) (fun _ => rfl) fun _ => rfl).alwaysYields fun i => PSS.dMsm_wf _ (by positivity) _ _ _ _ _
    have := congrFun (AlwaysYields.unique hr r') ⟨0, hb0⟩
    exact congrArg Prod.snd this
  have e := view hs (eqm hm) hr
  have e' := view hs' (eqm hm') hr'
  rw [hv _ rfl, e'] at e
  have hin : ∀ t : MsmTape F G, pp.Shares (2 * pp.l) ((List.range (4 * pp.l)).map fun p => (pp.msmDealt gen t p).inMask)
      ((List.range pp.l).map fun i => t.vals i • gen) := fun t => PSS.fresh_one hg (by simp) _
  have hsub := Shares.sub (hin t') (hin t)
  rw [List.zipWith_map_left, List.zipWith_map_right, List.zipWith_self] at hsub
  refine ⟨List.zipWith (· - ·) ((List.range pp.l).map fun i => t'.vals i • gen) ((List.range pp.l).map fun i => t.vals i • gen),
    cast ?_ hsub⟩
  rw [← hle]
  unfold PSS.Shares
  congr 1
  apply List.map_congr_left
  intro p hp
  have h1 := (List.map_inj_left.1 e) p (by rw [← hle]; exact hp)
  have h2 := Wire.Ok.enc_inj (Wire.ok_fixed _) (Wire.ok_fixed _) (congrArg Prod.snd h1)
  dsimp only at h2
  rw [sub_eq_sub_iff_add_eq_add, add_comm, h2, add_comm]

end msm

/-! ### Examples -/

/-- The king and party 3. -/
def king17 (i : Fin (2 ^ 1)) : Nat := if i = 0 then 0 else 3

theorem king17_inj : Function.Injective king17 := by decide
theorem king17_lt : ∀ i, king17 i < 4 * 2 ^ 1 := by decide

/-- The transform of `[3, 5, 7, 11]` and of `[0, 0, 0, 1]` may look the same to the king and party 3. -/
example (t : VecTape (ZMod 17)) : ∃ (sh sh' : Nat → List (ZMod 17)) (masks masks' : Nat → FftMask (ZMod 17)) (outs outs' : Nat → List (ZMod 17))
    (views : Fin (4 * 2 ^ 1) → Transcript), HoldsOutput pp17 true 1 1 sh [3, 5, 7, 11] ∧ HoldsOutput pp17 true 1 1 sh' [0, 0, 0, 1] ∧
    AlwaysYields (Net.init fun i : Fin (4 * 2 ^ 1) =>
      (pp17.dFft true (4 * 2 ^ 1) i (sh i) (masks i) false dom17 .zero fun i j => i + j).recorded) (fun i => (outs i, views i)) ∧
    AlwaysYields (Net.init fun i : Fin (4 * 2 ^ 1) =>
      (pp17.dFft true (4 * 2 ^ 1) i (sh' i) (masks' i) false dom17 .zero fun i j => i + j).recorded) (fun i => (outs' i, views i)) ∧
    ∀ i, sh (king17 i) = sh' (king17 i) ∧ masks (king17 i) = masks' (king17 i) ∧ outs (king17 i) = outs' (king17 i) := by
  obtain ⟨sh, -, h⟩ := C27_fresh_input (pp17_eq true) true 1 [3, 5, 7, 11] rfl fun _ _ => 1
  obtain ⟨sh', h', hP⟩ := C61_inputs_exist (pp17_eq true) gen17 1 _ [0, 0, 0, 1] rfl king17 king17_inj king17_lt _ h
  obtain ⟨δ, hδ⟩ := C61_d_fft (pp17_eq true) gen17 true 1 (by norm_num) dom17_eq _ _ false king17 king17_inj king17_lt _ sh' h h' hP
  obtain ⟨masks, masks', -, -, hm, hr⟩ := hδ t
  obtain ⟨outs, outs', views, h1, h2, h3⟩ := hr .zero fun i j => i + j
  exact ⟨_, _, masks, masks', outs, outs', views, h, h', h1, h2, fun i => ⟨hP i, hm i, h3 i⟩⟩

/-- The same for the inverse transform. -/
example (t : VecTape (ZMod 17)) : ∃ (sh sh' : Nat → List (ZMod 17)) (masks masks' : Nat → FftMask (ZMod 17)) (outs outs' : Nat → List (ZMod 17))
    (views : Fin (4 * 2 ^ 1) → Transcript), HoldsOutput pp17 true 1 1 sh [3, 5, 7, 11] ∧ HoldsOutput pp17 true 1 1 sh' [0, 0, 0, 1] ∧
    AlwaysYields (Net.init fun i : Fin (4 * 2 ^ 1) =>
      (pp17.dIfft true (4 * 2 ^ 1) i (sh i) (masks i) true dom17 3 .zero fun i j => i + j).recorded) (fun i => (outs i, views i)) ∧
    AlwaysYields (Net.init fun i : Fin (4 * 2 ^ 1) =>
      (pp17.dIfft true (4 * 2 ^ 1) i (sh' i) (masks' i) true dom17 3 .zero fun i j => i + j).recorded) (fun i => (outs' i, views i)) ∧
    ∀ i, sh (king17 i) = sh' (king17 i) ∧ masks (king17 i) = masks' (king17 i) ∧ outs (king17 i) = outs' (king17 i) := by
  obtain ⟨sh, -, h⟩ := C27_fresh_input (pp17_eq true) true 1 [3, 5, 7, 11] rfl fun _ _ => 1
  obtain ⟨sh', h', hP⟩ := C61_inputs_exist (pp17_eq true) gen17 1 _ [0, 0, 0, 1] rfl king17 king17_inj king17_lt _ h
  obtain ⟨δ, hδ⟩ := C61_d_ifft (pp17_eq true) gen17 true 1 (by norm_num) dom17_eq _ _ 3 true king17 king17_inj king17_lt _ sh' h h' hP
  obtain ⟨masks, masks', -, -, hm, hr⟩ := hδ t
  obtain ⟨outs, outs', views, h1, h2, h3⟩ := hr .zero fun i j => i + j
  exact ⟨_, _, masks, masks', outs, outs', views, h, h', h1, h2, fun i => ⟨hP i, hm i, h3 i⟩⟩

/-- The shares of the polynomial `X^6`, whose values at the two points of the secrets are 15 and 2. -/
theorem sextic17 : Spec.SharedVec pp17.share.groupGen pp17.secret.offset (2 ^ 1) (4 * 2 ^ 1 - 1) 1 (fun p => [(9 : ZMod 17) ^ (6 * p)])
    fun _ => [15, 2] := by
  refine ⟨fun _ _ => rfl, fun c hc => ⟨by simp, rfl, fun j => if j = 6 then 1 else 0, ?_, ?_⟩⟩
  · obtain rfl : c = 0 := by omega
    decide +kernel
  · obtain rfl : c = 0 := by omega
    decide +kernel

/-- Reducing the degree of `X^6`, shares of `[15, 2]`, may look to the king and party 3 like reducing shares of `[0, 1]`. -/
example (t : VecTape (ZMod 17)) : ∃ (sh' : Nat → List (ZMod 17)) (masks masks' : Nat → DegRedMask (ZMod 17)) (outs outs' : Nat → List (ZMod 17))
    (views : Fin (4 * 2 ^ 1) → Transcript),
    Spec.SharedVec pp17.share.groupGen pp17.secret.offset (2 ^ 1) (4 * 2 ^ 1 - 1) 1 sh' (fun _ => [0, 1]) ∧
    AlwaysYields (Net.init fun i : Fin (4 * 2 ^ 1) =>
      (pp17.degRed true (4 * 2 ^ 1) i [9 ^ (6 * i.val)] (masks i) .zero fun i j => i + j).recorded) (fun i => (outs i, views i)) ∧
    AlwaysYields (Net.init fun i : Fin (4 * 2 ^ 1) =>
      (pp17.degRed true (4 * 2 ^ 1) i (sh' i) (masks' i) .zero fun i j => i + j).recorded) (fun i => (outs' i, views i)) ∧
    ∀ i, masks (king17 i) = masks' (king17 i) ∧ outs (king17 i) = outs' (king17 i) := by
  obtain ⟨sh', h', hP, δ, hδ⟩ := C61_deg_red_secrets (pp17_eq true) gen17 true one_pos (by norm_num) king17 king17_inj king17_lt sextic17
    (sec' := fun _ => [0, 1]) fun _ _ => rfl
  obtain ⟨masks, masks', -, -, hm, hr⟩ := hδ t
  obtain ⟨outs, outs', views, h1, h2, h3⟩ := hr .zero fun i j => i + j
  exact ⟨sh', masks, masks', outs, outs', views, h', h1, h2, fun i => ⟨hm i, h3 i⟩⟩

/-- `C61_deg_red` itself, for shares of `[3, 5]` and of `[0, 1]` that the king and party 3 hold alike. -/
example (t : VecTape (ZMod 17)) : ∃ (sh sh' : Nat → List (ZMod 17)) (masks masks' : Nat → DegRedMask (ZMod 17)) (outs outs' : Nat → List (ZMod 17))
    (views : Fin (4 * 2 ^ 1) → Transcript), HoldsChunks pp17 1 sh [3, 5] ∧ HoldsChunks pp17 1 sh' [0, 1] ∧
    AlwaysYields (Net.init fun i : Fin (4 * 2 ^ 1) =>
      (pp17.degRed true (4 * 2 ^ 1) i (sh i) (masks i) .zero fun i j => i + j).recorded) (fun i => (outs i, views i)) ∧
    AlwaysYields (Net.init fun i : Fin (4 * 2 ^ 1) =>
      (pp17.degRed true (4 * 2 ^ 1) i (sh' i) (masks' i) .zero fun i j => i + j).recorded) (fun i => (outs' i, views i)) ∧
    ∀ i, masks (king17 i) = masks' (king17 i) ∧ outs (king17 i) = outs' (king17 i) := by
  obtain ⟨sh, -, h⟩ := packFromWitness_holds (b := 1) (pp17_eq true) true ([3, 5] : List (ZMod 17)) fun _ _ => 1
  obtain ⟨sh', h', hP⟩ := exists_agreeing (pp17_eq true) gen17 (N := 1) (sec := chunks (2 ^ 1) fun i => ([0, 1] : List (ZMod 17)).getD i 0)
    (fun c _ => by simp [chunks]) king17 king17_inj king17_lt sh h.1
  obtain ⟨δ, hδ⟩ := C61_deg_red (pp17_eq true) gen17 true (N := 1) one_pos (by norm_num) king17 king17_inj king17_lt
    (SharedVec.mono (pp := pp17) (by decide) h) (SharedVec.mono (pp := pp17) (by decide) h') (fun i => (hP i).symm) (SharedVec.sub (pp := pp17) h h')
  obtain ⟨masks, masks', -, -, hm, hr⟩ := hδ t
  obtain ⟨outs, outs', views, h1, h2, h3⟩ := hr .zero fun i j => i + j
  exact ⟨sh, sh', masks, masks', outs, outs', views, h, h', h1, h2, fun i => ⟨hm i, h3 i⟩⟩

/-- The king tells reducing `X^6` from reducing zeros, with whatever masks. -/
example (t t' : VecTape (ZMod 17)) (masks masks' : Nat → DegRedMask (ZMod 17))
    (hm : DegRedMask.sample pp17 true (1 : ZMod 17) 1 t.vals t.rngIn t.rngOut = .ok ((List.range (4 * 2 ^ 1)).map masks))
    (hm' : DegRedMask.sample pp17 true (1 : ZMod 17) 1 t'.vals t'.rngIn t'.rngOut = .ok ((List.range (4 * 2 ^ 1)).map masks'))
    (outs outs' : Nat → List (ZMod 17)) (views views' : Fin (4 * 2 ^ 1) → Transcript)
    (hr : AlwaysYields (Net.init fun i : Fin (4 * 2 ^ 1) =>
      (pp17.degRed true (4 * 2 ^ 1) i [9 ^ (6 * i.val)] (masks i) .zero fun i j => i + j).recorded) (fun i => (outs i, views i)))
    (hr' : AlwaysYields (Net.init fun i : Fin (4 * 2 ^ 1) =>
      (pp17.degRed true (4 * 2 ^ 1) i [0] (masks' i) .zero fun i j => i + j).recorded) (fun i => (outs' i, views' i))) :
    views 0 ≠ views' 0 := by
  intro hv
  have hg := PSS.good_of_new (pp17_eq true)
  obtain ⟨D, hD⟩ := C61_deg_red_leaks (pp17_eq true) true one_pos (by norm_num) sextic17
    (SharedVec.zero (pp := pp17) 1 (4 * 2 ^ 1 - 1)) hm hm' .zero _ _ hr hr' (fun i hi => by rw [show i = 0 from Fin.ext hi]; exact hv)
  have h1 := PSS.unpack_of_shares (pp := pp17) hg (d := 2 * pp17.l) le_rfl (hD.2 0 one_pos)
  have h2 := PSS.unpack2_of_shares (pp := pp17) hg true (d := 2 * pp17.l) (by decide) (hD.2 0 one_pos)
  rw [← h1] at h2
  revert h2
  decide +kernel

/-- The sums `3·1 + 5·1` and `0·1 + 1·1` over bases shared by a constant polynomial may look the same to the king and party 3. -/
example (t : MsmTape (ZMod 17) (ZMod 17)) : ∃ (ss ss' : Nat → List (ZMod 17)) (masks masks' : Nat → MsmMask (ZMod 17))
    (outs outs' : Nat → ZMod 17) (views : Fin (4 * 2 ^ 1) → Transcript), HoldsChunks pp17 1 ss [3, 5] ∧ HoldsChunks pp17 1 ss' [0, 1] ∧
    AlwaysYields (Net.init fun i : Fin (4 * 2 ^ 1) => (pp17.dMsm true (4 * 2 ^ 1) i [1] (ss i) (masks i) .zero).recorded)
      (fun i => (outs i, views i)) ∧
    AlwaysYields (Net.init fun i : Fin (4 * 2 ^ 1) => (pp17.dMsm true (4 * 2 ^ 1) i [1] (ss' i) (masks' i) .zero).recorded)
      (fun i => (outs' i, views i)) ∧
    ∀ i, ss (king17 i) = ss' (king17 i) ∧ masks (king17 i) = masks' (king17 i) ∧ outs (king17 i) = outs' (king17 i) := by
  obtain ⟨sh, -, h⟩ := packFromWitness_holds (b := 1) (pp17_eq true) true ([3, 5] : List (ZMod 17)) fun _ _ => 1
  obtain ⟨sh', h', hP⟩ := exists_agreeing (pp17_eq true) gen17 (N := 1) (sec := chunks (2 ^ 1) fun i => ([0, 1] : List (ZMod 17)).getD i 0)
    (fun c _ => by simp [chunks]) king17 king17_inj king17_lt sh h.1
  have hb : HoldsChunks pp17 1 (fun _ => [1]) ([1, 1] : List (ZMod 17)) := by
    refine ⟨fun _ _ => rfl, fun c hc => ⟨by simp, by simp [chunks], fun j => if j = 0 then 1 else 0, ?_, ?_⟩⟩
    · obtain rfl : c = 0 := by have : c < 1 := hc; omega
      decide +kernel
    · obtain rfl : c = 0 := by have : c < 1 := hc; omega
      decide +kernel
  obtain ⟨δ, hδ⟩ := C61_d_msm (pp17_eq true) gen17 true (1 : ZMod 17) (fun g => ⟨g, by simp⟩) (y := [1, 1]) (x := [3, 5]) (x' := [0, 1])
    rfl rfl king17 king17_inj king17_lt hb h h' (fun i => (hP i).symm)
    (D := diff (chunks (2 ^ 1) fun i => ([3, 5] : List (ZMod 17)).getD i 0) (chunks (2 ^ 1) fun i => ([0, 1] : List (ZMod 17)).getD i 0) 0) (by
      refine cast ?_ ((SharedVec.sub (pp := pp17) h h').2 0 one_pos)
      congr 1
      apply List.map_congr_left
      intro p hp
      have hp := List.mem_range.1 hp
      have h1 := h.1 p hp
      have h2 := h'.1 p hp
      rw [diff, getD_zipWith _ _ _ _ 0 0 _ (by rw [h1]; decide) (by rw [h2]; decide)]
      simp [msmOf])
  obtain ⟨masks, masks', -, -, hm, hr⟩ := hδ t
  obtain ⟨outs, outs', views, h1, h2, h3⟩ := hr .zero
  exact ⟨sh, sh', masks, masks', outs, outs', views, h, h', h1, h2, fun i => ⟨(hP i).symm, hm i, h3 i⟩⟩

theorem cubic17 : HoldsChunks pp17 1 (fun p => [(9 : ZMod 17) ^ (3 * p)]) [10, 6] := by
  refine ⟨fun _ _ => rfl, fun c hc => ⟨by simp, by simp [chunks], fun j => if j = 3 then 1 else 0, ?_, ?_⟩⟩
  · obtain rfl : c = 0 := by have : c < 1 := hc; omega
    decide +kernel
  · obtain rfl : c = 0 := by have : c < 1 := hc; omega
    decide +kernel

/-- The king tells `10·10 + 6·6`, bases and scalars shared by `X^3`, from a sum with zero scalars, with whatever masks. -/
example (t t' : MsmTape (ZMod 17) (ZMod 17)) (masks masks' : Nat → MsmMask (ZMod 17))
    (hm : MsmMask.sample pp17 true 1 t.vals t.rngIn t.rngOut = .ok ((List.range (4 * 2 ^ 1)).map masks))
    (hm' : MsmMask.sample pp17 true 1 t'.vals t'.rngIn t'.rngOut = .ok ((List.range (4 * 2 ^ 1)).map masks'))
    (outs outs' : Nat → ZMod 17) (views views' : Fin (4 * 2 ^ 1) → Transcript)
    (hr : AlwaysYields (Net.init fun i : Fin (4 * 2 ^ 1) =>
      (pp17.dMsm true (4 * 2 ^ 1) i [(9 : ZMod 17) ^ (3 * i.val)] [(9 : ZMod 17) ^ (3 * i.val)] (masks i) .zero).recorded) (fun i => (outs i, views i)))
    (hr' : AlwaysYields (Net.init fun i : Fin (4 * 2 ^ 1) =>
      (pp17.dMsm true (4 * 2 ^ 1) i [(9 : ZMod 17) ^ (3 * i.val)] [(0 : ZMod 17)] (masks' i) .zero).recorded) (fun i => (outs' i, views' i))) :
    views 0 ≠ views' 0 := by
  intro hv
  have hg := PSS.good_of_new (pp17_eq true)
  have h0 : HoldsChunks pp17 1 (fun _ => [0]) ([0, 0] : List (ZMod 17)) := by
    refine SharedVec.congr (pp := pp17) (SharedVec.zero (pp := pp17) 1 (2 * 2 ^ 1)) (fun _ _ => rfl) fun c hc => ?_
    obtain rfl : c = 0 := by have : c < 1 := hc; omega
    decide +kernel
  obtain ⟨D, hD⟩ := C61_d_msm_leaks (pp17_eq true) true (1 : ZMod 17) (y := [10, 6]) (x := [10, 6]) (x' := [0, 0]) (ss' := fun _ => [0]) rfl rfl cubic17 cubic17 h0 hm hm' .zero
    hr hr'
    (fun i hi => by rw [show i = 0 from Fin.ext hi]; exact hv)
  have h1 := PSS.unpack_of_shares (pp := pp17) hg (d := 2 * pp17.l) le_rfl hD
  have h2 := PSS.unpack2_of_shares (pp := pp17) hg true (d := 2 * pp17.l) (by decide) hD
  rw [← h1] at h2
  revert h2
  decide +kernel

end ZkSaas.Properties
