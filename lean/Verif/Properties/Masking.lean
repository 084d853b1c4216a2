import Verif.Lemmas.Masking
import Verif.Properties.Protocols
import Mathlib.Tactic.LinearCombination

/-!
# C27, C28: what the king learns from the masked messages

`kingMsg ms prog p` is what party `p` hands to the king (the bytes of its message) when the masks `ms` were sampled from a
`MaskTape`: the list of all random values drawn. If for every possible view there is exactly one tape giving it, a uniformly
random tape gives a uniformly random view.
-/

set_option linter.unusedSectionVars false

namespace ZkSaas.Properties

open Finset Spec

variable {F : Type} [Field F] [DecidableEq F] [FftField F]

section c27
variable [FixedWire F]

theorem kingMsg_eq {M α : Type} {ms : Res (List M)} {l : List M} {prog : Nat → M → Proc α} {p : Nat} {m : M} {b : Bytes}
    (h1 : ms = .ok l) (h2 : l[p]? = some m) (h3 : toKing (prog p m) = some b) : kingMsg ms prog p = some b := by
  subst h1
  simp only [kingMsg, h2, Option.bind_some, h3]

/-- The common part of the statements about `d_fft` and `d_ifft`. -/
theorem fft2_view {dbg₀ : Bool} {b : Nat} {pp : PSS F} (hpp : PSS.new dbg₀ (2 ^ b) = .ok pp) (dbg : Bool) {a : Nat}
    {gen : F} (hprim : IsPrimitiveRoot gen (2 ^ (a + b))) (rearrange : Bool) (g : F) {px : Nat → List F} {sec : Nat → List F}
    (hpx : pp.SharedVec (2 * pp.l) (2 ^ a) px sec) (rngOut : Nat → Nat → F) (prog : Nat → FftMask F → Proc (List F))
    (hprog : ∀ p < 4 * 2 ^ b, ∀ m, toKing (prog p m) = some (Wire.enc (addMask (px p) m.inMask))) :
    ∃ Φ : MaskTape F F (2 ^ a) (2 ^ b) ≃ (Fin (2 ^ a) → Fin (2 * 2 ^ b) → F), ∀ tape, ∀ p < 4 * 2 ^ b,
      kingMsg (FftMask.sample pp dbg rearrange g gen (2 ^ (a + b)) (ext tape.1) (ext2 tape.2) rngOut) prog p =
        some (Wire.enc ((List.range (2 ^ a)).map fun c => pval (ext2 (Φ tape) c) (2 * 2 ^ b) (pp.share.groupGen ^ p))) := by
  have hle := l_eq hpp
  have hg := PSS.good_of_new hpp
  obtain ⟨u, hu⟩ := SharedVec.evalVec hpx
  refine ⟨PSS.viewEquiv hg Function.bijective_id hle u, fun tape p hp => ?_⟩
  obtain ⟨masks, e, hm⟩ := FftMask.sample_in hg dbg hle hprim rearrange g tape rngOut
  have hp' : p < 4 * pp.l := by rw [hle]; exact hp
  obtain ⟨m, h1, h2⟩ := hm p hp'
  refine kingMsg_eq e h1 ?_
  rw [hprog p hp, h2, hu p hp', PSS.evalVec_add, show 2 * pp.l = 2 * 2 ^ b by rw [hle]]
  congr 2
  apply PSS.evalVec_congr
  intro c hc j hj
  exact (PSS.viewEquiv_apply hg Function.bijective_id hle u tape hc hj).symm

theorem views_inj {dbg₀ : Bool} {b : Nat} {pp : PSS F} (hpp : PSS.new dbg₀ (2 ^ b) = .ok pp) {T : Type} [AddCommGroup T]
    [Module F T] [DecidableEq T] [FixedWire T] {N : Nat} (hN : N < 2 ^ 64)
    {V W : Fin N → Fin (2 * 2 ^ b) → T}
    (h : ∀ p < 4 * 2 ^ b, Wire.enc ((List.range N).map fun c => pval (ext2 V c) (2 * 2 ^ b) (pp.share.groupGen ^ p)) =
      Wire.enc ((List.range N).map fun c => pval (ext2 W c) (2 * 2 ^ b) (pp.share.groupGen ^ p))) : V = W := by
  have hle := l_eq hpp
  have hg := PSS.good_of_new hpp
  funext c j
  have := PSS.evalVec_inj hg (N := N) (d := 2 * 2 ^ b) (by omega) (u := ext2 V) (u' := ext2 W) (fun p hp =>
    Wire.Ok.enc_inj (Wire.ok_list _ (by simpa [PSS.evalVec] using hN)) (Wire.ok_list _ (by simpa [PSS.evalVec] using hN))
      (h p (hle ▸ hp))) c.2 j.2
  rwa [ext2_fin _ c.2 j.2, ext2_fin _ c.2 j.2] at this

theorem toKing_fft2 {pp : PSS F} (dbg : Bool) (n me : Nat) (px : List F) (mask : FftMask F) (rearrange : Bool) (g gen : F)
    (sid : Sid) (rng : Nat → Nat → F) :
    toKing (pp.fft2WithRearrange dbg n me px mask rearrange g gen sid rng) = some (Wire.enc (addMask px mask.inMask)) :=
  toKing_round _ _ _ _ _ _

theorem dFft_view {dbg₀ : Bool} {b : Nat} {pp : PSS F} (hpp : PSS.new dbg₀ (2 ^ b) = .ok pp) (dbg dbg' : Bool) {a : Nat}
    {dom : Domain F} (hdom : Domain.new (2 ^ (a + b)) = some dom) {sh : Nat → List F} {coeffs : List F}
    (hsh : HoldsOutput pp true a b sh coeffs) (rearrange : Bool) (sid : Sid) (rng rngOut : Nat → Nat → F) :
    ∃ Φ : MaskTape F F (2 ^ a) (2 ^ b) ≃ (Fin (2 ^ a) → Fin (2 * 2 ^ b) → F), ∀ tape, ∀ p < 4 * 2 ^ b,
      kingMsg (FftMask.sample pp dbg' rearrange 1 dom.groupGen (2 ^ (a + b)) (ext tape.1) (ext2 tape.2) rngOut)
        (fun p m => pp.dFft dbg (4 * 2 ^ b) p (sh p) m rearrange dom sid rng) p =
        some (Wire.enc ((List.range (2 ^ a)).map fun c => pval (ext2 (Φ tape) c) (2 * 2 ^ b) (pp.share.groupGen ^ p))) := by
  have hle := l_eq hpp
  obtain ⟨hwf, hoff, -, hsize⟩ := Domain.new_pow2 hdom
  have hprim : IsPrimitiveRoot dom.groupGen (2 ^ (a + b)) := hsize ▸ hwf.prim
  have hs := hsh.2
  rw [← hle] at hs
  obtain ⟨px, e, hpx⟩ := PSS.fft1_shared hle hprim _ hs
  refine fft2_view hpp dbg' hprim rearrange 1 hpx rngOut _ fun p hp m => ?_
  unfold PSS.dFft
  rw [debugAssert_of (by rw [hs.1 p (hle ▸ hp), hle, hsize, pow_add]; simp), e p (hle ▸ hp)]
  exact toKing_fft2 _ _ _ _ _ _ _ _ _ _

theorem dIfft_view {dbg₀ : Bool} {b : Nat} {pp : PSS F} (hpp : PSS.new dbg₀ (2 ^ b) = .ok pp) (dbg dbg' : Bool) {a : Nat}
    {dom : Domain F} (hdom : Domain.new (2 ^ (a + b)) = some dom) {sh : Nat → List F} {evals : List F}
    (hsh : HoldsOutput pp true a b sh evals) (rearrange : Bool) (g : F) (sid : Sid) (rng rngOut : Nat → Nat → F) :
    ∃ Φ : MaskTape F F (2 ^ a) (2 ^ b) ≃ (Fin (2 ^ a) → Fin (2 * 2 ^ b) → F), ∀ tape, ∀ p < 4 * 2 ^ b,
      kingMsg (FftMask.sample pp dbg' rearrange g dom.groupGenInv (2 ^ (a + b)) (ext tape.1) (ext2 tape.2) rngOut)
        (fun p m => pp.dIfft dbg (4 * 2 ^ b) p (sh p) m rearrange dom g sid rng) p =
        some (Wire.enc ((List.range (2 ^ a)).map fun c => pval (ext2 (Φ tape) c) (2 * 2 ^ b) (pp.share.groupGen ^ p))) := by
  have hle := l_eq hpp
  obtain ⟨hwf, -, hoff, hsize⟩ := Domain.new_pow2 hdom
  have hprim : IsPrimitiveRoot dom.groupGenInv (2 ^ (a + b)) := by
    rw [hwf.ginv]; exact hsize ▸ hwf.prim.inv
  have hs := hsh.2
  rw [← hle] at hs
  have hs' : pp.SharedVec (2 * pp.l) (2 ^ a) (fun p => (sh p).map fun z => z * dom.sizeInv)
      (packed true a b fun i => evals.getD i 0 * dom.sizeInv) :=
    SharedVec.congr (SharedVec.scale hs dom.sizeInv) (fun _ _ => rfl) fun c hc => packed_smul _ _ _ _ _ _
  obtain ⟨px, e, hpx⟩ := PSS.fft1_shared hle hprim _ hs'
  refine fft2_view hpp dbg' hprim rearrange g hpx rngOut _ fun p hp m => ?_
  have e := e p (hle ▸ hp)
  unfold PSS.dIfft
  rw [debugAssert_of (by rw [hs.1 p (hle ▸ hp), hle, hsize, pow_add]; simp)]
  dsimp only
  rw [e]
  exact toKing_fft2 _ _ _ _ _ _ _ _ _ _

/-- **C27** `d_fft` on freshly shared inputs (polynomials with `2l` coefficients): every family of polynomials with `2l`
coefficients, one per packed position, is what the messages to the king evaluate for exactly one choice of the mask's random
values. -/
theorem C27_d_fft_uniform {dbg₀ : Bool} {b : Nat} {pp : PSS F} (hpp : PSS.new dbg₀ (2 ^ b) = .ok pp) (dbg dbg' : Bool) (a : Nat)
    (ha : a < 64) {dom : Domain F} (hdom : Domain.new (2 ^ (a + b)) = some dom) (sh : Nat → List F) (coeffs : List F)
    (hsh : HoldsOutput pp true a b sh coeffs) (rearrange : Bool) (sid : Sid) (rng rngOut : Nat → Nat → F)
    (V : Fin (2 ^ a) → Fin (2 * 2 ^ b) → F) :
    ∃! tape : MaskTape F F (2 ^ a) (2 ^ b), ∀ p < 4 * 2 ^ b,
      kingMsg (FftMask.sample pp dbg' rearrange 1 dom.groupGen (2 ^ (a + b)) (ext tape.1) (ext2 tape.2) rngOut)
        (fun p m => pp.dFft dbg (4 * 2 ^ b) p (sh p) m rearrange dom sid rng) p =
        some (Wire.enc ((List.range (2 ^ a)).map fun c => pval (ext2 V c) (2 * 2 ^ b) (pp.share.groupGen ^ p))) := by
  obtain ⟨Φ, hΦ⟩ := dFft_view hpp dbg dbg' hdom hsh rearrange sid rng rngOut
  refine ⟨Φ.symm V, fun p hp => by rw [hΦ _ p hp, Φ.apply_symm_apply], fun tape ht => ?_⟩
  rw [Equiv.eq_symm_apply]
  refine views_inj hpp (Nat.pow_lt_pow_right (by norm_num) ha) fun p hp => ?_
  have := ht p hp
  rw [hΦ _ p hp] at this
  exact Option.some.inj this

/-- **C27** The king's view in `d_fft` does not depend on the inputs: for two inputs there is a bijection of the random values
under which the messages to the king are the same. -/
theorem C27_d_fft_independent {dbg₀ : Bool} {b : Nat} {pp : PSS F} (hpp : PSS.new dbg₀ (2 ^ b) = .ok pp) (dbg dbg' : Bool) (a : Nat)
    {dom : Domain F} (hdom : Domain.new (2 ^ (a + b)) = some dom) (sh sh' : Nat → List F) (coeffs coeffs' : List F)
    (hsh : HoldsOutput pp true a b sh coeffs) (hsh' : HoldsOutput pp true a b sh' coeffs') (rearrange : Bool) (sid : Sid)
    (rng rngOut : Nat → Nat → F) :
    ∃ e : MaskTape F F (2 ^ a) (2 ^ b) ≃ MaskTape F F (2 ^ a) (2 ^ b), ∀ tape, ∀ p < 4 * 2 ^ b,
      kingMsg (FftMask.sample pp dbg' rearrange 1 dom.groupGen (2 ^ (a + b)) (ext tape.1) (ext2 tape.2) rngOut)
        (fun p m => pp.dFft dbg (4 * 2 ^ b) p (sh p) m rearrange dom sid rng) p =
      kingMsg (FftMask.sample pp dbg' rearrange 1 dom.groupGen (2 ^ (a + b)) (ext (e tape).1) (ext2 (e tape).2) rngOut)
        (fun p m => pp.dFft dbg (4 * 2 ^ b) p (sh' p) m rearrange dom sid rng) p := by
  obtain ⟨Φ, hΦ⟩ := dFft_view hpp dbg dbg' hdom hsh rearrange sid rng rngOut
  obtain ⟨Ψ, hΨ⟩ := dFft_view hpp dbg dbg' hdom hsh' rearrange sid rng rngOut
  refine ⟨Φ.trans Ψ.symm, fun tape p hp => ?_⟩
  rw [hΦ _ p hp, hΨ _ p hp]
  simp

/-- **C27** The same for `d_ifft`. -/
theorem C27_d_ifft_uniform {dbg₀ : Bool} {b : Nat} {pp : PSS F} (hpp : PSS.new dbg₀ (2 ^ b) = .ok pp) (dbg dbg' : Bool) (a : Nat)
    (ha : a < 64) {dom : Domain F} (hdom : Domain.new (2 ^ (a + b)) = some dom) (sh : Nat → List F) (evals : List F)
    (hsh : HoldsOutput pp true a b sh evals) (rearrange : Bool) (g : F) (sid : Sid) (rng rngOut : Nat → Nat → F)
    (V : Fin (2 ^ a) → Fin (2 * 2 ^ b) → F) :
    ∃! tape : MaskTape F F (2 ^ a) (2 ^ b), ∀ p < 4 * 2 ^ b,
      kingMsg (FftMask.sample pp dbg' rearrange g dom.groupGenInv (2 ^ (a + b)) (ext tape.1) (ext2 tape.2) rngOut)
        (fun p m => pp.dIfft dbg (4 * 2 ^ b) p (sh p) m rearrange dom g sid rng) p =
        some (Wire.enc ((List.range (2 ^ a)).map fun c => pval (ext2 V c) (2 * 2 ^ b) (pp.share.groupGen ^ p))) := by
  obtain ⟨Φ, hΦ⟩ := dIfft_view hpp dbg dbg' hdom hsh rearrange g sid rng rngOut
  refine ⟨Φ.symm V, fun p hp => by rw [hΦ _ p hp, Φ.apply_symm_apply], fun tape ht => ?_⟩
  rw [Equiv.eq_symm_apply]
  refine views_inj hpp (Nat.pow_lt_pow_right (by norm_num) ha) fun p hp => ?_
  have := ht p hp
  rw [hΦ _ p hp] at this
  exact Option.some.inj this

/-- **C27** The king's view in `d_ifft` does not depend on the inputs. -/
theorem C27_d_ifft_independent {dbg₀ : Bool} {b : Nat} {pp : PSS F} (hpp : PSS.new dbg₀ (2 ^ b) = .ok pp) (dbg dbg' : Bool) (a : Nat)
    {dom : Domain F} (hdom : Domain.new (2 ^ (a + b)) = some dom) (sh sh' : Nat → List F) (evals evals' : List F)
    (hsh : HoldsOutput pp true a b sh evals) (hsh' : HoldsOutput pp true a b sh' evals') (rearrange : Bool) (g : F) (sid : Sid)
    (rng rngOut : Nat → Nat → F) :
    ∃ e : MaskTape F F (2 ^ a) (2 ^ b) ≃ MaskTape F F (2 ^ a) (2 ^ b), ∀ tape, ∀ p < 4 * 2 ^ b,
      kingMsg (FftMask.sample pp dbg' rearrange g dom.groupGenInv (2 ^ (a + b)) (ext tape.1) (ext2 tape.2) rngOut)
        (fun p m => pp.dIfft dbg (4 * 2 ^ b) p (sh p) m rearrange dom g sid rng) p =
      kingMsg (FftMask.sample pp dbg' rearrange g dom.groupGenInv (2 ^ (a + b)) (ext (e tape).1) (ext2 (e tape).2) rngOut)
        (fun p m => pp.dIfft dbg (4 * 2 ^ b) p (sh' p) m rearrange dom g sid rng) p := by
  obtain ⟨Φ, hΦ⟩ := dIfft_view hpp dbg dbg' hdom hsh rearrange g sid rng rngOut
  obtain ⟨Ψ, hΨ⟩ := dIfft_view hpp dbg dbg' hdom hsh' rearrange g sid rng rngOut
  refine ⟨Φ.trans Ψ.symm, fun tape p hp => ?_⟩
  rw [hΦ _ p hp, hΨ _ p hp]
  simp

/-- The hypothesis of C27: what rearranging, packing and transposing produces. -/
theorem C27_fresh_input {dbg₀ : Bool} {b : Nat} {pp : PSS F} (hpp : PSS.new dbg₀ (2 ^ b) = .ok pp) (dbg : Bool)
    (a : Nat) (v : List F) (hv : v.length = 2 ^ (a + b)) (rng : Nat → Nat → F) :
    ∃ shares, (do
        let v' ← fftInPlaceRearrange v
        let rows ← pp.packStrided dbg v' rng
        transpose rows) = .ok shares ∧ HoldsOutput pp true a b (fun p => shares.getD p []) v := by
  have hle := l_eq hpp
  obtain ⟨out, e, hl, hs⟩ := pack_layout (PSS.good_of_new hpp) dbg (a := a) hle (fun i => v.getD i 0) true rng
  rw [if_pos rfl, ← hv, ← list_eq_map_range] at e
  rw [PSS.SharedVec, hle] at hs
  exact ⟨out, e, hv, hs⟩

/-- Non-vacuity of C27: four values shared among eight parties over `F17`, and the value any party sends can be anything. -/
example : ∃ sh, HoldsOutput pp17 true 1 1 sh [3, 5, 7, 11] ∧
    ∃ tape : MaskTape (ZMod 17) (ZMod 17) (2 ^ 1) (2 ^ 1), ∀ p < 4 * 2 ^ 1,
      kingMsg (FftMask.sample pp17 true false 1 dom17.groupGen (2 ^ (1 + 1)) (ext tape.1) (ext2 tape.2) fun _ _ => 0)
        (fun p m => pp17.dFft true (4 * 2 ^ 1) p (sh p) m false dom17 .zero fun _ _ => 0) p =
        some (Wire.enc ((List.range (2 ^ 1)).map fun c =>
          pval (ext2 (fun (_ : Fin (2 ^ 1)) (_ : Fin (2 * 2 ^ 1)) => (4 : ZMod 17)) c) (2 * 2 ^ 1) (pp17.share.groupGen ^ p))) := by
  obtain ⟨sh, -, h⟩ := C27_fresh_input (pp17_eq true) true 1 [3, 5, 7, 11] rfl fun _ _ => 1
  obtain ⟨tape, ht, -⟩ := C27_d_fft_uniform (pp17_eq true) true true 1 (by norm_num) dom17_eq _ _ h false .zero
    (fun _ _ => 0) (fun _ _ => 0) (fun _ _ => 4)
  exact ⟨_, h, tape, ht⟩

end c27

/-! ### C28 -/

section c28
variable {T : Type} [AddCommGroup T] [Module F T] [DecidableEq T] [FixedWire T]

/-- The shares at position `c` of the vectors the parties hold. -/
def column {T : Type} [Zero T] (n : Nat) (v : Nat → List T) (c : Nat) : List T := (List.range n).map fun p => (v p).getD c 0

omit [FftField F] [FixedWire T] in
theorem evalVec_any {pp : PSS F} (hg : pp.Good) {N : Nat} {sh : Nat → List T} (h : ∀ p < 4 * pp.l, (sh p).length = N) :
    ∀ p < 4 * pp.l, sh p = pp.evalVec N (4 * pp.l) (fun c j => (pp.share.ifft (column (4 * pp.l) sh c)).getD j 0) p := by
  intro p hp
  rw [list_eq_map_range (sh p) 0, h p hp]
  apply List.map_congr_left
  intro c hc
  have := Domain.eval_ifft hg.share_wf (column (4 * pp.l) sh c) (i := p) (by rw [hg.share_size]; exact hp)
  rw [hg.share_element, hg.share_size, column, getD_map_range, if_pos hp] at this
  rw [← this]
  rfl

omit [FftField F] in
theorem degRed_toKing {pp : PSS F} (dbg : Bool) (n me : Nat) {x : List T} {mask : DegRedMask T}
    (h1 : x.length = mask.inMask.length) (h2 : x.length = mask.outMask.length) (sid : Sid) (rng : Nat → Nat → T) :
    toKing (pp.degRed dbg n me x mask sid rng) = some (Wire.enc (addMask x mask.inMask)) := by
  unfold PSS.degRed
  rw [debugAssert_of (by simp [h1]), debugAssert_of (by simp [h2])]
  exact toKing_round _ _ _ _ _ _

/-- **C28** (the claim of full masking is false) In `deg_red`, whatever the masks: interpolating the messages the king
receives gives, from coefficient `2l` on, exactly the coefficients of the unmasked polynomial. -/
theorem C28_deg_red_high_coefficients_visible {dbg₀ : Bool} {b : Nat} {pp : PSS F} (hpp : PSS.new dbg₀ (2 ^ b) = .ok pp)
    (dbg : Bool) {N : Nat} (hN : 0 < N) (sh : Nat → List T) (hsh : ∀ p < 4 * 2 ^ b, (sh p).length = N)
    (masks : Nat → DegRedMask T) (hm : IsDegRedMasks pp N masks) (sid : Sid) (rng : Nat → Nat → T) :
    ∃ y : Nat → List T,
      (∀ p < 4 * 2 ^ b, toKing (pp.degRed dbg (4 * 2 ^ b) p (sh p) (masks p) sid rng) = some (Wire.enc (y p)) ∧
        (y p).length = N) ∧
      ∀ c < N, ∀ j, 2 * 2 ^ b ≤ j → j < 4 * 2 ^ b →
        (pp.share.ifft (column (4 * 2 ^ b) y c)).getD j 0 = (pp.share.ifft (column (4 * 2 ^ b) sh c)).getD j 0 := by
  have hle := l_eq hpp
  have hg := PSS.good_of_new hpp
  obtain ⟨v, hin, hout⟩ := hm.ok hpp hN
  obtain ⟨u, hu⟩ := SharedVec.evalVec hin
  rw [← hle] at hsh ⊢
  refine ⟨fun p => addMask (sh p) (masks p).inMask, fun p hp => ⟨degRed_toKing _ _ _ ?_ ?_ _ _, ?_⟩, fun c hc j hj hj' => ?_⟩
  · rw [hsh p hp]; exact (hin.1 p hp).symm
  · rw [hsh p hp]; exact (hout.1 p hp).symm
  · have := hin.1 p hp
    dsimp only at this
    simp [addMask, hsh p hp, this]
  · have h2 := PSS.ifft_evalVec hg (N := N) le_rfl (fun c j => (pp.share.ifft (column (4 * pp.l) sh c)).getD j 0 +
      if j < 2 * pp.l then u c j else 0) hc
    have : column (4 * pp.l) (fun p => addMask (sh p) (masks p).inMask) c = (List.range (4 * pp.l)).map fun p =>
        (pp.evalVec N (4 * pp.l) (fun c j => (pp.share.ifft (column (4 * pp.l) sh c)).getD j 0 +
          if j < 2 * pp.l then u c j else 0) p).getD c 0 := by
      apply List.map_congr_left
      intro p hp
      have hp := List.mem_range.1 hp
      have e := evalVec_any hg hsh p hp
      have e' := hu p hp
      dsimp only at e' ⊢
      rw [e', ← PSS.evalVec_add, ← PSS.evalVec_extend (by omega), ← e]
    rw [this, h2, getD_map_range, if_pos hj', if_pos hj', if_neg (by omega), add_zero]

/-- **C28** What is hidden: when the scalars times the generator give every element once, every choice of the lower `2l`
coefficients is produced by exactly one choice of the mask's random values. So the king learns the coefficients from `2l` on,
and nothing else. -/
theorem C28_deg_red_low_coefficients_uniform_partial {dbg₀ : Bool} {b : Nat} {pp : PSS F} (hpp : PSS.new dbg₀ (2 ^ b) = .ok pp)
    (dbg dbg' : Bool) {N : Nat} (hN : 0 < N) (hN64 : N < 2 ^ 64) (sh : Nat → List T)
    (hsh : ∀ p < 4 * 2 ^ b, (sh p).length = N) (gen : T) (hgen : Function.Bijective fun x : F => x • gen) (sid : Sid)
    (rng rngOut : Nat → Nat → T) (W : Fin N → Fin (2 * 2 ^ b) → T) :
    ∃! tape : MaskTape F T N (2 ^ b), ∀ p < 4 * 2 ^ b,
      kingMsg (DegRedMask.sample pp dbg' gen N (ext tape.1) (ext2 tape.2) rngOut)
        (fun p m => pp.degRed dbg (4 * 2 ^ b) p (sh p) m sid rng) p =
      some (Wire.enc ((List.range N).map fun c =>
        pval (fun j => if j < 2 * 2 ^ b then ext2 W c j else (pp.share.ifft (column (4 * 2 ^ b) sh c)).getD j 0)
          (4 * 2 ^ b) (pp.share.groupGen ^ p))) := by
  have hle := l_eq hpp
  have hg := PSS.good_of_new hpp
  let u : Nat → Nat → T := fun c j => (pp.share.ifft (column (4 * 2 ^ b) sh c)).getD j 0
  let Φ := PSS.viewEquiv hg hgen (N := N) hle u
  have key : ∀ tape : MaskTape F T N (2 ^ b), ∀ p < 4 * 2 ^ b,
      kingMsg (DegRedMask.sample pp dbg' gen N (ext tape.1) (ext2 tape.2) rngOut)
        (fun p m => pp.degRed dbg (4 * 2 ^ b) p (sh p) m sid rng) p =
      some (Wire.enc (pp.evalVec N (4 * 2 ^ b) (fun c j => if j < 2 * 2 ^ b then ext2 (Φ tape) c j else u c j) p)) := by
    intro tape p hp
    have hp' : p < 4 * pp.l := by rw [hle]; exact hp
    obtain ⟨masks, e, hm⟩ := DegRedMask.sample_in hg dbg' gen hle hN tape rngOut
    obtain ⟨m, h1, h2, h3⟩ := hm p hp'
    have e1 := evalVec_any hg (N := N) (sh := sh) (hle ▸ hsh) p hp'
    refine kingMsg_eq e h1 ?_
    rw [degRed_toKing _ _ _ (by rw [hsh p hp, h3]; simp [PSS.evalVec]) (by rw [hsh p hp, h2]), h3,
      PSS.evalVec_extend (show 2 * pp.l ≤ 4 * pp.l by omega)]
    congr 2
    rw [show 4 * pp.l = 4 * 2 ^ b by rw [hle], show 2 * pp.l = 2 * 2 ^ b by rw [hle]] at *
    rw [e1, PSS.evalVec_add]
    apply PSS.evalVec_congr
    intro c hc j hj
    split
    · next h => exact (PSS.viewEquiv_apply hg hgen hle u tape hc h).symm
    · rw [add_zero]
  refine ⟨Φ.symm W, fun p hp => by rw [key _ p hp, Φ.apply_symm_apply]; rfl, fun tape ht => ?_⟩
  rw [Equiv.eq_symm_apply]
  funext c j
  have := PSS.evalVec_inj hg (N := N) (d := 4 * 2 ^ b) (by rw [hle])
    (u := fun c j => if j < 2 * 2 ^ b then ext2 (Φ tape) c j else u c j)
    (u' := fun c j => if j < 2 * 2 ^ b then ext2 W c j else u c j) (fun p hp => by
      have := ht p (hle ▸ hp)
      rw [key tape p (hle ▸ hp)] at this
      exact Wire.Ok.enc_inj (Wire.ok_list _ (by simpa [PSS.evalVec] using hN64))
        (Wire.ok_list _ (by simpa [PSS.evalVec] using hN64)) (Option.some.inj this)) c.2 (j := j)
      (by have := j.2; omega)
  simp only [j.2, if_true] at this
  rwa [ext2_fin _ c.2 j.2, ext2_fin _ c.2 j.2] at this

/-- **C28** (the claim of full masking is false) The same leak in `d_msm`: `sh p` is party `p`'s local multi-scalar product. -/
theorem C28_d_msm_high_coefficients_visible {dbg₀ : Bool} {b : Nat} {pp : PSS F} (hpp : PSS.new dbg₀ (2 ^ b) = .ok pp)
    (dbg : Bool) (bases : Nat → List T) (scalars : Nat → List F) (sh : Nat → T)
    (hlen : ∀ p < 4 * 2 ^ b, (bases p).length = (scalars p).length)
    (hsh : ∀ p < 4 * 2 ^ b, msm (bases p) (scalars p) = .ok (sh p))
    (masks : Nat → MsmMask T) (hm : IsMsmMasks pp masks) (sid : Sid) :
    ∃ y : Nat → T,
      (∀ p < 4 * 2 ^ b, toKing (pp.dMsm dbg (4 * 2 ^ b) p (bases p) (scalars p) (masks p) sid) = some (Wire.enc (y p))) ∧
      ∀ j, 2 * 2 ^ b ≤ j → j < 4 * 2 ^ b →
        (pp.share.ifft ((List.range (4 * 2 ^ b)).map y)).getD j 0 =
          (pp.share.ifft ((List.range (4 * 2 ^ b)).map sh)).getD j 0 := by
  have hle := l_eq hpp
  have hg := PSS.good_of_new hpp
  obtain ⟨v, ⟨-, -, u, hu, -⟩, -⟩ := hm.ok hpp
  rw [← hle] at hsh hlen ⊢
  refine ⟨fun p => sh p + (masks p).inMask, fun p hp => ?_, fun j hj hj' => ?_⟩
  · unfold PSS.dMsm
    rw [debugAssert_of (by simp [hlen p hp]), hsh p hp]
    exact toKing_round _ _ _ _ _ _
  · have h1 := evalVec_any hg (N := 1) (sh := fun p => [sh p]) fun _ _ => rfl
    have h2 := PSS.ifft_evalVec hg (N := 1) le_rfl (fun c j => (pp.share.ifft (column (4 * pp.l) (fun p => [sh p]) c)).getD j 0 +
      if j < 2 * pp.l then u j else 0) (c := 0) (by norm_num)
    have : (List.range (4 * pp.l)).map (fun p => sh p + (masks p).inMask) = (List.range (4 * pp.l)).map fun p =>
        (pp.evalVec 1 (4 * pp.l) (fun c j => (pp.share.ifft (column (4 * pp.l) (fun p => [sh p]) c)).getD j 0 +
          if j < 2 * pp.l then u j else 0) p).getD 0 0 := by
      apply List.map_congr_left
      intro p hp
      have hp := List.mem_range.1 hp
      have e := h1 p hp
      have e' := hu p hp
      rw [getD_map_range, if_pos hp] at e'
      rw [← PSS.evalVec_add, ← PSS.evalVec_extend (by omega) (fun _ j => u j), ← e, e']
      simp [addMask, PSS.evalVec]
    rw [this, h2, getD_map_range, if_pos hj', if_pos hj', if_neg (by omega), add_zero]
    rfl

/-- Non-vacuity of the statements of C28: shares of `F17` in one position, masks of either kind, and a local product. -/
example : IsDegRedMasks pp17 1 (fun _ => DegRedMask.zero (T := ZMod 17) 1) ∧
    IsMsmMasks pp17 (fun _ => MsmMask.zero (G := ZMod 17)) ∧
    (Function.Bijective fun x : ZMod 17 => x • (3 : ZMod 17)) ∧
    msm (F := ZMod 17) ([4, 5] : List (ZMod 17)) [2, 3] = .ok 6 :=
  ⟨.inr fun _ => rfl, .inr fun _ => rfl, by decide, by decide +kernel⟩

end c28

/-- **C28** (the leak depends on the secrets) Over `F17` with `l = 2` and eight parties there are two pairs of secrets and packing
randomness for which the king receives, in the `deg_red` of the products, messages that it receives for no masks and no packing
randomness when all the secrets are zero: the coefficients it sees are then those of `Z²·(r₀ + r₁X)(r₀' + r₁'X)`, whose second
factor has a square discriminant. -/
theorem C28_deg_red_leaks_secrets (dbg : Bool) :
    ∃ (s t : List (ZMod 17)) (r r' : Nat → ZMod 17) (a b : List (ZMod 17)), s.length = 2 ∧ t.length = 2 ∧
      pp17.pack dbg s r = .ok a ∧ pp17.pack dbg t r' = .ok b ∧
      ∀ (r₀ r₀' : Nat → ZMod 17) (a₀ b₀ : List (ZMod 17)), pp17.pack dbg [0, 0] r₀ = .ok a₀ → pp17.pack dbg [0, 0] r₀' = .ok b₀ →
      ∀ masks masks' : Nat → DegRedMask (ZMod 17), IsDegRedMasks pp17 1 masks → IsDegRedMasks pp17 1 masks' →
      ∀ (sid : Sid) (rng rng' : Nat → Nat → ZMod 17), ∃ p < 8,
        toKing (pp17.degRed dbg 8 p [a.getD p 0 * b.getD p 0] (masks p) sid rng) ≠
          toKing (pp17.degRed dbg 8 p [a₀.getD p 0 * b₀.getD p 0] (masks' p) sid rng') := by
  refine ⟨[7, 1], [10, 6], fun i => [10, 16].getD i 0, fun i => [7, 11].getD i 0, [0, 6, 8, 11, 0, 11, 9, 6],
    [1, 15, 4, 9, 16, 2, 13, 8], rfl, rfl, by cases dbg <;> decide +kernel, by cases dbg <;> decide +kernel, ?_⟩
  intro r₀ r₀' a₀ b₀ ha hb masks masks' hm hm' sid rng rng'
  by_contra hcon
  push_neg at hcon
  have hg := PSS.good_of_new (pp17_eq true)
  obtain ⟨y, hy, hy2⟩ := C28_deg_red_high_coefficients_visible (pp17_eq true) dbg (N := 1) (by norm_num)
    (fun p => [([0, 6, 8, 11, 0, 11, 9, 6] : List (ZMod 17)).getD p 0 * ([1, 15, 4, 9, 16, 2, 13, 8] : List (ZMod 17)).getD p 0])
    (fun _ _ => rfl) masks hm sid rng
  obtain ⟨z, hz, hz2⟩ := C28_deg_red_high_coefficients_visible (pp17_eq true) dbg (N := 1) (by norm_num)
    (fun p => [a₀.getD p 0 * b₀.getD p 0]) (fun _ _ => rfl) masks' hm' sid rng'
  have hyz : ∀ p < 8, y p = z p := by
    intro p hp
    have e := hcon p hp
    have e := ((hy p hp).1.symm.trans e).trans (hz p hp).1
    exact Wire.Ok.enc_inj (Wire.ok_list _ (by rw [(hy p hp).2]; norm_num)) (Wire.ok_list _ (by rw [(hz p hp).2]; norm_num))
      (Option.some.inj e)
  have hcol : column (4 * 2 ^ 1) y 0 = column (4 * 2 ^ 1) z 0 :=
    List.map_congr_left fun p hp => by rw [hyz p (List.mem_range.1 hp)]
  have hab : ∀ j, 4 ≤ j → j < 8 → (pp17.share.ifft (column 8 (fun p => [a₀.getD p 0 * b₀.getD p 0]) 0)).getD j 0 =
      (pp17.share.ifft ([0, 5, 15, 14, 0, 5, 15, 14] : List (ZMod 17))).getD j 0 := by
    intro j h1 h2
    have e1 := hy2 0 (by norm_num) j h1 h2
    have e2 := hz2 0 (by norm_num) j h1 h2
    rw [hcol] at e1
    exact e2.symm.trans (e1.trans (by congr 2))
  obtain ⟨x, ex, hx1, -, α, hα, hα0⟩ := PSS.pack_shares hg dbg (secrets := [(0 : ZMod 17), 0]) rfl r₀
  obtain rfl : x = a₀ := by rw [ha] at ex; cases ex; rfl
  obtain ⟨x', ex', hx1', -, β, hβ, hβ0⟩ := PSS.pack_shares hg dbg (secrets := [(0 : ZMod 17), 0]) rfl r₀'
  obtain rfl : x' = b₀ := by rw [hb] at ex'; cases ex'; rfl
  have hconv : pp17.share.ifft (column 8 (fun p => [x.getD p 0 * x'.getD p 0]) 0) =
      (List.range 8).map fun j => if j < 7 then conv α 4 β 4 j else 0 := by
    refine Eq.trans ?_ (PSS.ifft_evalVec hg (N := 1) (d := 7) (by show 7 ≤ 8; norm_num) (fun _ => conv α 4 β 4) (c := 0)
      (by norm_num))
    congr 1
    apply List.map_congr_left
    intro p hp
    have hp : p < 4 * pp17.l := List.mem_range.1 hp
    show x.getD p 0 * x'.getD p 0 = _
    rw [hα p hp, hβ p hp]
    exact pval_mul α 4 β 4 _
  rw [hconv] at hab
  have h4 := hab 4 (by norm_num) (by norm_num)
  have h5 := hab 5 (by norm_num) (by norm_num)
  have h6 := hab 6 (by norm_num) (by norm_num)
  rw [show (pp17.share.ifft ([0, 5, 15, 14, 0, 5, 15, 14] : List (ZMod 17))) = [0, 0, 0, 0, 16, 0, 1, 0] by decide +kernel] at h4 h5 h6
  have ea0 := hα0 0 (by decide)
  have ea1 := hα0 1 (by decide)
  have eb0 := hβ0 0 (by decide)
  have eb1 := hβ0 1 (by decide)
  simp [conv, pval, Finset.sum_range_succ, pp17, List.range_succ] at h4 h5 h6 ea0 ea1 eb0 eb1
  rw [show (3 * 9 ^ 2 : ZMod 17) = 5 by decide] at ea1 eb1
  have h17 : (17 : ZMod 17) = 0 := by decide
  have e1 : α 1 = 9 * α 2 + 2 * α 3 := by
    linear_combination 9 * ea0 - 9 * ea1 - (α 1 + 9 * α 2 + 52 * α 3) * h17
  have e2 : β 1 = 9 * β 2 + 2 * β 3 := by
    linear_combination 9 * eb0 - 9 * eb1 - (β 1 + 9 * β 2 + 52 * β 3) * h17
  rw [e1, e2] at h4
  have hprod : α 2 * β 2 = 12 := by linear_combination h4 - 9 * h5 - 4 * h6
  have hsq : (α 3 * β 2 - β 3 * α 2) ^ 2 = 3 := by
    linear_combination (α 3 * β 2 + α 2 * β 3) * h5 - 4 * α 2 * β 2 * h6 - 4 * hprod - 3 * h17
  exact (by decide : ∀ x : ZMod 17, x ^ 2 ≠ 3) _ hsq

/-- Example for C27: the transforms of `[3, 5, 7, 11]` and of `[0, 0, 0, 1]` look the same to the king. -/
example : ∃ (sh sh' : Nat → List (ZMod 17)) (e : MaskTape (ZMod 17) (ZMod 17) (2 ^ 1) (2 ^ 1) ≃ MaskTape (ZMod 17) (ZMod 17) (2 ^ 1) (2 ^ 1)),
    HoldsOutput pp17 true 1 1 sh [3, 5, 7, 11] ∧ HoldsOutput pp17 true 1 1 sh' [0, 0, 0, 1] ∧ ∀ tape, ∀ p < 4 * 2 ^ 1,
      kingMsg (FftMask.sample pp17 true false 1 dom17.groupGen (2 ^ (1 + 1)) (ext tape.1) (ext2 tape.2) fun _ _ => 0)
        (fun p m => pp17.dFft true (4 * 2 ^ 1) p (sh p) m false dom17 .zero fun _ _ => 0) p =
      kingMsg (FftMask.sample pp17 true false 1 dom17.groupGen (2 ^ (1 + 1)) (ext (e tape).1) (ext2 (e tape).2) fun _ _ => 0)
        (fun p m => pp17.dFft true (4 * 2 ^ 1) p (sh' p) m false dom17 .zero fun _ _ => 0) p := by
  obtain ⟨sh, -, h⟩ := C27_fresh_input (pp17_eq true) true 1 [3, 5, 7, 11] rfl fun _ _ => 1
  obtain ⟨sh', -, h'⟩ := C27_fresh_input (pp17_eq true) true 1 [0, 0, 0, 1] rfl fun _ _ => 1
  obtain ⟨e, he⟩ := C27_d_fft_independent (pp17_eq true) true true 1 dom17_eq _ _ _ _ h h' false .zero (fun _ _ => 0) (fun _ _ => 0)
  exact ⟨_, _, e, h, h', he⟩

/-- Examples for C27: the same for the inverse transform. -/
example : ∃ sh, HoldsOutput pp17 true 1 1 sh [3, 5, 7, 11] ∧
    ∃ tape : MaskTape (ZMod 17) (ZMod 17) (2 ^ 1) (2 ^ 1), ∀ p < 4 * 2 ^ 1,
      kingMsg (FftMask.sample pp17 true false 3 dom17.groupGenInv (2 ^ (1 + 1)) (ext tape.1) (ext2 tape.2) fun _ _ => 0)
        (fun p m => pp17.dIfft true (4 * 2 ^ 1) p (sh p) m false dom17 3 .zero fun _ _ => 0) p =
        some (Wire.enc ((List.range (2 ^ 1)).map fun c =>
          pval (ext2 (fun (_ : Fin (2 ^ 1)) (_ : Fin (2 * 2 ^ 1)) => (4 : ZMod 17)) c) (2 * 2 ^ 1) (pp17.share.groupGen ^ p))) := by
  obtain ⟨sh, -, h⟩ := C27_fresh_input (pp17_eq true) true 1 [3, 5, 7, 11] rfl fun _ _ => 1
  obtain ⟨tape, ht, -⟩ := C27_d_ifft_uniform (pp17_eq true) true true 1 (by norm_num) dom17_eq _ _ h false 3 .zero
    (fun _ _ => 0) (fun _ _ => 0) (fun _ _ => 4)
  exact ⟨_, h, tape, ht⟩

example : ∃ (sh sh' : Nat → List (ZMod 17)) (e : MaskTape (ZMod 17) (ZMod 17) (2 ^ 1) (2 ^ 1) ≃ MaskTape (ZMod 17) (ZMod 17) (2 ^ 1) (2 ^ 1)),
    HoldsOutput pp17 true 1 1 sh [3, 5, 7, 11] ∧ HoldsOutput pp17 true 1 1 sh' [0, 0, 0, 1] ∧ ∀ tape, ∀ p < 4 * 2 ^ 1,
      kingMsg (FftMask.sample pp17 true false 3 dom17.groupGenInv (2 ^ (1 + 1)) (ext tape.1) (ext2 tape.2) fun _ _ => 0)
        (fun p m => pp17.dIfft true (4 * 2 ^ 1) p (sh p) m false dom17 3 .zero fun _ _ => 0) p =
      kingMsg (FftMask.sample pp17 true false 3 dom17.groupGenInv (2 ^ (1 + 1)) (ext (e tape).1) (ext2 (e tape).2) fun _ _ => 0)
        (fun p m => pp17.dIfft true (4 * 2 ^ 1) p (sh' p) m false dom17 3 .zero fun _ _ => 0) p := by
  obtain ⟨sh, -, h⟩ := C27_fresh_input (pp17_eq true) true 1 [3, 5, 7, 11] rfl fun _ _ => 1
  obtain ⟨sh', -, h'⟩ := C27_fresh_input (pp17_eq true) true 1 [0, 0, 0, 1] rfl fun _ _ => 1
  obtain ⟨e, he⟩ := C27_d_ifft_independent (pp17_eq true) true true 1 dom17_eq _ _ _ _ h h' false 3 .zero (fun _ _ => 0) (fun _ _ => 0)
  exact ⟨_, _, e, h, h', he⟩

/-- Examples for C28: parties that hold `p²` (party `p`); their message to the king has the high coefficients of the squares. -/
example : ∃ y : Nat → List (ZMod 17),
    (∀ p < 4 * 2 ^ 1, toKing (pp17.degRed true (4 * 2 ^ 1) p [(p : ZMod 17) ^ 2] (DegRedMask.zero 1) .zero fun _ _ => 0) = some (Wire.enc (y p))) ∧
    (pp17.share.ifft (column (4 * 2 ^ 1) y 0)).getD 6 0 = (pp17.share.ifft (column (4 * 2 ^ 1) (fun p => [(p : ZMod 17) ^ 2]) 0)).getD 6 0 := by
  obtain ⟨y, h1, h2⟩ := C28_deg_red_high_coefficients_visible (T := ZMod 17) (b := 1) (pp17_eq true) true (N := 1) (by norm_num)
    (fun p => [(p : ZMod 17) ^ 2]) (fun _ _ => rfl) (fun _ => DegRedMask.zero 1) (.inr fun _ => rfl) .zero fun _ _ => 0
  exact ⟨y, fun p hp => (h1 p hp).1, h2 0 (by norm_num) 6 (by norm_num) (by norm_num)⟩

example : ∃ tape : MaskTape (ZMod 17) (ZMod 17) 1 (2 ^ 1), ∀ p < 4 * 2 ^ 1,
    kingMsg (DegRedMask.sample pp17 true (3 : ZMod 17) 1 (ext tape.1) (ext2 tape.2) fun _ _ => 0)
      (fun p m => pp17.degRed true (4 * 2 ^ 1) p [(p : ZMod 17) ^ 2] m .zero fun _ _ => 0) p =
    some (Wire.enc ((List.range 1).map fun c =>
      pval (fun j => if j < 2 * 2 ^ 1 then ext2 (fun (_ : Fin 1) (_ : Fin (2 * 2 ^ 1)) => (4 : ZMod 17)) c j
        else (pp17.share.ifft (column (4 * 2 ^ 1) (fun p => [(p : ZMod 17) ^ 2]) c)).getD j 0) (4 * 2 ^ 1) (pp17.share.groupGen ^ p))) :=
  (C28_deg_red_low_coefficients_uniform_partial (T := ZMod 17) (b := 1) (pp17_eq true) true true (N := 1) (by norm_num) (by norm_num)
    (fun p => [(p : ZMod 17) ^ 2]) (fun _ _ => rfl) 3 (by decide) .zero (fun _ _ => 0) (fun _ _ => 0) fun _ _ => 4).exists

example : ∃ y : Nat → ZMod 17,
    (∀ p < 4 * 2 ^ 1, toKing (pp17.dMsm true (4 * 2 ^ 1) p [(p : ZMod 17)] [(p : ZMod 17)] MsmMask.zero .zero) = some (Wire.enc (y p))) ∧
    (pp17.share.ifft ((List.range (4 * 2 ^ 1)).map y)).getD 6 0 =
      (pp17.share.ifft ((List.range (4 * 2 ^ 1)).map fun p => (p : ZMod 17) * p + 0)).getD 6 0 := by
  obtain ⟨y, h1, h2⟩ := C28_d_msm_high_coefficients_visible (T := ZMod 17) (b := 1) (pp17_eq true) true
    (fun p => [(p : ZMod 17)]) (fun p => [(p : ZMod 17)]) (fun p => (p : ZMod 17) * p + 0) (fun _ _ => rfl)
    (fun p hp => by revert p; decide +kernel) (fun _ => MsmMask.zero) (.inr fun _ => rfl) .zero
  exact ⟨y, h1, h2 6 (by norm_num) (by norm_num)⟩

end ZkSaas.Properties
