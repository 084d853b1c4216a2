import Verif.Lemmas.LossyProtocols
import Verif.Spec.View

/-! The polynomials behind masks and masked messages. -/

set_option linter.unusedSectionVars false

namespace ZkSaas

open Finset Spec

variable {F : Type} [Field F] [DecidableEq F] {T : Type} [AddCommGroup T] [Module F T] [DecidableEq T]

theorem ext_fin {V : Type} [Zero V] {m : Nat} (v : Fin m → V) {i : Nat} (h : i < m) : ext v i = v ⟨i, h⟩ := dif_pos h

theorem ext2_fin {V : Type} [Zero V] {m k : Nat} (v : Fin m → Fin k → V) {i j : Nat} (h : i < m) (h' : j < k) :
    ext2 v i j = v ⟨i, h⟩ ⟨j, h'⟩ := by rw [ext2, dif_pos h, ext_fin _ h']

/-- The vector of shares of party `p` when position `c` is shared by the polynomial with coefficients `u c`. -/
def PSS.evalVec (pp : PSS F) (N d : Nat) (u : Nat → Nat → T) (p : Nat) : List T :=
  (List.range N).map fun c => pval (u c) d (pp.share.groupGen ^ p)

/-- `pack_vec` then `transpose`, with the polynomials made explicit. -/
theorem PSS.packVec_transpose {pp : PSS F} (hg : pp.Good) (dbg : Bool) {v : List T} {N : Nat} (hN : 0 < N)
    (hv : v.length = N * pp.l) (rng : Nat → Nat → T) :
    ∃ rows, pp.packVec dbg v rng = .ok rows ∧ transpose rows = .ok ((List.range (4 * pp.l)).map
      (pp.evalVec N (2 * pp.l) fun c j => (pp.packCoeffs (chunk v pp.l c) (rng c)).getD j 0)) := by
  have hl := hg.lpos
  refine ⟨(List.range N).map fun c => pp.share.fft (pp.packCoeffs (chunk v pp.l c) (rng c)), ?_, ?_⟩
  · unfold PSS.packVec
    rw [debugAssert_of (by simp [hv]), ok_bind, assert_of (by simp; omega), ok_bind, numChunks_eq hl hv]
    exact mapM_ok fun c hc => PSS.pack_eq hg dbg (chunk_length hv (List.mem_range.1 hc)) (rng c)
  · rw [transpose_shares (N := N) (n := 4 * pp.l) (by simp) hN (by omega) (fun c hc => by
      rw [getD_map_range, if_pos hc, Domain.fft_length, hg.share_size])]
    congr 1
    apply List.map_congr_left
    intro p hp
    have hp := List.mem_range.1 hp
    apply List.map_congr_left
    intro c hc
    rw [getD_map_range, if_pos (List.mem_range.1 hc),
      PSS.fft_share hg (d := 2 * pp.l) (by simp [PSS.packCoeffs, hg.secret_size]) (by omega) hp]

theorem SharedVec.evalVec {pp : PSS F} {d N : Nat} {sh : Nat → List T} {sec : Nat → List T} (h : pp.SharedVec d N sh sec) :
    ∃ u : Nat → Nat → T, ∀ p < 4 * pp.l, sh p = pp.evalVec N d u p := by
  have : ∀ c, ∃ w : Nat → T, c < N → ∀ p < 4 * pp.l, (sh p).getD c 0 = pval w d (pp.share.groupGen ^ p) := by
    intro c
    by_cases hc : c < N
    · obtain ⟨-, -, w, hw, -⟩ := h.2 c hc
      refine ⟨w, fun _ p hp => ?_⟩
      have := hw p hp
      rwa [getD_map_range, if_pos hp] at this
    · exact ⟨0, fun h => absurd h hc⟩
  choose u hu using this
  refine ⟨u, fun p hp => ?_⟩
  rw [list_eq_map_range (sh p) 0, h.1 p hp]
  apply List.map_congr_left
  intro c hc
  exact hu c (List.mem_range.1 hc) p hp

theorem PSS.evalVec_congr {pp : PSS F} {d N : Nat} {u u' : Nat → Nat → T} (h : ∀ c < N, ∀ j < d, u c j = u' c j) (p : Nat) :
    pp.evalVec N d u p = pp.evalVec N d u' p :=
  List.map_congr_left fun c hc => pval_congr (h c (List.mem_range.1 hc)) _

theorem PSS.evalVec_add {pp : PSS F} (d N : Nat) (u u' : Nat → Nat → T) (p : Nat) :
    addMask (pp.evalVec N d u p) (pp.evalVec N d u' p) = pp.evalVec N d (fun c j => u c j + u' c j) p := by
  unfold addMask PSS.evalVec
  rw [List.zipWith_map_left, List.zipWith_map_right, List.zipWith_self]
  exact List.map_congr_left fun c _ => pval_add _ _ _ _

theorem PSS.evalVec_extend {pp : PSS F} {d d' N : Nat} (h : d ≤ d') (u : Nat → Nat → T) (p : Nat) :
    pp.evalVec N d u p = pp.evalVec N d' (fun c j => if j < d then u c j else 0) p :=
  List.map_congr_left fun c _ => pval_extend h _

/-- The column of shares at position `c` interpolates to the coefficients. -/
theorem PSS.ifft_evalVec {pp : PSS F} (hg : pp.Good) {d N : Nat} (hd : d ≤ 4 * pp.l) (u : Nat → Nat → T) {c : Nat} (hc : c < N) :
    pp.share.ifft ((List.range (4 * pp.l)).map fun p => (pp.evalVec N d u p).getD c 0) =
      (List.range (4 * pp.l)).map fun j => if j < d then u c j else 0 := by
  rw [Domain.ifft_evals hg.share_wf (c := fun j => if j < d then u c j else 0), hg.share_size]
  intro i hi
  rw [hg.share_size] at hi
  rw [getD_map_range, if_pos hi, PSS.evalVec, getD_map_range, if_pos hc, hg.share_element, hg.share_size, pval_extend hd]
  rfl

/-- The shares determine the coefficients. -/
theorem PSS.evalVec_inj {pp : PSS F} (hg : pp.Good) {d N : Nat} (hd : d ≤ 4 * pp.l) {u u' : Nat → Nat → T}
    (h : ∀ p < 4 * pp.l, pp.evalVec N d u p = pp.evalVec N d u' p) {c : Nat} (hc : c < N) {j : Nat} (hj : j < d) :
    u c j = u' c j := by
  have e := PSS.ifft_evalVec hg hd u hc
  rw [show ((List.range (4 * pp.l)).map fun p => (pp.evalVec N d u p).getD c 0) =
      (List.range (4 * pp.l)).map fun p => (pp.evalVec N d u' p).getD c 0 from
      List.map_congr_left fun p hp => by rw [h p (List.mem_range.1 hp)], PSS.ifft_evalVec hg hd u' hc] at e
  have := congrArg (fun v => v.getD j 0) e
  rw [getD_map_range, getD_map_range, if_pos (by omega : j < 4 * pp.l), if_pos (by omega : j < 4 * pp.l), if_pos hj,
    if_pos hj] at this
  exact this.symm

/-- The coefficients of the mask polynomials as a function of what was drawn. -/
def PSS.tapeCoeffs (pp : PSS F) (σ : F → T) {N l : Nat} (tape : MaskTape F T N l) (c j : Nat) : T :=
  (pp.packCoeffs (chunk ((List.range (N * l)).map fun i => σ (ext tape.1 i)) pp.l c) (ext2 tape.2 c)).getD j 0

theorem PSS.tapeCoeffs_surj {pp : PSS F} (hg : pp.Good) {σ : F → T} (hσ : Function.Bijective σ) {N : Nat} (W : Nat → Nat → T) :
    ∃ tape : MaskTape F T N pp.l, ∀ c < N, ∀ j < 2 * pp.l, pp.tapeCoeffs σ tape c j = W c j := by
  have hl := hg.lpos
  obtain ⟨τ, hτ⟩ := hσ.2.hasRightInverse
  let e : Nat → List T := fun c => pp.secret.fft ((List.range (2 * pp.l)).map (W c))
  refine ⟨⟨fun i => τ ((e (i / pp.l)).getD (i % pp.l) 0), fun c j => (e c).getD (pp.l + j) 0⟩, fun c hc j hj => ?_⟩
  unfold PSS.tapeCoeffs PSS.packCoeffs
  have hlen : (chunk ((List.range (N * pp.l)).map fun i => σ (ext (fun i : Fin (N * pp.l) =>
      τ ((e (i / pp.l)).getD (i % pp.l) 0)) i)) pp.l c).length = pp.l := chunk_length (by simp) hc
  have : (chunk ((List.range (N * pp.l)).map fun i => σ (ext (fun i : Fin (N * pp.l) =>
      τ ((e (i / pp.l)).getD (i % pp.l) 0)) i)) pp.l c) ++
      (List.range pp.t).map (ext2 (fun (c : Fin N) (j : Fin pp.l) => (e c).getD (pp.l + j) 0) c) = e c := by
    apply list_ext_getD 0
    · rw [List.length_append, hlen]
      simp [e, hg.t_eq, hg.secret_size]; omega
    · intro i hi
      rw [List.length_append, hlen, List.length_map, List.length_range, hg.t_eq] at hi
      rw [getD_append', hlen]
      split
      · next h =>
        have hlt : c * pp.l + i < N * pp.l := by
          have : (c + 1) * pp.l ≤ N * pp.l := Nat.mul_le_mul_right _ hc
          rw [Nat.add_mul] at this; omega
        rw [chunk, chunk_getD _ _ _ _ _ h, getD_map_range, if_pos hlt, ext_fin _ hlt]
        simp only
        rw [hτ, show (c * pp.l + i) / pp.l = c by
            rw [Nat.add_comm, Nat.add_mul_div_right _ _ hl, Nat.div_eq_of_lt h, Nat.zero_add],
          show (c * pp.l + i) % pp.l = i by rw [Nat.add_comm, Nat.add_mul_mod_self_right, Nat.mod_eq_of_lt h]]
      · next h =>
        rw [getD_map_range, if_pos (by rw [hg.t_eq]; omega), ext2_fin _ hc (by omega)]
        simp only
        congr 1; omega
  rw [this, Domain.ifft_fft hg.secret_wf (by simp [hg.secret_size]), getD_map_range, if_pos hj]

theorem PSS.tapeCoeffs_inj {pp : PSS F} (hg : pp.Good) {σ : F → T} (hσ : Function.Bijective σ) {N : Nat}
    {tape tape' : MaskTape F T N pp.l} (h : ∀ c < N, ∀ j < 2 * pp.l, pp.tapeCoeffs σ tape c j = pp.tapeCoeffs σ tape' c j) :
    tape = tape' := by
  have hl := hg.lpos
  let L : MaskTape F T N pp.l → Nat → List T := fun tape c =>
    chunk ((List.range (N * pp.l)).map fun i => σ (ext tape.1 i)) pp.l c ++ (List.range pp.t).map (ext2 tape.2 c)
  have hlen : ∀ tape : MaskTape F T N pp.l, ∀ c < N,
      (chunk ((List.range (N * pp.l)).map fun i => σ (ext tape.1 i)) pp.l c).length = pp.l :=
    fun tape c hc => chunk_length (by simp) hc
  have hL : ∀ c < N, L tape c = L tape' c := by
    intro c hc
    have e : pp.secret.ifft (L tape c) = pp.secret.ifft (L tape' c) := by
      apply list_ext_getD 0 (by simp)
      intro j hj
      rw [Domain.ifft_length, hg.secret_size] at hj
      exact h c hc j hj
    have := congrArg pp.secret.fft e
    rwa [Domain.fft_ifft hg.secret_wf, Domain.fft_ifft hg.secret_wf] at this
    · show (_ ++ _ : List T).length = _
      rw [List.length_append, hlen _ c hc]; simp [hg.t_eq, hg.secret_size]; omega
    · show (_ ++ _ : List T).length = _
      rw [List.length_append, hlen _ c hc]; simp [hg.t_eq, hg.secret_size]; omega
  refine Prod.ext (funext fun i => ?_) (funext fun c => funext fun j => ?_)
  · have hc : i.val / pp.l < N := Nat.div_lt_of_lt_mul (lt_of_lt_of_eq i.2 (Nat.mul_comm _ _))
    have hm : i.val % pp.l < pp.l := Nat.mod_lt _ hl
    have := congrArg (fun v => v.getD (i.val % pp.l) 0) (hL _ hc)
    simp only [L] at this
    rw [getD_append', getD_append', if_pos (by rw [hlen _ _ hc]; exact hm), if_pos (by rw [hlen _ _ hc]; exact hm),
      chunk, chunk_getD _ _ _ _ _ hm, chunk, chunk_getD _ _ _ _ _ hm, Nat.div_add_mod', getD_map_range,
      getD_map_range, if_pos i.2, if_pos i.2, ext_fin _ i.2, ext_fin _ i.2] at this
    exact hσ.1 this
  · have := congrArg (fun v => v.getD (pp.l + j.val) 0) (hL _ c.2)
    simp only [L] at this
    rw [getD_append', getD_append', if_neg (by rw [hlen _ _ c.2]; omega), if_neg (by rw [hlen _ _ c.2]; omega),
      hlen _ _ c.2, hlen _ _ c.2, Nat.add_sub_cancel_left, getD_map_range, getD_map_range, if_pos (by rw [hg.t_eq]; exact j.2),
      if_pos (by rw [hg.t_eq]; exact j.2), ext2_fin _ c.2 j.2, ext2_fin _ c.2 j.2] at this
    exact this

/-- Adding a mask drawn from a tape to fixed polynomials is a bijection from tapes to polynomials. -/
noncomputable def PSS.viewEquiv {pp : PSS F} (hg : pp.Good) {σ : F → T} (hσ : Function.Bijective σ) {N l : Nat} (hl : pp.l = l)
    (u : Nat → Nat → T) : MaskTape F T N l ≃ (Fin N → Fin (2 * l) → T) :=
  Equiv.ofBijective (fun tape c j => u c j + pp.tapeCoeffs σ tape c j) (by
    subst hl
    constructor
    · intro tape tape' h
      apply PSS.tapeCoeffs_inj hg hσ
      intro c hc j hj
      exact add_left_cancel (congrFun (congrFun h ⟨c, hc⟩) ⟨j, hj⟩)
    · intro V
      obtain ⟨tape, ht⟩ := PSS.tapeCoeffs_surj hg hσ (N := N) fun c j => ext2 V c j - u c j
      refine ⟨tape, funext fun c => funext fun j => ?_⟩
      simp only
      rw [ht c c.2 j j.2, ext2_fin _ c.2 j.2]
      abel)

theorem PSS.viewEquiv_apply {pp : PSS F} (hg : pp.Good) {σ : F → T} (hσ : Function.Bijective σ) {N l : Nat} (hl : pp.l = l)
    (u : Nat → Nat → T) (tape : MaskTape F T N l) {c j : Nat} (hc : c < N) (hj : j < 2 * l) :
    ext2 (PSS.viewEquiv hg hσ hl u tape) c j = u c j + pp.tapeCoeffs σ tape c j := by
  rw [ext2_fin _ hc hj]; rfl

theorem FftMask.sample_in {pp : PSS F} (hg : pp.Good) (dbg : Bool) {a b : Nat} (hlb : pp.l = 2 ^ b) {gen : F}
    (hprim : IsPrimitiveRoot gen (2 ^ (a + b))) (rearrange : Bool) (g : F) (tape : MaskTape F F (2 ^ a) (2 ^ b))
    (rngOut : Nat → Nat → F) :
    ∃ masks, FftMask.sample pp dbg rearrange g gen (2 ^ (a + b)) (ext tape.1) (ext2 tape.2) rngOut = .ok masks ∧
      ∀ p < 4 * pp.l, ∃ m, masks[p]? = some m ∧ m.inMask = pp.evalVec (2 ^ a) (2 * pp.l) (pp.tapeCoeffs id tape) p := by
  obtain ⟨masks, -, e, hl, -⟩ := FftMask.sample_ok hg dbg hlb hprim rearrange g (ext tape.1) (ext2 tape.2) rngOut
  refine ⟨masks, e, fun p hp => ?_⟩
  rw [show 2 ^ (a + b) = 2 ^ a * 2 ^ b from pow_add _ _ _] at e
  obtain ⟨rows, er, et⟩ := PSS.packVec_transpose hg dbg (v := (List.range (2 ^ a * 2 ^ b)).map (ext tape.1)) (N := 2 ^ a)
    (by positivity) (by rw [hlb]; simp) (ext2 tape.2)
  unfold FftMask.sample at e
  simp only at e
  rw [er, ok_bind, et, ok_bind] at e
  cases ho : pp.fft2Finish dbg ((List.range (2 ^ a * 2 ^ b)).map (ext tape.1)) g gen rearrange (fun x => -x) rngOut with
  | error er => rw [ho] at e; cases e
  | ok out =>
    rw [ho, ok_bind] at e
    cases e
    have hp' := hp
    rw [← hl] at hp'
    refine ⟨_, List.getElem?_eq_getElem hp', ?_⟩
    rw [List.getElem_zipWith]
    simp only [List.getElem_map, List.getElem_range]
    rfl

theorem DegRedMask.sample_in {pp : PSS F} (hg : pp.Good) (dbg : Bool) (gen : T) {N l : Nat} (hl : pp.l = l) (hN : 0 < N)
    (tape : MaskTape F T N l) (rngOut : Nat → Nat → T) :
    ∃ masks, DegRedMask.sample pp dbg gen N (ext tape.1) (ext2 tape.2) rngOut = .ok masks ∧
      ∀ p < 4 * pp.l, ∃ m, masks[p]? = some m ∧ m.outMask.length = N ∧
        m.inMask = pp.evalVec N (2 * pp.l) (pp.tapeCoeffs (· • gen) tape) p := by
  subst hl
  obtain ⟨masks, e, hl, hok⟩ := DegRedMasksOk.of_sample hg dbg gen hN (ext tape.1) (ext2 tape.2) rngOut
  refine ⟨masks, e, fun p hp => ?_⟩
  obtain ⟨rows, er, et⟩ := PSS.packVec_transpose hg dbg (v := (List.range (N * pp.l)).map fun i => ext tape.1 i • gen) (N := N)
    hN (by simp) (ext2 tape.2)
  obtain ⟨rows', er', et'⟩ := PSS.packVec_transpose hg dbg (v := (List.range (N * pp.l)).map fun i => 0 - ext tape.1 i • gen) (N := N)
    hN (by simp) rngOut
  unfold DegRedMask.sample at e
  simp only at e
  rw [er, ok_bind, et, ok_bind, er', ok_bind, et', ok_bind, mapM_ok (g := fun x => DegRedMask.mk x.1 x.2)] at e
  · cases e
    have hp' := hp
    rw [← hl] at hp'
    refine ⟨_, List.getElem?_eq_getElem hp', ?_, ?_⟩
    · simp [PSS.evalVec]
    · simp only [List.getElem_map, List.getElem_zip, List.getElem_range]
      rfl
  · rintro ⟨x, y⟩ hxy
    have h1 := List.of_mem_zip hxy
    obtain ⟨q, -, rfl⟩ := List.mem_map.1 h1.1
    obtain ⟨q', -, rfl⟩ := List.mem_map.1 h1.2
    unfold DegRedMask.new
    rw [debugAssert_of (by simp [PSS.evalVec]), ok_bind]
    rfl

theorem MsmMask.sample_in {pp : PSS F} (hg : pp.Good) (dbg : Bool) (gen : T) {l : Nat} (hl : pp.l = l)
    (tape : MaskTape F T 1 l) (rngOut : Nat → T) :
    ∃ masks, MsmMask.sample pp dbg gen (ext tape.1) (ext2 tape.2 0) rngOut = .ok masks ∧
      ∀ p < 4 * pp.l, ∃ m, masks[p]? = some m ∧
        [m.inMask] = pp.evalVec 1 (2 * pp.l) (pp.tapeCoeffs (· • gen) tape) p := by
  subst hl
  obtain ⟨masks, e, hl, hok⟩ := MsmMasksOk.of_sample hg dbg gen (ext tape.1) (ext2 tape.2 0) rngOut
  refine ⟨masks, e, fun p hp => ?_⟩
  unfold MsmMask.sample at e
  simp only at e
  rw [PSS.pack_eq hg dbg (by simp), ok_bind, PSS.pack_eq hg dbg (by simp), ok_bind] at e
  cases e
  have hp' := hp
  rw [← hl] at hp'
  refine ⟨_, List.getElem?_eq_getElem hp', ?_⟩
  rw [List.getElem_zipWith]
  have := PSS.fft_share hg (c := pp.packCoeffs ((List.range pp.l).map fun i => ext tape.1 i • gen) (ext2 tape.2 0))
    (d := 2 * pp.l) (by simp [PSS.packCoeffs, hg.secret_size]) (by omega) hp
  rw [List.getD_eq_getElem?_getD, List.getElem?_eq_getElem (by simp [hg.share_size, hp])] at this
  simp only [Option.getD_some] at this
  rw [this]
  unfold PSS.evalVec PSS.tapeCoeffs
  have hch : chunk ((List.range (1 * pp.l)).map fun i => ext tape.1 i • gen) pp.l 0 =
      (List.range pp.l).map fun i => ext tape.1 i • gen := by
    unfold chunk
    rw [Nat.zero_mul, List.drop_zero, List.take_of_length_le (by simp)]
    exact congrArg (List.map fun i => ext tape.1 i • gen) (congrArg List.range (Nat.one_mul pp.l))
  simp only [List.range_one, List.map_cons, List.map_nil, hch]

section round
variable {T : Type} [Wire T]

theorem toKing_round {α : Type} (n me : Nat) (out : T) (sid : Sid) (threshold : Nat) (k : Option (ReceivedShares T) → Proc α) :
    toKing (clientSendOrKingReceiveSer n me out sid threshold >>= k) = some (Wire.enc out) := by
  unfold clientSendOrKingReceiveSer clientSendOrKingReceive
  split <;> rfl

theorem Wire.Ok.enc_inj {x y : T} (hx : Wire.Ok x) (hy : Wire.Ok y) (h : Wire.enc x = Wire.enc y) : x = y := by
  have hx : Wire.dec (Wire.enc x) = some x := hx
  have hy : Wire.dec (Wire.enc y) = some y := hy
  rw [h, hy] at hx
  exact (Option.some.inj hx).symm

end round

end ZkSaas
