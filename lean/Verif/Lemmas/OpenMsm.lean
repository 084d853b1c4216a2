import Verif.Lemmas.KingView
import Verif.Lemmas.Groth16
import Mathlib.LinearAlgebra.Lagrange

/-!
# Completing a polynomial from its upper coefficients and its values in `2l` points
-/

namespace ZkSaas

open Finset Spec

variable {F : Type} [Field F] {T : Type} [AddCommGroup T] [Module F T]

/-- The points in which `l` parties know a sum of products of packed bases and scalars: their own share points, and the `l` points of the
secret domain that are padded with zeros. -/
def knownPoint (pp : PSS F) (l : Nat) (P : Fin l → Nat) : Fin l ⊕ Fin l → F :=
  Sum.elim (fun i => pp.share.groupGen ^ P i) fun k => pp.secret.offset * (pp.share.groupGen ^ 2) ^ (l + k.val)

theorem knownPoint_inj {pp : PSS F} (hg : pp.Good) {l : Nat} (hle : pp.l = l) (hgen : pp.secret.offset ^ (4 * l) ≠ 1) (P : Fin l → Nat)
    (hinj : Function.Injective P) (hlt : ∀ i, P i < 4 * l) : Function.Injective (knownPoint pp l P) := by
  subst hle
  have hl := hg.lpos
  have hw : pp.share.groupGen ^ (4 * pp.l) = 1 := by rw [← hg.share_size]; exact hg.share_wf.prim.pow_eq_one
  have hinjω := hg.share_wf.prim.pow_inj
  have hoff : pp.secret.offset ≠ 0 := hg.secret_wf.offne
  have cross : ∀ (k : Fin pp.l) (i : Fin pp.l), pp.secret.offset * (pp.share.groupGen ^ 2) ^ (pp.l + k.val) ≠ pp.share.groupGen ^ P i := by
    intro k i h
    apply hgen
    have := congrArg (· ^ (4 * pp.l)) h
    simp only [mul_pow, ← pow_mul] at this
    rw [mul_comm (2 * (pp.l + k.val)), pow_mul pp.share.groupGen (4 * pp.l), hw, one_pow, mul_one, mul_comm (P i),
      pow_mul pp.share.groupGen (4 * pp.l), hw, one_pow] at this
    exact this
  rintro (i | k) (i' | k') h
  · simp only [knownPoint, Sum.elim_inl] at h
    have := hinjω (by rw [hg.share_size]; exact hlt i) (by rw [hg.share_size]; exact hlt i') h
    exact congrArg Sum.inl (hinj this)
  · exact absurd h.symm (cross k' i)
  · exact absurd h (cross k i')
  · simp only [knownPoint, Sum.elim_inr] at h
    have h := mul_left_cancel₀ hoff h
    rw [← pow_mul, ← pow_mul] at h
    have := hinjω (by rw [hg.share_size]; omega) (by rw [hg.share_size]; omega) h
    exact congrArg Sum.inr (Fin.ext (by omega))

/-- Lagrange interpolation with coefficients in a module. -/
theorem pval_lagrange {ι : Type} [Fintype ι] [DecidableEq ι] {node : ι → F} (hinj : Function.Injective node) (c : Nat → T) {d : Nat}
    (hd : d ≤ Fintype.card ι) (x : F) :
    pval c d x = ∑ i, (Lagrange.basis univ node i).eval x • pval c d (node i) := by
  have key : ∀ j < d, x ^ j = ∑ i, (Lagrange.basis univ node i).eval x * node i ^ j := by
    intro j hj
    have h := Lagrange.eq_interpolate (s := univ) (v := node) (f := (Polynomial.X ^ j : Polynomial F)) hinj.injOn
      (by rw [Polynomial.degree_X_pow, card_univ]; exact_mod_cast lt_of_lt_of_le hj hd)
    have h := congrArg (Polynomial.eval x) h
    rw [Lagrange.interpolate_apply, Polynomial.eval_pow, Polynomial.eval_X, Polynomial.eval_finsetSum] at h
    rw [h]
    refine sum_congr rfl fun i _ => ?_
    rw [Polynomial.eval_mul, Polynomial.eval_C, Polynomial.eval_pow, Polynomial.eval_X, mul_comm]
  unfold pval
  simp only [smul_sum]
  rw [sum_comm]
  refine sum_congr rfl fun j hj => ?_
  rw [key j (mem_range.1 hj), sum_smul]
  exact sum_congr rfl fun i _ => by rw [mul_smul]

/-- The part of the polynomial through the values `sent` that masks with `2l` coefficients cannot hide. -/
def highPart (pp : PSS F) (l : Nat) (sent : List T) (x : F) : T := ∑ j ∈ Ico (2 * l) (4 * l), x ^ j • (pp.share.ifft sent).getD j 0

/-- What `l` parties can compute of the sums of products of all parties, from the values sent to the king and their own sums. -/
noncomputable def openAt (pp : PSS F) (l : Nat) (P : Fin l → Nat) (sent : List T) (own : Fin l → T) (x : F) : T :=
  highPart pp l sent x + ∑ i, (Lagrange.basis univ (knownPoint pp l P) i).eval x •
    (Sum.elim own (fun _ => 0) i - highPart pp l sent (knownPoint pp l P i))

theorem openAt_eq {pp : PSS F} (hg : pp.Good) {l : Nat} (hle : pp.l = l) (hgen : pp.secret.offset ^ (4 * l) ≠ 1) (P : Fin l → Nat)
    (hinj : Function.Injective P) (hlt : ∀ i, P i < 4 * l) {c m : Nat → T} {sent : List T}
    (hsent : ∀ p < 4 * l, sent.getD p 0 = pval c (4 * l - 1) (pp.share.groupGen ^ p) + pval m (2 * l) (pp.share.groupGen ^ p))
    (hpad : ∀ k < l, pval c (4 * l - 1) (pp.secret.offset * (pp.share.groupGen ^ 2) ^ (l + k)) = 0) (x : F) :
    openAt pp l P sent (fun i => pval c (4 * l - 1) (pp.share.groupGen ^ P i)) x = pval c (4 * l - 1) x := by
  have hl := hg.lpos
  have hco := PSS.ifft_shares hg (d := 4 * l) (c := fun j => (if j < 4 * l - 1 then c j else 0) + if j < 2 * l then m j else 0) (shares := sent)
    (by omega) (fun i hi => by
      rw [hsent i (by omega), pval_extend (show 4 * l - 1 ≤ 4 * l by omega), pval_extend (show 2 * l ≤ 4 * l by omega), ← pval_add])
  have hhigh : ∀ y : F, highPart pp l sent y = pval c (4 * l - 1) y - pval c (2 * l) y := by
    intro y
    unfold highPart
    rw [hco, eq_sub_iff_add_eq']
    rw [pval_extend (show 4 * l - 1 ≤ 4 * l by omega) y (c := c)]
    unfold pval
    rw [← sum_range_add_sum_Ico _ (show 2 * l ≤ 4 * l by omega)]
    congr 1
    · refine sum_congr rfl fun j hj => ?_
      have := mem_range.1 hj
      dsimp only
      rw [if_pos (by omega)]
    · refine sum_congr rfl fun j hj => ?_
      have := mem_Ico.1 hj
      rw [getD_map_range, if_pos (by omega), if_pos (by omega), if_neg (show ¬ j < 2 * l by omega), add_zero]
  unfold openAt
  have hlow : ∀ i, Sum.elim (fun i => pval c (4 * l - 1) (pp.share.groupGen ^ P i)) (fun _ => (0 : T)) i -
      highPart pp l sent (knownPoint pp l P i) = pval c (2 * l) (knownPoint pp l P i) := by
    rintro (i | k)
    · rw [hhigh]
      simp [knownPoint]
    · rw [hhigh]
      have := hpad k k.2
      simp [knownPoint, this]
  simp only [hlow]
  rw [← pval_lagrange (knownPoint_inj hg hle hgen P hinj hlt) c (by simp; omega), hhigh]
  abel

/-- The bases of a multi-scalar multiplication as the packed proving key holds them: `N` packed positions, each a polynomial with `2l`
coefficients that takes the `l` bases and `l` times zero on the secret domain. -/
def PaddedVec (ω g : F) (l N : Nat) (sh : Nat → List T) (sec : Nat → List T) : Prop :=
  (∀ p < 4 * l, (sh p).length = N) ∧ ∀ c < N, ∃ e : Nat → T, (sec c).length = l ∧ (∀ p < 4 * l, (sh p).getD c 0 = pval e (2 * l) (ω ^ p)) ∧
    (∀ k < l, (sec c).getD k 0 = pval e (2 * l) (g * (ω ^ 2) ^ k)) ∧ ∀ k < l, pval e (2 * l) (g * (ω ^ 2) ^ (l + k)) = 0

theorem PaddedVec.shared {ω g : F} {l N : Nat} {sh sec : Nat → List T} (h : PaddedVec ω g l N sh sec) :
    Spec.SharedVec ω g l (2 * l) N sh sec := by
  refine ⟨h.1, fun c hc => ?_⟩
  obtain ⟨e, h1, h2, h3, -⟩ := h.2 c hc
  refine ⟨by simp, h1, e, fun i hi => ?_, h3⟩
  rw [getD_map_range, if_pos hi]
  exact h2 i hi

/-- The local sums of padded bases and shared scalars: one polynomial with `4l - 1` coefficients that is zero in the padded points. -/
theorem padded_sums {ω g : F} {l N : Nat} (hl : 0 < l) {bs bsec : Nat → List T} {ss ssec : Nat → List F} (hb : PaddedVec ω g l N bs bsec)
    (hs : Spec.SharedVec ω g l (2 * l) N ss ssec) :
    ∃ q : Nat → T, (∀ p < 4 * l, ∑ c ∈ range N, (ss p).getD c 0 • (bs p).getD c 0 = pval q (4 * l - 1) (ω ^ p)) ∧
      (∀ k < l, ∑ c ∈ range N, (ssec c).getD k 0 • (bsec c).getD k 0 = pval q (4 * l - 1) (g * (ω ^ 2) ^ k)) ∧
      ∀ k < l, pval q (4 * l - 1) (g * (ω ^ 2) ^ (l + k)) = 0 := by
  have hd : 2 * l + 2 * l - 1 = 4 * l - 1 := by omega
  choose! e he0 he1 he2 he3 using hb.2
  choose! hf0 hf1 f hf2 hf3 using hs.2
  refine ⟨fun j => ∑ c ∈ range N, conv (f c) (2 * l) (e c) (2 * l) j, fun p hp => ?_, fun k hk => ?_, fun k hk => ?_⟩
  · rw [← pval_sum]
    refine sum_congr rfl fun c hc => ?_
    have hc := mem_range.1 hc
    have := hf2 c hc p hp
    rw [getD_map_range, if_pos hp] at this
    rw [← hd, ← pval_mul, he1 c hc p hp, this]
  · rw [← pval_sum]
    refine sum_congr rfl fun c hc => ?_
    have hc := mem_range.1 hc
    rw [← hd, ← pval_mul, he2 c hc k hk, hf3 c hc k hk]
  · rw [← pval_sum]
    refine sum_eq_zero fun c hc => ?_
    have hc := mem_range.1 hc
    rw [← hd, ← pval_mul, he3 c hc k hk, smul_zero]

/-- Deterministic packing in chunks gives padded polynomials. -/
theorem PSS.detPackChunks_padded [DecidableEq F] [DecidableEq T] {pp : PSS F} (hg : pp.Good) (dbg : Bool) (v : List T)
    (hd : dbg = true → pp.l ∣ v.length) :
    ∃ rows, pp.detPackChunks dbg v = .ok rows ∧
      (∀ p < 4 * pp.l, column rows p = .ok (rows.map fun x => x.getD p 0)) ∧
      PaddedVec pp.share.groupGen pp.secret.offset pp.l (numChunks v pp.l) (fun p => rows.map fun x => x.getD p 0)
        (chunks pp.l fun i => v.getD i 0) := by
  have hl := hg.lpos
  unfold PSS.detPackChunks
  rw [assert_of (by simp; omega), ok_bind]
  obtain ⟨rows, e, hlen, h⟩ := mapM_exists (xs := List.range (numChunks v pp.l))
    (f := fun c => pp.detPack dbg (chunk v pp.l c))
    (R := fun c shares => pp.Shares (2 * pp.l) shares (chunks pp.l (fun i => v.getD i 0) c) ∧ ∃ e : Nat → T,
      (∀ p < 4 * pp.l, shares.getD p 0 = pval e (2 * pp.l) (pp.share.groupGen ^ p)) ∧
      (∀ k < 2 * pp.l, (resize (chunk v pp.l c) pp.l 0).getD k 0 =
        pval e (2 * pp.l) (pp.secret.offset * (pp.share.groupGen ^ 2) ^ k)))
    (fun c hc => by
      have hc := List.mem_range.1 hc
      have hch := fun hdb => chunk_length_of_dvd hl (hd hdb) hc
      obtain ⟨sh, e, h⟩ := PSS.detPack_shares hg dbg (secrets := chunk v pp.l c) hch
      rw [resize_chunk] at h
      refine ⟨sh, e, h, fun j => (pp.secret.ifft (resize (chunk v pp.l c) pp.t 0)).getD j 0, fun i hi => ?_, fun k hk => ?_⟩
      · rw [PSS.detPack_eq dbg hch] at e
        rw [← Except.ok.inj e]
        apply PSS.fft_share hg _ (by omega) hi
        simp [hg.secret_size]
      · have := Domain.eval_ifft hg.secret_wf (resize (chunk v pp.l c) pp.t 0) (i := k) (by rw [hg.secret_size]; omega)
        rw [hg.secret_element, hg.secret_size, hg.t_eq] at this
        rw [← this, hg.t_eq]
        rfl)
  have hlen' : rows.length = numChunks v pp.l := by simpa using hlen
  have h' : ∀ c (hc : c < rows.length), _ := fun c hc => h c (by simpa [hlen'] using hc)
  obtain ⟨h1, h2⟩ := SharedVec.of_columns hlen' fun c hc => by
    have := (h' c (by omega)).1
    rw [List.getElem_range] at this
    exact this
  refine ⟨rows, e, h1, h2.1, fun c hc => ?_⟩
  obtain ⟨-, e, he, hp⟩ := h' c (by omega)
  rw [List.getElem_range] at hp
  refine ⟨e, chunks_length _ _ _, fun p hp => ?_, fun k hk => ?_, fun k hk => ?_⟩
  · rw [← he p hp]
    simp [List.getD_eq_getElem?_getD, List.getElem?_map, List.getElem?_eq_getElem (show c < rows.length by omega)]
  · rw [← hp k (by omega), ← resize_chunk]
  · rw [← hp (pp.l + k) (by omega), getD_resize, if_neg (by omega)]

end ZkSaas
