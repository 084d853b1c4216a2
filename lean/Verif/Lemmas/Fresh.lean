import Verif.Lemmas.Masking
import Verif.Lemmas.Groth16
import Verif.Lemmas.Qap

/-! Shares of several packed positions as functions of the random values drawn for them. -/

set_option linter.unusedSectionVars false

namespace ZkSaas

open Finset Spec

variable {F : Type} [Field F] [DecidableEq F] {T : Type} [AddCommGroup T] [Module F T] [DecidableEq T]

/-! ### Half of the values and `l` shares determine everything -/

/-- A polynomial with `2l` coefficients is determined by its values on one half of the secret domain (the secrets, `s = 0`, or the
random values, `s = l`) and `l` shares. -/
theorem PSS.half {pp : PSS F} (hg : pp.Good) (hgen : pp.secret.offset ^ (4 * pp.l) ≠ 1) (P : Nat → Nat)
    (hinj : ∀ i < pp.l, ∀ j < pp.l, P i = P j → i = j) (hlt : ∀ i < pp.l, P i < 4 * pp.l) {s : Nat} (hs : s ≤ pp.l) :
    (∀ fixed view : Nat → T, ∃ e : Nat → T, (∀ i < pp.l, e (s + i) = fixed i) ∧
      ∀ i < pp.l, (pp.share.fft (pp.secret.ifft ((List.range (2 * pp.l)).map e))).getD (P i) 0 = view i) ∧
    ∀ e e' : Nat → T, (∀ i < pp.l, e (s + i) = e' (s + i)) →
      (∀ i < pp.l, (pp.share.fft (pp.secret.ifft ((List.range (2 * pp.l)).map e))).getD (P i) 0 =
        (pp.share.fft (pp.secret.ifft ((List.range (2 * pp.l)).map e'))).getD (P i) 0) → ∀ i < 2 * pp.l, e i = e' i := by
  have hw0 : pp.share.groupGen ≠ 0 := hg.share_wf.prim.ne_zero hg.share_wf.pos.ne'
  have hw1 : pp.share.groupGen ^ (4 * pp.l) = 1 := by
    rw [← hg.share_size]; exact hg.share_wf.prim.pow_eq_one
  have hs0 : pp.secret.offset ≠ 0 := hg.secret_wf.offne
  let xs : List F := (List.range pp.l).map (fun k => pp.secret.offset * (pp.share.groupGen ^ 2) ^ (s + k)) ++
    (List.range pp.l).map (fun i => pp.share.groupGen ^ P i)
  have hxlen : xs.length = 2 * pp.l := by simp [xs]; omega
  have hx1 : ∀ k < pp.l, xs.getD k 0 = pp.secret.offset * (pp.share.groupGen ^ 2) ^ (s + k) := by
    intro k hk
    rw [getD_append', if_pos (by simpa using hk), getD_map_range, if_pos hk]
  have hx2 : ∀ k < pp.l, xs.getD (pp.l + k) 0 = pp.share.groupGen ^ P k := by
    intro k hk
    rw [getD_append', if_neg (by simp), getD_map_range]
    simp [hk]
  have h0 : (0 : F) ∉ xs := by
    simp [xs, hs0, hw0]
  have hnd : xs.Nodup := by
    apply List.Nodup.append
    · apply List.nodup_range.map_on
      intro x hx y hy hxy
      have hxy := mul_left_cancel₀ hs0 hxy
      rw [← hg.secret_gen] at hxy
      have hx := List.mem_range.1 hx
      have hy := List.mem_range.1 hy
      have := hg.secret_wf.prim.pow_inj (i := s + x) (j := s + y) (by rw [hg.secret_size]; omega)
        (by rw [hg.secret_size]; omega) hxy
      omega
    · apply List.nodup_range.map_on
      intro x hx y hy hxy
      have hx := List.mem_range.1 hx
      have hy := List.mem_range.1 hy
      apply hinj x hx y hy
      apply hg.share_wf.prim.pow_inj _ _ hxy <;> rw [hg.share_size]
      · exact hlt x hx
      · exact hlt y hy
    · intro z hz1 hz2
      obtain ⟨k, _, rfl⟩ := List.mem_map.1 hz1
      obtain ⟨i, _, hi⟩ := List.mem_map.1 hz2
      apply hgen
      have := congrArg (· ^ (4 * pp.l)) hi
      simp only [mul_pow] at this
      rw [← pow_mul, mul_comm (P i), pow_mul, hw1, one_pow, ← pow_mul, ← pow_mul,
        show 2 * ((s + k) * (4 * pp.l)) = 4 * pp.l * (2 * (s + k)) by ring, pow_mul pp.share.groupGen, hw1, one_pow, mul_one] at this
      exact this.symm
  have hpk : ∀ e : Nat → T, ∀ i < 4 * pp.l, (pp.share.fft (pp.secret.ifft ((List.range (2 * pp.l)).map e))).getD i 0 =
      pval (fun j => (pp.secret.ifft ((List.range (2 * pp.l)).map e)).getD j 0) (2 * pp.l) (pp.share.groupGen ^ i) := fun e i hi =>
    PSS.fft_share hg (by simp [hg.secret_size]) (by omega) hi
  have hval : ∀ e : Nat → T, ∀ k < 2 * pp.l,
      pval (fun j => (pp.secret.ifft ((List.range (2 * pp.l)).map e)).getD j 0) (2 * pp.l)
        (pp.secret.offset * (pp.share.groupGen ^ 2) ^ k) = e k := by
    intro e k hk
    have := Domain.eval_ifft hg.secret_wf ((List.range (2 * pp.l)).map e) (i := k) (by rw [hg.secret_size]; omega)
    rw [hg.secret_element, hg.secret_size, getD_map_range, if_pos hk] at this
    rw [← this]
    rfl
  constructor
  · intro fixed view
    obtain ⟨c, hc⟩ := interp_exists hnd h0 (fun i => if i < pp.l then fixed i else view (i - pp.l))
    rw [hxlen] at hc
    refine ⟨fun k => pval c (2 * pp.l) (pp.secret.offset * (pp.share.groupGen ^ 2) ^ k), fun i hi => ?_, fun i hi => ?_⟩
    · have := hc i (by omega)
      rw [if_pos hi, hx1 i hi] at this
      exact this
    · have hcoef : pp.secret.ifft ((List.range (2 * pp.l)).map fun k =>
          pval c (2 * pp.l) (pp.secret.offset * (pp.share.groupGen ^ 2) ^ k)) = (List.range (2 * pp.l)).map c := by
        rw [← hg.secret_size]
        apply Domain.ifft_evals hg.secret_wf
        intro k hk
        rw [getD_map_range, if_pos hk, hg.secret_element]
        rfl
      rw [hpk _ (P i) (hlt i hi), hcoef]
      have := hc (pp.l + i) (by omega)
      rw [if_neg (by omega), hx2 i hi, Nat.add_sub_cancel_left] at this
      rw [← this]
      apply pval_congr
      intro j hj
      rw [getD_map_range, if_pos hj]
  · intro e e' hfix h
    have hcc := interp_unique hnd h0 (c := fun j => (pp.secret.ifft ((List.range (2 * pp.l)).map e)).getD j 0)
      (c' := fun j => (pp.secret.ifft ((List.range (2 * pp.l)).map e')).getD j 0) (by
        intro i hi
        rw [hxlen] at hi ⊢
        by_cases hil : i < pp.l
        · rw [hx1 i hil, hval e _ (by omega), hval e' _ (by omega)]
          exact hfix i hil
        · obtain ⟨k, rfl⟩ := Nat.exists_eq_add_of_le (Nat.le_of_not_lt hil)
          rw [hx2 k (by omega), ← hpk e _ (hlt k (by omega)), ← hpk e' _ (hlt k (by omega))]
          exact h k (by omega))
    rw [hxlen] at hcc
    intro i hi
    rw [← hval e i hi, ← hval e' i hi]
    exact pval_congr hcc _

theorem PSS.packCoeffs_eq {pp : PSS F} (hg : pp.Good) {secrets : List T} (hl : secrets.length = pp.l) (r : Nat → T) :
    pp.packCoeffs secrets r =
      pp.secret.ifft ((List.range (2 * pp.l)).map fun k => if k < pp.l then secrets.getD k 0 else r (k - pp.l)) := by
  unfold PSS.packCoeffs
  congr 1
  apply list_ext_getD 0
  · simp [hl, hg.t_eq]; omega
  · intro i hi
    simp [hl, hg.t_eq] at hi
    rw [getD_append', getD_map_range, getD_map_range, hl, hg.t_eq, if_pos (by omega : i < 2 * pp.l)]
    split
    · rfl
    · rw [if_pos (by omega)]

/-- For fixed random values the `l` shares of any `l` parties are in bijection with the secrets. -/
theorem PSS.reveal {pp : PSS F} (hg : pp.Good) (hgen : pp.secret.offset ^ (4 * pp.l) ≠ 1) (P : Nat → Nat)
    (hinj : ∀ i < pp.l, ∀ j < pp.l, P i = P j → i = j) (hlt : ∀ i < pp.l, P i < 4 * pp.l) (r : Nat → T) :
    (∀ view : Nat → T, ∃ secrets : List T, secrets.length = pp.l ∧
      ∀ i < pp.l, (pp.share.fft (pp.packCoeffs secrets r)).getD (P i) 0 = view i) ∧
    ∀ s s' : List T, s.length = pp.l → s'.length = pp.l →
      (∀ i < pp.l, (pp.share.fft (pp.packCoeffs s r)).getD (P i) 0 = (pp.share.fft (pp.packCoeffs s' r)).getD (P i) 0) →
      s = s' := by
  obtain ⟨h1, h2⟩ := PSS.half (T := T) hg hgen P hinj hlt (s := pp.l) le_rfl
  constructor
  · intro view
    obtain ⟨e, he, hv⟩ := h1 r view
    refine ⟨(List.range pp.l).map e, by simp, fun i hi => ?_⟩
    rw [PSS.packCoeffs_eq hg (by simp), ← hv i hi]
    congr 3
    apply List.map_congr_left
    intro k hk
    have hk := List.mem_range.1 hk
    split
    · next h => rw [getD_map_range, if_pos h]
    · next h => rw [← he _ (by omega)]; congr 1; omega
  · intro s s' hs hs' h
    simp only [PSS.packCoeffs_eq hg hs, PSS.packCoeffs_eq hg hs'] at h
    have := h2 _ _ (fun i hi => by simp) h
    apply list_ext_getD 0 (hs.trans hs'.symm)
    intro i hi
    have := this i (by omega)
    rwa [if_pos (by omega), if_pos (by omega)] at this

/-! ### Several positions -/

/-- Party `p`'s vector of shares when position `c` packs `sec c` with the random values `rng c`. -/
def PSS.freshVec (pp : PSS F) (N : Nat) (sec : Nat → List T) (rng : Nat → Nat → T) (p : Nat) : List T :=
  pp.evalVec N (2 * pp.l) (fun c j => (pp.packCoeffs (sec c) (rng c)).getD j 0) p

theorem PSS.freshVec_length (pp : PSS F) (N : Nat) (sec : Nat → List T) (rng : Nat → Nat → T) (p : Nat) :
    (pp.freshVec N sec rng p).length = N := by simp [PSS.freshVec, PSS.evalVec]

theorem PSS.freshVec_getD {pp : PSS F} (hg : pp.Good) (N : Nat) (sec : Nat → List T) (rng : Nat → Nat → T) {p c : Nat}
    (hp : p < 4 * pp.l) (hc : c < N) :
    (pp.freshVec N sec rng p).getD c 0 = (pp.share.fft (pp.packCoeffs (sec c) (rng c))).getD p 0 := by
  unfold PSS.freshVec PSS.evalVec
  rw [getD_map_range, if_pos hc,
    PSS.fft_share hg (d := 2 * pp.l) (by simp [PSS.packCoeffs, hg.secret_size]) (by omega) hp]

/-- `l` parties: every view of all positions is produced by exactly one choice of all the random values. -/
theorem PSS.freshVec_privacy {pp : PSS F} (hg : pp.Good) {l : Nat} (hle : pp.l = l) (hgen : pp.secret.offset ^ (4 * l) ≠ 1)
    {N : Nat} {sec : Nat → List T} (hsec : ∀ c < N, (sec c).length = l) (P : Fin l → Nat) (hinj : Function.Injective P)
    (hlt : ∀ i, P i < 4 * l) (view : Fin N → Fin l → T) :
    ∃! tape : Fin N → Fin l → T, ∀ i c, (pp.freshVec N sec (ext2 tape) (P i)).getD c.val 0 = view c i := by
  subst hle
  have hP : ∀ i < pp.l, ∀ j < pp.l, ext P i = ext P j → i = j := by
    intro i hi j hj h
    rw [ext_fin _ hi, ext_fin _ hj] at h
    simpa using hinj h
  have hPlt : ∀ i < pp.l, ext P i < 4 * pp.l := by
    intro i hi; rw [ext_fin _ hi]; exact hlt _
  have key := fun c : Fin N => PSS.privacy hg (T := T) hgen (hsec c c.2) (ext P) hP hPlt (ext (view c))
  choose r hr using fun c => (key c).1
  have hcong : ∀ (c : Fin N) (r : Nat → T), pp.packCoeffs (sec c) (ext2 (fun (c : Fin N) (i : Fin pp.l) => r i) c) =
      pp.packCoeffs (sec c) r := fun c r => PSS.packCoeffs_congr fun i hi => by
    rw [hg.t_eq] at hi; rw [ext2_fin _ c.2 hi]
  refine ⟨fun c i => r c i, fun i c => ?_, fun tape ht => ?_⟩
  · rw [PSS.freshVec_getD hg _ _ _ (hlt i) c.2]
    have := hr c i i.2
    rw [ext_fin _ i.2, ext_fin _ i.2] at this
    rw [← this]
    congr 2
    refine PSS.packCoeffs_congr fun i hi => ?_
    rw [hg.t_eq] at hi; rw [ext2_fin _ c.2 hi]
  · funext c i
    have := (key c).2 (ext2 tape c) (r c) (fun j hj => by
      rw [hr c j hj, ext_fin _ hj, ext_fin _ hj, ← ht ⟨j, hj⟩ c, PSS.freshVec_getD hg _ _ _ (hlt _) c.2]) i i.2
    rwa [ext2_fin _ c.2 i.2] at this

/-- With masks added that do not depend on the random values. -/
theorem PSS.freshVec_privacy_masked {pp : PSS F} (hg : pp.Good) {l : Nat} (hle : pp.l = l)
    (hgen : pp.secret.offset ^ (4 * l) ≠ 1)
    {N : Nat} {sec : Nat → List T} (hsec : ∀ c < N, (sec c).length = l) (P : Fin l → Nat) (hinj : Function.Injective P)
    (hlt : ∀ i, P i < 4 * l) {mask : Nat → List T} (hm : ∀ p < 4 * l, (mask p).length = N) (view : Fin N → Fin l → T) :
    ∃! tape : Fin N → Fin l → T, ∀ i c,
      (addMask (pp.freshVec N sec (ext2 tape) (P i)) (mask (P i))).getD c.val 0 = view c i := by
  have e : ∀ (tape : Fin N → Fin l → T) (i : Fin l) (c : Fin N),
      (addMask (pp.freshVec N sec (ext2 tape) (P i)) (mask (P i))).getD c.val 0 =
        (pp.freshVec N sec (ext2 tape) (P i)).getD c.val 0 + (mask (P i)).getD c.val 0 := by
    intro tape i c
    unfold addMask
    rw [getD_zipWith _ _ _ _ 0 0 _ (by rw [PSS.freshVec_length]; exact c.2) (by rw [hm _ (hlt i)]; exact c.2)]
  obtain ⟨tape, ht, hu⟩ := PSS.freshVec_privacy hg hle hgen hsec P hinj hlt fun c i => view c i - (mask (P i)).getD c.val 0
  refine ⟨tape, fun i c => by rw [e, ht]; abel, fun tape' ht' => hu _ fun i c => ?_⟩
  rw [← ht' i c, e]
  abel

/-- For fixed random values the shares of `l` parties determine the secrets of every position. -/
theorem PSS.freshVec_reveal {pp : PSS F} (hg : pp.Good) {l : Nat} (hle : pp.l = l) (hgen : pp.secret.offset ^ (4 * l) ≠ 1)
    {N : Nat} {sec sec' : Nat → List T} (hsec : ∀ c < N, (sec c).length = l) (hsec' : ∀ c < N, (sec' c).length = l)
    (P : Fin l → Nat) (hinj : Function.Injective P) (hlt : ∀ i, P i < 4 * l) (rng : Nat → Nat → T)
    (h : ∀ i, pp.freshVec N sec rng (P i) = pp.freshVec N sec' rng (P i)) : ∀ c < N, sec c = sec' c := by
  subst hle
  intro c hc
  refine (PSS.reveal hg hgen (ext P) (fun i hi j hj h => ?_) (fun i hi => ?_) (rng c)).2 _ _ (hsec c hc) (hsec' c hc)
    fun i hi => ?_
  · rw [ext_fin _ hi, ext_fin _ hj] at h
    simpa using hinj h
  · rw [ext_fin _ hi]; exact hlt _
  · rw [ext_fin _ hi, ← PSS.freshVec_getD hg N sec rng (hlt _) hc, ← PSS.freshVec_getD hg N sec' rng (hlt _) hc, h]

/-! ### Changing the secrets -/

theorem Domain.ifft_add (d : Domain F) (f g : Nat → T) :
    d.ifft ((List.range d.size).map fun k => f k + g k) =
      List.zipWith (· + ·) (d.ifft ((List.range d.size).map f)) (d.ifft ((List.range d.size).map g)) := by
  apply list_ext_getD 0 (by simp)
  intro j hj
  rw [Domain.ifft_length] at hj
  rw [getD_zipWith _ _ _ _ 0 0 _ (by rw [Domain.ifft_length]; exact hj) (by rw [Domain.ifft_length]; exact hj)]
  unfold Domain.ifft
  rw [getD_map_range, if_pos hj, getD_map_range, if_pos hj, getD_map_range, if_pos hj, ← smul_add]
  congr 1
  rw [resize_eq_of_length _ (by simp), resize_eq_of_length _ (by simp), resize_eq_of_length _ (by simp)]
  unfold evalAt
  simp only [List.length_map, List.length_range]
  rw [← sum_add_distrib]
  refine sum_congr rfl fun k hk => ?_
  have hk := mem_range.1 hk
  rw [getD_map_range, if_pos hk, getD_map_range, if_pos hk, getD_map_range, if_pos hk, smul_add]

/-- Shares are additive in the secrets and the random values together. -/
theorem PSS.share_add {pp : PSS F} (hg : pp.Good) {s s' : List T} (hs : s.length = pp.l) (hs' : s'.length = pp.l)
    (r r' : Nat → T) {p : Nat} (hp : p < 4 * pp.l) :
    (pp.share.fft (pp.packCoeffs (List.zipWith (· + ·) s s') (fun i => r i + r' i))).getD p 0 =
      (pp.share.fft (pp.packCoeffs s r)).getD p 0 + (pp.share.fft (pp.packCoeffs s' r')).getD p 0 := by
  have hlen : ∀ (s : List T) (r : Nat → T), (pp.packCoeffs s r).length = 2 * pp.l := by
    intro s r; simp [PSS.packCoeffs, hg.secret_size]
  rw [PSS.fft_share hg (d := 2 * pp.l) (hlen _ _) (by omega) hp, PSS.fft_share hg (d := 2 * pp.l) (hlen _ _) (by omega) hp,
    PSS.fft_share hg (d := 2 * pp.l) (hlen _ _) (by omega) hp, pval_add]
  apply pval_congr
  intro j hj
  rw [PSS.packCoeffs_eq hg (by simp [hs, hs']), PSS.packCoeffs_eq hg hs, PSS.packCoeffs_eq hg hs', ← hg.secret_size,
    ← getD_zipWith (· + ·) _ _ _ 0 0 _ (by rw [Domain.ifft_length, hg.secret_size]; exact hj)
      (by rw [Domain.ifft_length, hg.secret_size]; exact hj), ← Domain.ifft_add]
  congr 3
  funext k
  split
  · next h => rw [getD_zipWith _ _ _ _ 0 0 _ (by omega) (by omega)]
  · rfl

/-- Replacing the secrets of every position amounts, for `l` parties, to adding fixed values to the random ones. -/
theorem PSS.freshVec_shift {pp : PSS F} (hg : pp.Good) {l : Nat} (hle : pp.l = l) (hgen : pp.secret.offset ^ (4 * l) ≠ 1)
    {N : Nat} {sec sec' : Nat → List T} (hsec : ∀ c < N, (sec c).length = l) (hsec' : ∀ c < N, (sec' c).length = l)
    (P : Fin l → Nat) (hinj : Function.Injective P) (hlt : ∀ i, P i < 4 * l) :
    ∃ δ : Nat → Nat → T, ∀ (rng : Nat → Nat → T) (i : Fin l),
      pp.freshVec N sec' (fun c j => rng c j + δ c j) (P i) = pp.freshVec N sec rng (P i) := by
  obtain ⟨tape, ht, -⟩ := PSS.freshVec_privacy hg hle hgen (N := N) (sec := fun c => List.zipWith (· - ·) (sec' c) (sec c))
    (fun c hc => by simp [hsec c hc, hsec' c hc]) P hinj hlt (fun _ _ => 0)
  refine ⟨ext2 tape, fun rng i => ?_⟩
  subst hle
  apply list_ext_getD 0 (by rw [PSS.freshVec_length, PSS.freshVec_length])
  intro c hc
  rw [PSS.freshVec_length] at hc
  have h0 := ht i ⟨c, hc⟩
  rw [PSS.freshVec_getD hg _ _ _ (hlt i) hc] at h0
  have hadd := PSS.share_add hg (hsec c hc) (s' := List.zipWith (· - ·) (sec' c) (sec c)) (by simp [hsec c hc, hsec' c hc])
    (rng c) (ext2 tape c) (hlt i)
  rw [h0, add_zero] at hadd
  rw [PSS.freshVec_getD hg _ _ _ (hlt i) hc, PSS.freshVec_getD hg _ _ _ (hlt i) hc, ← hadd]
  congr 3
  apply list_ext_getD 0 (by simp [hsec c hc, hsec' c hc])
  intro k hk
  have h1 := hsec c hc
  have h2 := hsec' c hc
  rw [h2] at hk
  rw [getD_zipWith _ _ _ _ 0 0 _ (by omega) (by simp; omega), getD_zipWith _ _ _ _ 0 0 _ (by omega) (by omega)]
  abel

/-! ### Packed vectors -/

/-- `pack_vec`: position `c` packs the `c`-th chunk. -/
theorem PSS.packVec_fresh {pp : PSS F} (hg : pp.Good) (dbg : Bool) {v : List T} {N : Nat}
    (hv : v.length = N * pp.l) (rng : Nat → Nat → T) :
    pp.packVec dbg v rng = .ok ((List.range N).map fun c => pp.share.fft (pp.packCoeffs (chunk v pp.l c) (rng c))) := by
  have hl := hg.lpos
  unfold PSS.packVec
  rw [debugAssert_of (by simp [hv]), ok_bind, assert_of (by simp; omega), ok_bind, numChunks_eq hl hv]
  exact mapM_ok fun c hc => PSS.pack_eq hg dbg (chunk_length hv (List.mem_range.1 hc)) (rng c)

/-- The strided packing: position `c` packs `v[c], v[c+N], …`. -/
theorem PSS.packStrided_fresh {pp : PSS F} (hg : pp.Good) (dbg : Bool) {v : List T} {N : Nat}
    (hv : v.length = N * pp.l) (rng : Nat → Nat → T) :
    pp.packStrided dbg v rng =
      .ok ((List.range N).map fun c => pp.share.fft (pp.packCoeffs (strided 0 v pp.l N c) (rng c))) := by
  have hl := hg.lpos
  have hd : v.length / pp.l = N := by rw [hv, Nat.mul_div_cancel _ hl]
  unfold PSS.packStrided
  rw [assert_of (by simp; omega), ok_bind, hd]
  refine mapM_ok fun c hc => ?_
  have hc := List.mem_range.1 hc
  have : skipStep v c N = strided 0 v pp.l N c :=
    skipStep_exact v c N pp.l 0 (by omega) hc (by rw [hv, Nat.mul_comm])
  rw [this]
  exact PSS.pack_eq hg dbg (by simp [strided]) (rng c)

/-- Transposing packed rows. -/
theorem PSS.transpose_fresh {pp : PSS F} (hg : pp.Good) {N : Nat} (hN : 0 < N) (sec : Nat → List T) (rng : Nat → Nat → T) :
    transpose ((List.range N).map fun c => pp.share.fft (pp.packCoeffs (sec c) (rng c))) =
      .ok ((List.range (4 * pp.l)).map (pp.freshVec N sec rng)) := by
  have hl := hg.lpos
  rw [transpose_shares (N := N) (n := 4 * pp.l) (by simp) hN (by omega) (fun c hc => by
    rw [getD_map_range, if_pos hc, Domain.fft_length, hg.share_size])]
  congr 1
  apply List.map_congr_left
  intro p hp
  have hp := List.mem_range.1 hp
  apply list_ext_getD 0 (by simp [PSS.freshVec_length])
  intro c hc
  simp only [List.length_map, List.length_range] at hc
  rw [getD_map_range, if_pos hc, getD_map_range, if_pos hc, PSS.freshVec_getD hg _ _ _ hp hc]

theorem column_fresh {pp : PSS F} (hg : pp.Good) (N : Nat) (sec : Nat → List T) (rng : Nat → Nat → T) {p : Nat}
    (hp : p < 4 * pp.l) :
    column ((List.range N).map fun c => pp.share.fft (pp.packCoeffs (sec c) (rng c))) p = .ok (pp.freshVec N sec rng p) := by
  unfold column
  rw [List.mapM_map]
  have : pp.freshVec N sec rng p = (List.range N).map fun c => (pp.share.fft (pp.packCoeffs (sec c) (rng c))).getD p 0 := by
    apply list_ext_getD 0 (by simp [PSS.freshVec_length])
    intro c hc
    rw [PSS.freshVec_length] at hc
    rw [PSS.freshVec_getD hg _ _ _ hp hc, getD_map_range, if_pos hc]
  rw [this]
  refine mapM_ok fun c hc => ?_
  exact rd_ok (by rw [Domain.fft_length, hg.share_size]; exact hp) 0

/-- `pack_from_witness`: the last chunk is filled up with zeros. -/
theorem PSS.packFromWitness_fresh {pp : PSS F} (hg : pp.Good) (dbg : Bool) (v : List F) (rng : Nat → Nat → F) :
    pp.packFromWitness dbg v rng = .ok ((List.range (4 * pp.l)).map
      (pp.freshVec (numChunks v pp.l) (fun c => chunks pp.l (fun i => v.getD i 0) c) rng)) := by
  have hl := hg.lpos
  unfold PSS.packFromWitness
  rw [assert_of (by simp; omega), ok_bind,
    mapM_ok (g := fun c => pp.share.fft (pp.packCoeffs (chunks pp.l (fun i => v.getD i 0) c) (rng c))), ok_bind, hg.n_eq]
  · exact mapM_ok fun p hp => column_fresh hg _ _ _ (List.mem_range.1 hp)
  · intro c _
    have : (if (chunk v pp.l c).length < pp.l then resize (chunk v pp.l c) pp.l 0 else chunk v pp.l c) =
        chunks pp.l (fun i => v.getD i 0) c := by
      rw [← resize_chunk]
      split
      · rfl
      · rw [resize_eq_of_length]
        have : (chunk v pp.l c).length ≤ pp.l := by simp [chunk]
        omega
    dsimp only
    rw [this]
    exact PSS.pack_eq hg dbg (by simp [chunks]) (rng c)

/-- The secrets of position `c` of a vector packed by `QAP::pss`. -/
def qapSecrets (a b : Nat) (v : List F) (c : Nat) : List F :=
  (List.range (2 ^ b)).map fun j => v.getD (bitRev (a + b) (c + j * 2 ^ a)) 0

theorem qapSecrets_inj {a b : Nat} {v w : List F} (hv : v.length = 2 ^ (a + b)) (hw : w.length = 2 ^ (a + b))
    (h : ∀ c < 2 ^ a, qapSecrets a b v c = qapSecrets a b w c) : v = w := by
  apply list_ext_getD 0 (hv.trans hw.symm)
  intro i hi
  rw [hv] at hi
  have ha : 0 < 2 ^ a := by positivity
  have hk := bitRev_lt (a + b) i
  have hlt : bitRev (a + b) i / 2 ^ a < 2 ^ b := by rw [Nat.div_lt_iff_lt_mul ha, ← pow_add, Nat.add_comm b a]; exact hk
  have := congrArg (fun x => List.getD x (bitRev (a + b) i / 2 ^ a) 0) (h (bitRev (a + b) i % 2 ^ a) (Nat.mod_lt _ ha))
  simp only [qapSecrets] at this
  rw [getD_map_range, if_pos hlt, getD_map_range, if_pos hlt, Nat.mod_add_div', bitRev_bitRev _ _ hi] at this
  exact this

theorem PSS.packQapVec_fresh {pp : PSS F} (hg : pp.Good) (dbg : Bool) {a b : Nat} (hlb : pp.l = 2 ^ b) {v : List F}
    (hv : v.length = 2 ^ (a + b)) (rng : Nat → Nat → F) :
    pp.packQapVec dbg v rng =
      .ok ((List.range (2 ^ a)).map fun c => pp.share.fft (pp.packCoeffs (qapSecrets a b v c) (rng c))) := by
  unfold PSS.packQapVec
  rw [fftInPlaceRearrange_eq (a + b) _ 0 hv, ok_bind, PSS.packStrided_fresh hg dbg (N := 2 ^ a)
      (by rw [List.length_map, List.length_range, hlb, pow_add])]
  congr 1
  apply List.map_congr_left
  intro c hc
  have hc := List.mem_range.1 hc
  congr 2
  unfold strided qapSecrets
  rw [hlb]
  apply List.map_congr_left
  intro j hj
  have hj := List.mem_range.1 hj
  rw [getD_map_range, if_pos]
  rw [pow_add]
  calc c + j * 2 ^ a < 2 ^ a + j * 2 ^ a := by omega
    _ = (j + 1) * 2 ^ a := by ring
    _ ≤ 2 ^ b * 2 ^ a := Nat.mul_le_mul_right _ hj
    _ = _ := by ring

theorem QAP.pss_fresh {pp : PSS F} (hg : pp.Good) (dbg : Bool) {a b : Nat} (hlb : pp.l = 2 ^ b) (q : QAP F)
    (ha : q.a.length = 2 ^ (a + b)) (hb : q.b.length = 2 ^ (a + b)) (hc : q.c.length = 2 ^ (a + b))
    (rngA rngB rngC : Nat → Nat → F) :
    q.pss pp dbg rngA rngB rngC = .ok ((List.range (4 * 2 ^ b)).map fun p =>
      { numInputs := q.numInputs, numConstraints := q.numConstraints, domain := q.domain
        a := pp.freshVec (2 ^ a) (qapSecrets a b q.a) rngA p
        b := pp.freshVec (2 ^ a) (qapSecrets a b q.b) rngB p
        c := pp.freshVec (2 ^ a) (qapSecrets a b q.c) rngC p }) := by
  unfold QAP.pss
  rw [PSS.packQapVec_fresh hg dbg hlb ha, ok_bind, PSS.packQapVec_fresh hg dbg hlb hb, ok_bind,
    PSS.packQapVec_fresh hg dbg hlb hc, ok_bind, hg.n_eq, ← hlb]
  refine mapM_ok fun p hp => ?_
  have hp := List.mem_range.1 hp
  rw [column_fresh hg _ _ _ hp, ok_bind, column_fresh hg _ _ _ hp, ok_bind, column_fresh hg _ _ _ hp]
  rfl

/-! ### The king's answers -/

theorem PSS.fft2Finish_fresh {pp : PSS F} (hg : pp.Good) (dbg : Bool) {a b : Nat} (hlb : pp.l = 2 ^ b) {gen : F}
    (hprim : IsPrimitiveRoot gen (2 ^ (a + b))) (s1 : List F) (hl : s1.length = 2 ^ (a + b)) (g : F) (rearrange : Bool)
    (post : F → F) :
    ∃ sec : Nat → List F, (∀ c < 2 ^ a, (sec c).length = 2 ^ b) ∧ ∀ rng : Nat → Nat → F,
      pp.fft2Finish dbg s1 g gen rearrange post rng =
        .ok ((List.range (4 * pp.l)).map (pp.freshVec (2 ^ a) sec rng)) := by
  obtain ⟨φ, hφ, hs⟩ := exists_layout hprim fun i => s1.getD i 0
  have e := PSS.fft2InPlace_eq hlb hprim φ hφ s1 hl hs
  set z : Nat → F := post ∘ (fun k => g ^ k * φ (a + b) 0 (gen ^ k))
  have hz : ((if g ≠ 1 then distributePowers ((List.range (2 ^ (a + b))).map fun k => φ (a + b) 0 (gen ^ k)) g
      else (List.range (2 ^ (a + b))).map fun k => φ (a + b) 0 (gen ^ k)).map post) = (List.range (2 ^ (a + b))).map z := by
    rw [distribute_eq, List.map_map]
  cases rearrange with
  | true =>
    refine ⟨fun c => strided 0 ((List.range (2 ^ (a + b))).map fun i => ((List.range (2 ^ (a + b))).map z).getD (bitRev (a + b) i) 0)
      pp.l (2 ^ a) c, fun c _ => by simp [strided, hlb], fun rng => ?_⟩
    unfold PSS.fft2Finish
    rw [e, ok_bind]
    dsimp only
    rw [hz, if_pos rfl, fftInPlaceRearrange_eq (a + b) _ 0 (by simp), ok_bind, PSS.packStrided_fresh hg dbg (N := 2 ^ a)
      (by rw [List.length_map, List.length_range, hlb, pow_add]), ok_bind, PSS.transpose_fresh hg (by positivity)]
  | false =>
    refine ⟨fun c => chunk ((List.range (2 ^ (a + b))).map z) pp.l c,
      fun c hc => (chunk_length (N := 2 ^ a) (by rw [List.length_map, List.length_range, hlb, pow_add]) hc).trans hlb,
      fun rng => ?_⟩
    unfold PSS.fft2Finish
    rw [e, ok_bind]
    dsimp only
    rw [hz, if_neg (by simp), PSS.packVec_fresh hg dbg (N := 2 ^ a)
      (by rw [List.length_map, List.length_range, hlb, pow_add]), ok_bind, PSS.transpose_fresh hg (by positivity)]

section net
variable [FixedWire F] {n : Nat}

/-- The outputs of the interactive half of a distributed transform as a function of the king's random values. -/
theorem PSS.fft2WithRearrange_fresh {pp : PSS F} (hg : pp.Good) (dbg : Bool) (hn : n = 4 * pp.l) {a b : Nat}
    (ha : a < 64) (hlb : pp.l = 2 ^ b) {gen : F}
    (hprim : IsPrimitiveRoot gen (2 ^ (a + b))) (φ : Nat → Nat → F → F)
    {d : Nat} (hd2 : 2 * pp.l ≤ d) (hd4 : d ≤ 4 * pp.l - 1)
    {px : Nat → List F} (hpx : pp.SharedVec d (2 ^ a) px
      (fun c => (List.range (2 ^ b)).map fun j => φ a j (gen ^ (2 ^ b * (c + 1)))))
    (g : F) (rearrange : Bool) {mask : Nat → FftMask F} (hm : MasksOk pp a b rearrange g gen mask) (sid : Sid) :
    ∃ sec : Nat → List F, (∀ c < 2 ^ a, (sec c).length = 2 ^ b) ∧ ∀ rng : Nat → Nat → F,
      Runs (Upto (8 + 2 ^ a * FixedWire.width F)) (only sid) (fun i : Fin n => pp.fft2WithRearrange dbg n i (px i) (mask i) rearrange g gen sid rng)
        (fun i => addMask (pp.freshVec (2 ^ a) sec rng i) (mask i).outMask) := by
  have hl := hg.lpos
  have hn0 : 0 < n := by omega
  obtain ⟨ψ, hψ, hin, hout⟩ := hm
  have hsum := SharedVec.add hpx (SharedVec.mono hd2 hin)
  have hsum' : pp.SharedVec d (2 ^ a) (fun p => addMask (px p) (mask p).inMask)
      (fun c => (List.range (2 ^ b)).map fun j => (φ a j (gen ^ (2 ^ b * (c + 1))) + ψ a j (gen ^ (2 ^ b * (c + 1))))) := by
    refine SharedVec.congr hsum (fun _ _ => rfl) fun c hc => ?_
    rw [List.zipWith_map_left, List.zipWith_map_right, List.zipWith_self]
  obtain ⟨s1, h1, -, hK⟩ := PSS.fft2King_eq hg dbg hlb (fun s j x => φ s j x + ψ s j x)
    (by omega : 0 < d) hd4 (Or.inl rfl : pp.Decodable dbg d _) hsum' g rearrange
  obtain ⟨sec, hsec, hF⟩ := PSS.fft2Finish_fresh hg dbg hlb hprim s1 h1 g rearrange id
  have hlen : ∀ p < 4 * pp.l, (addMask (px p) (mask p).inMask).length = 2 ^ a := hsum'.1
  have h2a : 2 ^ a < 2 ^ 64 := Nat.pow_lt_pow_right (by norm_num) ha
  refine ⟨sec, hsec, fun rng => ?_⟩
  refine (runs_round hn0 sid pp.t (fun i => addMask (px i) (mask i).inMask)
    (fun i hi => Wire.ok_list _ (by rw [hlen i (by omega)]; exact h2a))
    (fun i rs => pp.fft2King dbg (addMask (px i) (mask i).inMask).length (px i).length g gen rearrange rs.shares rs.parties rng)
    (fun i => pp.freshVec (2 ^ a) sec rng i) (8 + 2 ^ a * FixedWire.width F) ?_ ?_
    (fun i y => .done (.ok (addMask y (mask i).outMask))) (Runs.done _)
    (fun i hi _ => by rw [Upto, Wire.enc_list_length, hlen i (by omega)])
    (fun i _ _ => by rw [Upto, Wire.enc_list_length, pp.freshVec_length])).congr (fun i => rfl) (fun i => rfl)
  · simp only
    rw [hlen 0 (by omega), hpx.1 0 (by omega), hn, hK, hF]
  · intro i hi
    have := pp.freshVec_length (2 ^ a) sec rng i
    exact ⟨Wire.ok_list _ (by rw [this]; exact h2a), by rw [Wire.enc_list_length, this]⟩

theorem PSS.dFft_fresh {pp : PSS F} (hg : pp.Good) (dbg : Bool) (hn : n = 4 * pp.l) {a b : Nat}
    (ha : a < 64) (hlb : pp.l = 2 ^ b) {dom : Domain F} (hsize : dom.size = 2 ^ (a + b))
    (hprim : IsPrimitiveRoot dom.groupGen (2 ^ (a + b)))
    {d : Nat} (hd2 : 2 * pp.l ≤ d) (hd4 : d ≤ 4 * pp.l - 1)
    {sh : Nat → List F} (x : Nat → F) (hsh : pp.SharedVec d (2 ^ a) sh (packed true a b x))
    (rearrange : Bool) {mask : Nat → FftMask F} (hm : MasksOk pp a b rearrange 1 dom.groupGen mask) (sid : Sid) :
    ∃ sec : Nat → List F, (∀ c < 2 ^ a, (sec c).length = 2 ^ b) ∧ ∀ rng : Nat → Nat → F,
      Runs (Upto (8 + 2 ^ a * FixedWire.width F)) (only sid) (fun i : Fin n => pp.dFft dbg n i (sh i) (mask i) rearrange dom sid rng)
        (fun i => addMask (pp.freshVec (2 ^ a) sec rng i) (mask i).outMask) := by
  obtain ⟨px, e1, hpx⟩ := PSS.fft1_shared hlb hprim _ hsh
  obtain ⟨sec, hsec, hr⟩ := PSS.fft2WithRearrange_fresh hg dbg hn ha hlb hprim
    (bp (fun i => x (bitRev (a + b) i))) hd2 hd4 hpx 1 rearrange hm sid
  refine ⟨sec, hsec, fun rng => (hr rng).congr (fun i => ?_) fun _ => rfl⟩
  have hi : i.val < 4 * pp.l := by omega
  unfold PSS.dFft
  have e := e1 i hi
  rw [debugAssert_of (by rw [hsh.1 i hi, hlb, hsize, pow_add]; simp), e]
  rfl

theorem PSS.dIfft_fresh {pp : PSS F} (hg : pp.Good) (dbg : Bool) (hn : n = 4 * pp.l) {a b : Nat}
    (ha : a < 64) (hlb : pp.l = 2 ^ b) {dom : Domain F} (hsize : dom.size = 2 ^ (a + b))
    (hprim : IsPrimitiveRoot dom.groupGenInv (2 ^ (a + b)))
    {d : Nat} (hd2 : 2 * pp.l ≤ d) (hd4 : d ≤ 4 * pp.l - 1)
    {sh : Nat → List F} (x : Nat → F) (hsh : pp.SharedVec d (2 ^ a) sh (packed true a b x)) (g : F)
    (rearrange : Bool) {mask : Nat → FftMask F} (hm : MasksOk pp a b rearrange g dom.groupGenInv mask) (sid : Sid) :
    ∃ sec : Nat → List F, (∀ c < 2 ^ a, (sec c).length = 2 ^ b) ∧ ∀ rng : Nat → Nat → F,
      Runs (Upto (8 + 2 ^ a * FixedWire.width F)) (only sid) (fun i : Fin n => pp.dIfft dbg n i (sh i) (mask i) rearrange dom g sid rng)
        (fun i => addMask (pp.freshVec (2 ^ a) sec rng i) (mask i).outMask) := by
  have hsh' : pp.SharedVec d (2 ^ a) (fun p => (sh p).map fun z => z * dom.sizeInv) (packed true a b fun i => x i * dom.sizeInv) :=
    SharedVec.congr (SharedVec.scale hsh dom.sizeInv) (fun _ _ => rfl) fun c hc => packed_smul _ _ _ _ _ _
  obtain ⟨px, e1, hpx⟩ := PSS.fft1_shared hlb hprim _ hsh'
  obtain ⟨sec, hsec, hr⟩ := PSS.fft2WithRearrange_fresh hg dbg hn ha hlb hprim
    (bp (fun i => (fun i => x i * dom.sizeInv) (bitRev (a + b) i))) hd2 hd4 hpx g rearrange hm sid
  refine ⟨sec, hsec, fun rng => (hr rng).congr (fun i => ?_) fun _ => rfl⟩
  have hi : i.val < 4 * pp.l := by omega
  unfold PSS.dIfft
  have e := e1 i hi
  rw [debugAssert_of (by rw [hsh.1 i hi, hlb, hsize, pow_add]; simp)]
  dsimp only
  rw [e]
  rfl

end net

section degred

theorem PSS.degRedKing_fresh {pp : PSS F} (hg : pp.Good) (dbg : Bool) {d N : Nat} (hN : 0 < N) (hd : 0 < d)
    (hd4 : d ≤ 4 * pp.l - 1) {parties : List Nat} (hp : pp.Decodable dbg d parties) {sh sec : Nat → List T}
    (hsh : pp.SharedVec d N sh sec) (rng : Nat → Nat → T) :
    pp.degRedKing dbg (parties.map sh) parties rng = .ok ((List.range (4 * pp.l)).map (pp.freshVec N sec rng)) := by
  unfold PSS.degRedKing
  rw [transpose_received hg hd hN hp hsh.1, ok_bind, List.length_map, List.length_range,
    mapM_ok (g := fun c => pp.share.fft (pp.packCoeffs (sec c) (rng c))), ok_bind, PSS.transpose_fresh hg hN]
  intro c hc
  have hc := List.mem_range.1 hc
  have hs := hsh.2 c hc
  rw [rd_ok (by simpa using hc) [], ok_bind, getD_map_range, if_pos hc,
    PSS.unpackMissing_of_shares hg dbg hp hd4 _ hs, ok_bind, PSS.pack_eq hg dbg hs.2.1]

variable [FixedWire T] {n : Nat}

theorem PSS.degRed_fresh {pp : PSS F} (hg : pp.Good) (dbg : Bool) (hn : n = 4 * pp.l) {d N : Nat} (hN : 0 < N)
    (hN64 : N < 2 ^ 64) (hd2 : 2 * pp.l ≤ d) (hd4 : d ≤ 4 * pp.l - 1) {sh sec : Nat → List T}
    (hsh : pp.SharedVec d N sh sec) {mask : Nat → DegRedMask T} (hm : DegRedMasksOk pp N mask) (sid : Sid) :
    ∃ sec' : Nat → List T, (∀ c < N, (sec' c).length = pp.l) ∧ ∀ rng : Nat → Nat → T,
      Runs (Upto (8 + N * FixedWire.width T)) (only sid) (fun i : Fin n => pp.degRed dbg n i (sh i) (mask i) sid rng)
        (fun i => addMask (pp.freshVec N sec' rng i) (mask i).outMask) := by
  have hl := hg.lpos
  have hn0 : 0 < n := by omega
  obtain ⟨v, hin, hout⟩ := hm
  have hsum := SharedVec.add hsh (SharedVec.mono hd2 hin)
  refine ⟨_, fun c hc => (hsum.2 c hc).2.1, fun rng => ?_⟩
  have hK := PSS.degRedKing_fresh hg dbg hN (by omega : 0 < d) hd4 (Or.inl rfl : pp.Decodable dbg d _) hsum rng
  refine (runs_round hn0 sid pp.t (fun i => addMask (sh i) (mask i).inMask)
    (fun i hi => Wire.ok_list _ (by rw [hsum.1 i (by omega)]; exact hN64))
    (fun i rs => pp.degRedKing dbg rs.shares rs.parties rng)
    (fun i => pp.freshVec N _ rng i) (8 + N * FixedWire.width T) ?_ ?_
    (fun i y => .done (.ok (addMask y (mask i).outMask))) (Runs.done _)
    (fun i hi _ => by rw [Upto, Wire.enc_list_length, hsum.1 i (by omega)])
    (fun i _ _ => by rw [Upto, Wire.enc_list_length, pp.freshVec_length])).congr (fun i => ?_) (fun i => rfl)
  · rw [hn]; exact hK
  · intro i hi
    have := pp.freshVec_length N (fun c => List.zipWith (· + ·) (sec c) (v c)) rng i
    exact ⟨Wire.ok_list _ (by rw [this]; exact hN64), by rw [Wire.enc_list_length, this]⟩
  · have hi : i.val < 4 * pp.l := by omega
    unfold PSS.degRed
    rw [debugAssert_of (by rw [hsh.1 i hi, hin.1 i hi]; simp), debugAssert_of (by rw [hsh.1 i hi, hout.1 i hi]; simp)]
    rfl

end degred

end ZkSaas
