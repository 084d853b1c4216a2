import Verif.Model.Gao
import Verif.Lemmas.Lagrange
import Mathlib.Algebra.Polynomial.Roots

/-! Lemmas about the Gao decoder. -/

namespace ZkSaas

open Polynomial Spec

set_option linter.unusedSectionVars false

variable {F : Type} [Field F] [DecidableEq F]

theorem sub_div_mul (a b : F[X]) : a - a / b * b = a % b := by
  rw [EuclideanDomain.mod_eq_sub_mul_div, mul_comm]

/-- Bezout relation and exit condition of the loop. -/
theorem xgcdLoop_spec (stop : Nat) (hstop : 1 ≤ stop) (a b : F[X]) (r prevR s prevS : F[X])
    (h1 : a ∣ r - s * b) (h2 : a ∣ prevR - prevS * b) :
    ∃ r' s', xgcdLoop stop r prevR s prevS = .ok (r', s') ∧ r'.natDegree < stop ∧ a ∣ r' - s' * b := by
  induction hd : r.degree using WellFoundedLT.induction generalizing r prevR s prevS with
  | ind d ih =>
    subst hd
    unfold xgcdLoop
    by_cases hle : stop ≤ r.natDegree
    · rw [if_pos hle]
      have hr : r ≠ 0 := by rintro rfl; simp at hle; omega
      rw [if_neg hr]
      apply ih (prevR - prevR / r * r).degree _ _ _ _ _ _ h1 rfl
      · rw [sub_div_mul]; exact EuclideanDomain.mod_lt _ hr
      · have : prevR - prevR / r * r - (prevS - prevR / r * s) * b
          = (prevR - prevS * b) - prevR / r * (r - s * b) := by ring
        rw [this]
        exact dvd_sub h2 (dvd_mul_of_dvd_right h1 _)
    · rw [if_neg hle]
      exact ⟨r, s, rfl, by omega, h1⟩

/-- With stop bound zero the loop only ends in a division by zero. -/
theorem xgcdLoop_zero (r prevR s prevS : F[X]) : xgcdLoop 0 r prevR s prevS = panic' := by
  induction hd : r.degree using WellFoundedLT.induction generalizing r prevR s prevS with
  | ind d ih =>
    subst hd
    unfold xgcdLoop
    rw [if_pos (Nat.zero_le _)]
    by_cases hr : r = 0
    · rw [if_pos hr]
    · rw [if_neg hr]
      apply ih (prevR - prevR / r * r).degree _ _ _ _ _ rfl
      rw [sub_div_mul]; exact EuclideanDomain.mod_lt _ hr

/-- Degree bookkeeping of the loop: `deg s + deg prev_r` is constant. -/
theorem xgcdLoop_degree (stop N : Nat) (hstop : 1 ≤ stop) (r prevR s prevS : F[X])
    (h1 : r.degree < prevR.degree) (h2 : prevS.degree < s.degree)
    (h3 : s.natDegree + prevR.natDegree = N) (h4 : s.natDegree = 0 ∨ s.natDegree + stop ≤ N)
    {r' s' : F[X]} (h : xgcdLoop stop r prevR s prevS = .ok (r', s')) :
    s' ≠ 0 ∧ (s'.natDegree = 0 ∨ s'.natDegree + stop ≤ N) := by
  induction hd : r.degree using WellFoundedLT.induction generalizing r prevR s prevS with
  | ind d ih =>
    subst hd
    unfold xgcdLoop at h
    by_cases hle : stop ≤ r.natDegree
    · rw [if_pos hle] at h
      have hr : r ≠ 0 := by rintro rfl; simp at hle; omega
      rw [if_neg hr] at h
      have hs : s ≠ 0 := by rintro rfl; simp at h2
      have hp : prevR ≠ 0 := by rintro rfl; simp at h1
      have hqdeg : r.degree + (prevR / r).degree = prevR.degree := degree_add_div hr h1.le
      have hq : prevR / r ≠ 0 := by
        intro hq; rw [hq, degree_zero, WithBot.add_bot] at hqdeg
        exact hp (degree_eq_bot.1 hqdeg.symm)
      have hqnat : r.natDegree + (prevR / r).natDegree = prevR.natDegree := by
        rw [degree_eq_natDegree hr, degree_eq_natDegree hq, degree_eq_natDegree hp] at hqdeg
        exact_mod_cast hqdeg
      have hqs : (prevS).degree < (prevR / r * s).degree := by
        refine lt_of_lt_of_le h2 ?_
        rw [degree_mul]
        exact le_add_of_nonneg_left (zero_le_degree_iff.2 hq)
      have hs'deg : (prevS - prevR / r * s).degree = (prevR / r * s).degree :=
        degree_sub_eq_right_of_degree_lt hqs
      have hs'nat : (prevS - prevR / r * s).natDegree = (prevR / r).natDegree + s.natDegree := by
        rw [natDegree_eq_of_degree_eq hs'deg, natDegree_mul hq hs]
      have hrlt : r.natDegree < prevR.natDegree := natDegree_lt_natDegree hr h1
      apply ih (prevR - prevR / r * r).degree _ _ _ _ _ _ _ _ _ h rfl
      · rw [sub_div_mul]; exact EuclideanDomain.mod_lt _ hr
      · rw [sub_div_mul]; exact EuclideanDomain.mod_lt _ hr
      · rw [hs'deg, degree_mul, degree_eq_natDegree hq, degree_eq_natDegree hs]
        exact_mod_cast (by omega : s.natDegree < (prevR / r).natDegree + s.natDegree)
      · omega
      · right; omega
    · rw [if_neg hle] at h
      cases h
      exact ⟨by rintro rfl; simp at h2, h4⟩

variable {pp : PSS F}

/-- The interpolation polynomial of the received word. -/
theorem toPoly_ifft_eval (hg : pp.Good) (rec : List F) {i : Nat} (hi : i < 4 * pp.l) :
    (toPoly (pp.share.ifft rec)).eval (pp.share.groupGen ^ i) = rec.getD i 0 := by
  rw [toPoly_eval, Domain.ifft_length]
  have := Domain.eval_ifft hg.share_wf rec (i := i) (by rw [hg.share_size]; exact hi)
  rw [hg.share_element] at this
  exact this

theorem share_points_injOn (hg : pp.Good) :
    Set.InjOn (fun i => pp.share.groupGen ^ i) (Finset.range (4 * pp.l)) := by
  intro i hi j hj h
  simp only [Finset.coe_range, Set.mem_Iio] at hi hj
  apply hg.share_wf.prim.pow_inj _ _ h <;> rw [hg.share_size] <;> assumption

/-- Common analysis of a successful run of `partial_xgcd` inside the decoder. -/
theorem decode_xgcd (hg : pp.Good) (rec : List F) {codelength dimension : Nat}
    (hstop : 1 ≤ (dimension + codelength) / 2) :
    ∃ r s, partialXgcd (X ^ pp.share.size - C (pp.share.offset ^ pp.share.size))
        (toPoly (pp.share.ifft rec)) codelength dimension = .ok (r, s) ∧
      r.natDegree < (dimension + codelength) / 2 ∧ s ≠ 0 ∧
      (s.natDegree = 0 ∨ s.natDegree + (dimension + codelength) / 2 ≤ 4 * pp.l) ∧
      (X ^ (4 * pp.l) - 1 ∣ r - s * toPoly (pp.share.ifft rec)) := by
  have hl := hg.lpos
  have hz : (X ^ pp.share.size - C (pp.share.offset ^ pp.share.size) : F[X]) = X ^ (4 * pp.l) - 1 := by
    rw [hg.share_size, hg.share_off, one_pow, C_1]
  have hzdeg : (X ^ (4 * pp.l) - 1 : F[X]).natDegree = 4 * pp.l := by
    rw [← C_1]; exact natDegree_X_pow_sub_C
  have hz0 : (X ^ (4 * pp.l) - 1 : F[X]) ≠ 0 := by
    intro h; rw [h, natDegree_zero] at hzdeg; omega
  rw [hz]
  obtain ⟨r, s, e, h1, h2⟩ := xgcdLoop_spec _ hstop (X ^ (4 * pp.l) - 1) (toPoly (pp.share.ifft rec))
    (toPoly (pp.share.ifft rec)) (X ^ (4 * pp.l) - 1) 1 0 (by simp) (by simp)
  have hrdeg : (toPoly (pp.share.ifft rec)).degree < (X ^ (4 * pp.l) - 1 : F[X]).degree := by
    rw [degree_eq_natDegree hz0, hzdeg]
    have := toPoly_degree_lt (pp.share.ifft rec)
    rwa [Domain.ifft_length, hg.share_size] at this
  obtain ⟨h3, h4⟩ := xgcdLoop_degree _ (4 * pp.l) hstop _ _ 1 0 hrdeg (by simp) (by simp [hzdeg]) (by simp) e
  exact ⟨r, s, e, h1, h3, h4, h2⟩

theorem zpoly_eval (hg : pp.Good) {p : F[X]} (h : X ^ (4 * pp.l) - 1 ∣ p) (i : Nat) :
    p.eval (pp.share.groupGen ^ i) = 0 := by
  obtain ⟨q, rfl⟩ := h
  have : pp.share.groupGen ^ (4 * pp.l) = 1 := by
    rw [← hg.share_size]; exact hg.share_wf.prim.pow_eq_one
  simp [← pow_mul, mul_comm i, pow_mul _ (4 * pp.l), this]

theorem decode_of_mul (hg : pp.Good) (rec : List F) {codelength dimension : Nat} {r s h : F[X]}
    (e : partialXgcd (X ^ pp.share.size - C (pp.share.offset ^ pp.share.size))
        (toPoly (pp.share.ifft rec)) codelength dimension = .ok (r, s))
    (hs : s ≠ 0) (hrs : r = s * h) :
    pp.decodeToMessage rec codelength dimension = .ok h := by
  unfold PSS.decodeToMessage
  simp only [e, ok_bind]
  unfold divideWithQAndR
  by_cases hr : r = 0
  · have : h = 0 := by
      rw [hr] at hrs
      exact (mul_eq_zero.1 hrs.symm).resolve_left hs
    rw [if_pos hr]
    simp [this]
  · have h1 : r / s = h := by rw [hrs]; exact mul_div_cancel_left₀ _ hs
    have h2 : r % s = 0 := by rw [hrs]; exact EuclideanDomain.mod_eq_zero.2 ⟨h, rfl⟩
    rw [if_neg hr, if_neg hs]
    simp [h1, h2]

theorem decode_ok_inv (hg : pp.Good) (rec : List F) {codelength dimension : Nat} {h : F[X]}
    (hd : pp.decodeToMessage rec codelength dimension = .ok h) {r s : F[X]}
    (e : partialXgcd (X ^ pp.share.size - C (pp.share.offset ^ pp.share.size))
        (toPoly (pp.share.ifft rec)) codelength dimension = .ok (r, s)) (hs : s ≠ 0) : r = s * h := by
  unfold PSS.decodeToMessage at hd
  simp only [e, ok_bind] at hd
  unfold divideWithQAndR at hd
  by_cases hr : r = 0
  · rw [if_pos hr] at hd
    simp at hd
    rw [hr, ← hd]; simp
  · rw [if_neg hr, if_neg hs] at hd
    simp only [ok_bind] at hd
    by_cases hrem : r % s = 0
    · rw [assert_of (by simpa using hrem)] at hd
      simp at hd
      have := EuclideanDomain.div_add_mod r s
      rw [hrem, add_zero, hd] at this
      exact this.symm
    · rw [assert_panic_of (by simpa using hrem)] at hd
      simp at hd

/-- Gao decoding corrects up to half the minimum distance. -/
theorem decode_correct (hg : pp.Good) (k : Nat) (hk : k ≤ 4 * pp.l) (f : F[X]) (hf : f.degree < k)
    (rec : List F)
    (herr : 2 * ((Finset.range (4 * pp.l)).filter
      fun i => rec.getD i 0 ≠ f.eval (pp.share.groupGen ^ i)).card + k ≤ 4 * pp.l) :
    pp.decodeToMessage rec (4 * pp.l) k = .ok f := by
  have hl := hg.lpos
  set E := (Finset.range (4 * pp.l)).filter fun i => rec.getD i 0 ≠ f.eval (pp.share.groupGen ^ i) with hE
  obtain ⟨r, s, e, h1, h2, h3, h4⟩ := decode_xgcd hg rec (codelength := 4 * pp.l) (dimension := k) (by omega)
  apply decode_of_mul hg rec e h2
  set R := toPoly (pp.share.ifft rec) with hR
  set L : F[X] := ∏ i ∈ E, (X - C (pp.share.groupGen ^ i)) with hL
  have hL0 : L ≠ 0 := Finset.prod_ne_zero_iff.2 fun i _ => X_sub_C_ne_zero _
  have hLdeg : L.natDegree = E.card := by
    rw [hL, natDegree_prod _ _ (fun i _ => X_sub_C_ne_zero _)]
    simp only [natDegree_X_sub_C, Finset.sum_const, smul_eq_mul, mul_one]
  -- r L and s f L agree at all share points
  have hev : ∀ i < 4 * pp.l, (r * L).eval (pp.share.groupGen ^ i) = (s * f * L).eval (pp.share.groupGen ^ i) := by
    intro i hi
    have h0 := zpoly_eval hg h4 i
    rw [eval_sub, sub_eq_zero, eval_mul] at h0
    simp only [eval_mul, h0]
    by_cases hiE : i ∈ E
    · have : L.eval (pp.share.groupGen ^ i) = 0 := by
        rw [hL, eval_prod]
        exact Finset.prod_eq_zero hiE (by simp)
      rw [this]; simp
    · have : rec.getD i 0 = f.eval (pp.share.groupGen ^ i) := by
        by_contra hne
        exact hiE (Finset.mem_filter.2 ⟨Finset.mem_range.2 hi, hne⟩)
      rw [hR, toPoly_ifft_eval hg rec hi, this]
  have key : r * L = s * f * L := by
    apply eq_of_degrees_lt_of_eval_index_eq (s := Finset.range (4 * pp.l)) (v := fun i => pp.share.groupGen ^ i)
    · exact share_points_injOn hg
    · rw [Finset.card_range]
      refine lt_of_le_of_lt degree_le_natDegree ?_
      have := natDegree_mul_le (p := r) (q := L)
      exact_mod_cast (by omega : (r * L).natDegree < 4 * pp.l)
    · rw [Finset.card_range]
      by_cases hf0 : f = 0
      · rw [hf0, mul_zero, zero_mul, degree_zero]; exact WithBot.bot_lt_coe _
      · have hfn : f.natDegree < k := (natDegree_lt_iff_degree_lt hf0).2 hf
        refine lt_of_le_of_lt degree_le_natDegree ?_
        have a := natDegree_mul_le (p := s * f) (q := L)
        have b := natDegree_mul_le (p := s) (q := f)
        exact_mod_cast (by omega : (s * f * L).natDegree < 4 * pp.l)
    · intro i hi
      exact hev i (Finset.mem_range.1 hi)
  exact mul_right_cancel₀ hL0 key

/-- Whatever the decoder returns agrees with the received word in many positions. -/
theorem decode_close (hg : pp.Good) (rec : List F) (k : Nat) (hk : k ≤ 4 * pp.l) {h : F[X]}
    (hd : pp.decodeToMessage rec (4 * pp.l) k = .ok h) :
    h.natDegree < (4 * pp.l + k) / 2 ∧
    (4 * pp.l + k) / 2 ≤ ((Finset.range (4 * pp.l)).filter
      fun i => rec.getD i 0 = h.eval (pp.share.groupGen ^ i)).card := by
  have hl := hg.lpos
  obtain ⟨r, s, e, h1, h2, h3, h4⟩ := decode_xgcd hg rec (codelength := 4 * pp.l) (dimension := k) (by omega)
  have hrs := decode_ok_inv hg rec hd e h2
  constructor
  · by_cases hh : h = 0
    · rw [hh]; simp; omega
    · rw [hrs, natDegree_mul h2 hh] at h1
      omega
  · set D := (Finset.range (4 * pp.l)).filter fun i => ¬ rec.getD i 0 = h.eval (pp.share.groupGen ^ i) with hD
    have hcard := Finset.card_filter_add_card_filter_not (s := Finset.range (4 * pp.l))
      (fun i => rec.getD i 0 = h.eval (pp.share.groupGen ^ i))
    rw [Finset.card_range] at hcard
    have hDle : D.card ≤ s.natDegree := by
      have hsub : D.image (fun i => pp.share.groupGen ^ i) ⊆ s.roots.toFinset := by
        intro x hx
        obtain ⟨i, hi, rfl⟩ := Finset.mem_image.1 hx
        obtain ⟨hi1, hi2⟩ := Finset.mem_filter.1 hi
        rw [Multiset.mem_toFinset, mem_roots h2]
        have h0 := zpoly_eval hg h4 i
        rw [hrs, ← mul_sub, eval_mul, eval_sub, toPoly_ifft_eval hg rec (Finset.mem_range.1 hi1)] at h0
        rcases mul_eq_zero.1 h0 with h0 | h0
        · exact h0
        · exact absurd (sub_eq_zero.1 h0).symm hi2
      have hinj : (D.image (fun i => pp.share.groupGen ^ i)).card = D.card := by
        apply Finset.card_image_of_injOn
        exact (share_points_injOn hg).mono (by
          intro i hi
          exact (Finset.mem_filter.1 (Finset.mem_coe.1 hi)).1)
      rw [← hinj]
      exact le_trans (Finset.card_le_card hsub) (le_trans (Multiset.toFinset_card_le _) (card_roots' s))
    change _ + D.card = _ at hcard
    omega

end ZkSaas
