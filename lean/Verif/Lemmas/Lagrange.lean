import Verif.Lemmas.Utils
import Mathlib.Data.List.TakeWhile

/-! Correctness of `lagrange_interpolate`. -/

namespace ZkSaas

open Finset Spec Polynomial

set_option linter.unusedSectionVars false

variable {F : Type} [Field F] [DecidableEq F]
variable {T : Type} [AddCommGroup T] [Module F T] [DecidableEq T]

theorem truncateZeros_spec (v : List T) :
    (truncateZeros v).length ≤ v.length ∧ (∀ j, (truncateZeros v).getD j 0 = v.getD j 0) ∧
    ((∃ x ∈ v, x ≠ 0) → ∃ h : truncateZeros v ≠ [], (truncateZeros v).getLast h ≠ 0) ∧
    ((∀ x ∈ v, x = 0) → truncateZeros v = v) := by
  unfold truncateZeros
  simp only
  set s := (v.reverse.dropWhile (· = 0)) with hs
  have hpre : v = s.reverse ++ (v.reverse.takeWhile (· = 0)).reverse := by
    rw [← List.reverse_append, List.takeWhile_append_dropWhile, List.reverse_reverse]
  have hz : ∀ x ∈ (v.reverse.takeWhile (· = 0)).reverse, x = 0 := by
    intro x hx
    rw [List.mem_reverse] at hx
    simpa using List.mem_takeWhile_imp hx
  by_cases hnil : s.reverse = []
  · rw [if_pos hnil]
    refine ⟨le_rfl, fun _ => rfl, ?_, fun _ => rfl⟩
    rintro ⟨x, hx, hx0⟩
    rw [hpre, hnil, List.nil_append] at hx
    exact absurd (hz x hx) hx0
  · rw [if_neg hnil]
    have hsne : s ≠ [] := by simpa using hnil
    have hlast : s.reverse.getLast hnil ≠ 0 := by
      rw [List.getLast_reverse]
      have := List.head_dropWhile_not (p := fun x : T => decide (x = 0)) (l := v.reverse) hsne
      simpa using this
    refine ⟨?_, ?_, fun _ => ⟨hnil, hlast⟩, ?_⟩
    · conv_rhs => rw [hpre]
      simp
    · intro j
      conv_rhs => rw [hpre, getD_append']
      split
      · rfl
      · rename_i h
        rw [getD_of_ge _ (Nat.le_of_not_lt h)]
        symm
        by_cases hj : j - s.reverse.length < (v.reverse.takeWhile (· = 0)).reverse.length
        · apply hz
          rw [List.getD, List.getElem?_eq_getElem hj]
          exact List.getElem_mem hj
        · exact getD_of_ge _ (Nat.le_of_not_lt hj)
    · intro hall
      exfalso
      apply hlast
      apply hall
      rw [hpre]
      exact List.mem_append_left _ (List.getLast_mem _)

theorem getD_mem {α : Type _} {v : List α} {i : Nat} (d : α) (h : i < v.length) : v.getD i d ∈ v := by
  rw [List.getD, List.getElem?_eq_getElem h]; exact List.getElem_mem h

theorem getD_inj_of_nodup {α : Type _} {v : List α} (hv : v.Nodup) (d : α) {i j : Nat} (hi : i < v.length)
    (hj : j < v.length) (h : v.getD i d = v.getD j d) : i = j := by
  rw [List.getD, List.getD, List.getElem?_eq_getElem hi, List.getElem?_eq_getElem hj] at h
  exact (List.Nodup.getElem_inj_iff hv).1 h

/-- The numerator polynomial computed for each point. -/
theorem numerator_ok {xs roots : List F} (hr : roots.length = xs.length + 1)
    (hp : toPoly roots = (xs.map fun x => X - C x).prod) {x : F} (hx : x ∈ xs) (hx0 : x ≠ 0) :
    ∃ q, synDiv roots 1 x = .ok q ∧ q.length = xs.length + 1 ∧
      toPoly q = ((xs.erase x).map fun x => X - C x).prod := by
  have : 0 < xs.length := List.length_pos_of_mem hx
  obtain ⟨q, e, h1, h2, r, hr1, hr2⟩ := synDiv_ok (p := roots) (a := 1) (b := x) one_ne_zero hx0 (by omega)
  refine ⟨q, e, by omega, ?_⟩
  rw [pow_one] at hr2
  have hfac : (xs.map fun x => X - C x).prod = (X - C x) * ((xs.erase x).map fun x => X - C x).prod :=
    (List.prod_map_erase (fun x => X - C x) hx).symm
  have hrc : r = C (r.coeff 0) := by
    ext m
    cases m with
    | zero => simp
    | succ m =>
      rw [(degree_lt_iff_coeff_zero r 1).1 hr1 (m + 1) (by omega), coeff_C, if_neg (by omega)]
  rw [hp, hfac, hrc] at hr2
  have h0 : r.coeff 0 = 0 := by
    have := congrArg (Polynomial.eval x) hr2
    simpa using this.symm
  rw [h0, C_0, add_zero, mul_comm] at hr2
  exact (mul_right_cancel₀ (X_sub_C_ne_zero x) hr2).symm

theorem prod_eval_erase {xs : List F} (hnd : xs.Nodup) {x y : F} (hx : x ∈ xs) (hy : y ∈ xs) :
    (((xs.erase x).map fun x => X - C x).prod.eval y = 0 ↔ y ≠ x) := by
  rw [eval_list_prod, List.prod_eq_zero_iff]
  simp only [List.map_map, List.mem_map, Function.comp, eval_sub, eval_X, eval_C, sub_eq_zero]
  rw [show (∃ a ∈ xs.erase x, y = a) ↔ y ∈ xs.erase x from ⟨fun ⟨a, h, e⟩ => e ▸ h, fun h => ⟨y, h, rfl⟩⟩,
    hnd.mem_erase_iff]
  tauto

/-- The value of `lagrange_interpolate` in terms of a Lagrange basis. -/
theorem lagrangeInterpolate_eq {xs : List F} {ys : List T} (hnd : xs.Nodup) (h0 : (0 : F) ∉ xs)
    (hl : ys.length = xs.length) :
    ∃ L : Nat → F[X], (∀ i < xs.length, (L i).degree < xs.length) ∧
      (∀ i < xs.length, ∀ k < xs.length, (L i).eval (xs.getD k 0) = if k = i then 1 else 0) ∧
      lagrangeInterpolate xs ys = .ok (truncateZeros ((List.range xs.length).map fun j =>
        ∑ i ∈ range xs.length, (L i).coeff j • ys.getD i 0)) := by
  obtain ⟨roots, er, hr, hp⟩ := getZeroRoots_ok xs
  have hnum : ∀ x ∈ xs, ∃ q, synDiv roots 1 x = .ok q ∧ q.length = xs.length + 1 ∧
      toPoly q = ((xs.erase x).map fun x => X - C x).prod := fun x hx =>
    numerator_ok hr hp hx (fun h => h0 (h ▸ hx))
  classical
  let N : F → List F := fun x => if hx : x ∈ xs then (hnum x hx).choose else []
  have hN : ∀ x ∈ xs, synDiv roots 1 x = .ok (N x) ∧ (N x).length = xs.length + 1 ∧
      toPoly (N x) = ((xs.erase x).map fun x => X - C x).prod := by
    intro x hx
    simp only [N, dif_pos hx]
    exact (hnum x hx).choose_spec
  let D : F → F := fun x => (eval (N x) x)⁻¹
  have hDne : ∀ x ∈ xs, eval (N x) x ≠ 0 := by
    intro x hx h
    rw [eval_eq, (hN x hx).2.2, prod_eval_erase hnd hx hx] at h
    exact h rfl
  refine ⟨fun i => toPoly (N (xs.getD i 0)) * C (D (xs.getD i 0)), ?_, ?_, ?_⟩
  · intro i hi
    have hx := getD_mem (0 : F) hi
    have hdeg : (toPoly (N (xs.getD i 0))).natDegree = xs.length - 1 := by
      rw [(hN _ hx).2.2]
      have := natDegree_multiset_prod_X_sub_C_eq_card ((xs.erase (xs.getD i 0) : List F) : Multiset F)
      simp only [Multiset.map_coe, Multiset.prod_coe, Multiset.coe_card] at this
      rw [this, List.length_erase_of_mem hx]
    rw [degree_lt_iff_coeff_zero]
    intro m hm
    rw [coeff_mul_C, coeff_eq_zero_of_natDegree_lt (by omega), zero_mul]
  · intro i hi k hk
    have hx := getD_mem (0 : F) hi
    have hy := getD_mem (0 : F) hk
    rw [eval_mul, eval_C]
    by_cases hki : k = i
    · subst hki
      rw [if_pos rfl]
      show _ * (eval _ _)⁻¹ = 1
      rw [← eval_eq]
      exact mul_inv_cancel₀ (hDne _ hx)
    · rw [if_neg hki, (hN _ hx).2.2]
      have := (prod_eval_erase hnd hx hy).2 (fun h => hki (getD_inj_of_nodup hnd 0 hk hi h))
      rw [this, zero_mul]
  · unfold lagrangeInterpolate
    rw [er, ok_bind, mapM_ok (g := N) (fun x hx => (hN x hx).1)]
    simp only [ok_bind]
    have hden : batchInversion (((xs.map N).zip xs).map fun (f, x) => eval f x) = xs.map D := by
      unfold batchInversion
      apply List.ext_getElem
      · simp
      · intro i h1 h2
        simp [D]
    rw [hden]
    have hlen : (xs.map D).length = xs.length := by simp
    have := forUp_inv (n := ys.length) (body := fun i (result : List T) => do
        let ySlice := (← rd (xs.map D) i) • (← rd ys i)
        forUp result.length (fun j result => do
          let tmp := (← rd (← rd (xs.map N) i) j) • ySlice
          wr result j ((← rd result j) + tmp)) result)
      (s := List.replicate (xs.map N).length (0 : T))
      (fun i v => v.length = xs.length ∧ ∀ j < xs.length, v.getD j 0 =
        ∑ i ∈ range i, (toPoly (N (xs.getD i 0)) * C (D (xs.getD i 0))).coeff j • ys.getD i 0)
      ⟨by simp, fun j _ => by rw [getD_replicate_self, range_zero, sum_empty]⟩
      (by
        rintro i hi v ⟨h1, h2⟩
        have hix : i < xs.length := by omega
        have hx := getD_mem (0 : F) hix
        have e1 : rd (xs.map D) i = .ok (D (xs.getD i 0)) := by
          rw [rd_ok (by simpa using hix) 0, getD_map_of_lt D xs i 0 0 hix]
        have e2 : rd ys i = .ok (ys.getD i 0) := rd_ok hi 0
        have e3 : rd (xs.map N) i = .ok (N (xs.getD i 0)) := by
          rw [rd_ok (by simpa using hix) [], getD_map_of_lt N xs i 0 [] hix]
        simp only [e1, e2, e3, ok_bind]
        have := forUp_inv (n := v.length) (body := fun j (result : List T) => do
            let tmp := (← rd (N (xs.getD i 0)) j) • (D (xs.getD i 0) • ys.getD i 0)
            wr result j ((← rd result j) + tmp))
          (s := v)
          (fun m w => w.length = xs.length ∧ ∀ j < xs.length, w.getD j 0 = v.getD j 0 + if j < m then
            (toPoly (N (xs.getD i 0)) * C (D (xs.getD i 0))).coeff j • ys.getD i 0 else 0)
          ⟨h1, by simp⟩
          (by
            rintro m hm w ⟨w1, w2⟩
            have hmw : m < w.length := by omega
            have e4 : rd (N (xs.getD i 0)) m = .ok ((N (xs.getD i 0)).getD m 0) :=
              rd_ok (by rw [(hN _ hx).2.1]; omega) 0
            refine ⟨_, by simp only [e4, rd_ok hmw 0, ok_bind]; rw [wr_ok hmw], by simpa using w1, ?_⟩
            intro j hj
            rw [getD_set]
            by_cases hjm : m = j
            · subst hjm
              rw [if_pos ⟨rfl, hmw⟩, if_pos (Nat.lt_succ_self m), w2 m hj, if_neg (by omega), add_zero,
                coeff_mul_C, coeff_toPoly, smul_smul]
            · rw [if_neg (by tauto), w2 j hj]
              by_cases hlt : j < m
              · rw [if_pos hlt, if_pos (by omega)]
              · rw [if_neg hlt, if_neg (by omega)])
        obtain ⟨w, ew, w1, w2⟩ := this
        refine ⟨w, ew, w1, ?_⟩
        · intro j hj
          rw [w2 j hj, if_pos (by omega), h2 j hj, sum_range_succ])
    obtain ⟨v, ev, h1, h2⟩ := this
    rw [ev]
    simp only [ok_bind, pure_ok]
    congr 2
    apply list_ext_getD 0 (by simp [h1])
    intro j hj
    rw [h2 j (by omega), getD_map_range, if_pos (by omega), hl]

/-- The Lagrange basis reproduces coefficients. -/
theorem lagrange_coeff {xs : List F} (hnd : xs.Nodup) {L : Nat → F[X]}
    (hdeg : ∀ i < xs.length, (L i).degree < xs.length)
    (hev : ∀ i < xs.length, ∀ k < xs.length, (L i).eval (xs.getD k 0) = if k = i then 1 else 0)
    {d j : Nat} (hd : d < xs.length) :
    ∑ i ∈ range xs.length, (L i).coeff j * (xs.getD i 0) ^ d = if j = d then 1 else 0 := by
  have key : ∑ i ∈ range xs.length, L i * C ((xs.getD i 0) ^ d) = X ^ d := by
    apply eq_of_degrees_lt_of_eval_finset_eq (s := xs.toFinset)
    · rw [List.toFinset_card_of_nodup hnd, degree_lt_iff_coeff_zero]
      intro m hm
      rw [finset_sum_coeff]
      apply sum_eq_zero
      intro i hi
      rw [coeff_mul_C, (degree_lt_iff_coeff_zero _ _).1 (hdeg i (mem_range.1 hi)) m hm, zero_mul]
    · rw [List.toFinset_card_of_nodup hnd, degree_X_pow]
      exact_mod_cast hd
    · intro x hx
      rw [List.mem_toFinset] at hx
      obtain ⟨k, hk, rfl⟩ := List.mem_iff_getElem.1 hx
      have hxk : xs[k] = xs.getD k 0 := by simp [List.getD, List.getElem?_eq_getElem hk]
      rw [hxk, eval_finset_sum, sum_eq_single k]
      · rw [eval_mul, hev k hk k hk, if_pos rfl]; simp
      · intro i hi hik
        rw [eval_mul, hev i (mem_range.1 hi) k hk, if_neg (Ne.symm hik), zero_mul]
      · intro h; exact absurd (mem_range.2 hk) h
  have := congrArg (fun p => p.coeff j) key
  simp only [finset_sum_coeff, coeff_mul_C, coeff_X_pow] at this
  exact this

/-- `lagrange_interpolate` returns the coefficients of any low degree polynomial through the points. -/
theorem lagrangeInterpolate_coeffs {xs : List F} {ys : List T} (hnd : xs.Nodup) (h0 : (0 : F) ∉ xs)
    (hl : ys.length = xs.length) {c : Nat → T} {d : Nat} (hd : d ≤ xs.length)
    (hc : ∀ i < xs.length, ys.getD i 0 = pval c d (xs.getD i 0)) :
    ∃ res, lagrangeInterpolate xs ys = .ok res ∧ res.length ≤ xs.length ∧
      ∀ j, res.getD j 0 = if j < d then c j else 0 := by
  obtain ⟨L, h1, h2, e⟩ := lagrangeInterpolate_eq (ys := ys) hnd h0 hl
  refine ⟨_, e, ?_, ?_⟩
  · exact le_trans (truncateZeros_spec _).1 (by simp)
  · intro j
    rw [(truncateZeros_spec _).2.1 j, getD_map_range]
    by_cases hj : j < xs.length
    · rw [if_pos hj]
      have : ∀ i ∈ range xs.length, (L i).coeff j • ys.getD i 0 =
          ∑ e ∈ range d, ((L i).coeff j * (xs.getD i 0) ^ e) • c e := by
        intro i hi
        rw [hc i (mem_range.1 hi), pval, smul_sum]
        exact sum_congr rfl fun e _ => smul_smul _ _ _
      rw [sum_congr rfl this, sum_comm]
      have : ∀ e ∈ range d, ∑ i ∈ range xs.length, ((L i).coeff j * (xs.getD i 0) ^ e) • c e =
          if j = e then c e else 0 := by
        intro e he
        have he := mem_range.1 he
        rw [← sum_smul, lagrange_coeff hnd h1 h2 (by omega)]
        split <;> simp
      rw [sum_congr rfl this, sum_ite_eq (range d) j]
      simp
    · rw [if_neg hj, if_neg (by omega)]

/-- `lagrange_interpolate` passes through the given points. -/
theorem lagrangeInterpolate_passes {xs : List F} {ys : List T} (hnd : xs.Nodup) (h0 : (0 : F) ∉ xs)
    (hl : ys.length = xs.length) :
    ∃ res, lagrangeInterpolate xs ys = .ok res ∧ res.length ≤ xs.length ∧
      (∀ k < xs.length, pval (fun j => res.getD j 0) xs.length (xs.getD k 0) = ys.getD k 0) ∧
      ((∃ x ∈ res, x ≠ 0) → ∃ h : res ≠ [], res.getLast h ≠ 0) ∧
      ((∀ x ∈ res, x = 0) → res.length = xs.length) := by
  obtain ⟨L, h1, h2, e⟩ := lagrangeInterpolate_eq (ys := ys) hnd h0 hl
  obtain ⟨t1, t2, t3, t4⟩ := truncateZeros_spec ((List.range xs.length).map fun j =>
        ∑ i ∈ range xs.length, (L i).coeff j • ys.getD i 0)
  refine ⟨_, e, by simpa using t1, ?_, ?_, ?_⟩
  · intro k hk
    have hL : ∀ i < xs.length, ∀ x, (L i).eval x = ∑ j ∈ range xs.length, x ^ j * (L i).coeff j := by
      intro i hi x
      have : (L i).natDegree < xs.length := by
        by_cases h0 : L i = 0
        · simp [h0]; omega
        · exact (natDegree_lt_iff_degree_lt h0).2 (h1 i hi)
      rw [eval_eq_sum_range' this]
      exact sum_congr rfl fun j _ => mul_comm _ _
    unfold pval
    have : ∀ j ∈ range xs.length, (xs.getD k 0) ^ j • (truncateZeros ((List.range xs.length).map fun j =>
        ∑ i ∈ range xs.length, (L i).coeff j • ys.getD i 0)).getD j 0 =
        ∑ i ∈ range xs.length, ((xs.getD k 0) ^ j * (L i).coeff j) • ys.getD i 0 := by
      intro j hj
      rw [t2, getD_map_range, if_pos (mem_range.1 hj), smul_sum]
      exact sum_congr rfl fun i _ => smul_smul _ _ _
    rw [sum_congr rfl this, sum_comm]
    have : ∀ i ∈ range xs.length, ∑ j ∈ range xs.length, ((xs.getD k 0) ^ j * (L i).coeff j) • ys.getD i 0
        = if k = i then ys.getD i 0 else 0 := by
      intro i hi
      rw [← sum_smul, ← hL i (mem_range.1 hi), h2 i (mem_range.1 hi) k hk]
      split <;> simp
    rw [sum_congr rfl this, sum_ite_eq, if_pos (mem_range.2 hk)]
  · rintro ⟨x, hx, hx0⟩
    apply t3
    by_contra hcon
    push Not at hcon
    rw [t4 hcon] at hx
    exact hx0 (hcon x hx)
  · intro hall
    by_contra hcon
    by_cases hex : ∃ x ∈ ((List.range xs.length).map fun j =>
        ∑ i ∈ range xs.length, (L i).coeff j • ys.getD i 0), x ≠ 0
    · obtain ⟨h, hlast⟩ := t3 hex
      exact hlast (hall _ (List.getLast_mem h))
    · push Not at hex
      rw [t4 hex] at hcon
      simp at hcon

/-- A zero point makes `lagrange_interpolate` panic (`syn_div` asserts a non-zero constant). -/
theorem lagrangeInterpolate_zero_panic {xs : List F} {ys : List T} (h0 : (0 : F) ∈ xs) :
    lagrangeInterpolate xs ys = panic' := by
  obtain ⟨roots, er, hr, hp⟩ := getZeroRoots_ok xs
  unfold lagrangeInterpolate
  rw [er, ok_bind, mapM_panic h0 (synDiv_panic (by tauto))]
  · rfl
  · intro y hy
    by_cases hy0 : y = 0
    · exact .inl (synDiv_panic (by tauto))
    · have : 0 < xs.length := List.length_pos_of_mem hy
      obtain ⟨q, e, _⟩ := synDiv_ok (p := roots) (a := 1) (b := y) one_ne_zero hy0 (by omega)
      exact .inr ⟨q, e⟩

/-- Existence of an interpolating polynomial over a module. -/
theorem interp_exists {xs : List F} (hnd : xs.Nodup) (h0 : (0 : F) ∉ xs) (y : Nat → T) :
    ∃ c : Nat → T, ∀ i < xs.length, pval c xs.length (xs.getD i 0) = y i := by
  classical
  obtain ⟨res, _, _, h, _⟩ := lagrangeInterpolate_passes (ys := (List.range xs.length).map y) hnd h0 (by simp)
  refine ⟨_, fun i hi => (h i hi).trans ?_⟩
  rw [getD_map_range, if_pos hi]

/-- Uniqueness of the interpolating polynomial over a module. -/
theorem interp_unique {xs : List F} (hnd : xs.Nodup) (h0 : (0 : F) ∉ xs) {c c' : Nat → T}
    (h : ∀ i < xs.length, pval c xs.length (xs.getD i 0) = pval c' xs.length (xs.getD i 0)) :
    ∀ j < xs.length, c j = c' j := by
  classical
  intro j hj
  obtain ⟨r1, e1, _, h1⟩ := lagrangeInterpolate_coeffs
    (ys := (List.range xs.length).map fun i => pval c xs.length (xs.getD i 0)) hnd h0 (by simp) (c := c) le_rfl
    (fun i hi => by rw [getD_map_range, if_pos hi])
  obtain ⟨r2, e2, _, h2⟩ := lagrangeInterpolate_coeffs
    (ys := (List.range xs.length).map fun i => pval c xs.length (xs.getD i 0)) hnd h0 (by simp) (c := c') le_rfl
    (fun i hi => by rw [getD_map_range, if_pos hi, h i hi])
  rw [e1] at e2
  cases e2
  have := h1 j
  rw [h2 j, if_pos hj, if_pos hj] at this
  exact this.symm

/-! ### `lagrange_unpack` -/

theorem PSS.lagrangeUnpack_of_points {pp : PSS F} (hg : pp.Good) (dbg : Bool) {parties : List Nat}
    (hnd : parties.Nodup) (hlt : ∀ p ∈ parties, p < 4 * pp.l) {d : Nat} (hd : d ≤ parties.length)
    (hd4 : d ≤ 4 * pp.l)
    (hdbg : dbg = true → 4 * pp.l - 1 ≤ parties.length)
    {c : Nat → T} {vals secrets : List T} (hvl : vals.length = parties.length)
    (hv : ∀ i < parties.length, vals.getD i 0 = pval c d (pp.share.groupGen ^ parties.getD i 0))
    (h2 : secrets.length = pp.l)
    (h4 : ∀ k < pp.l, secrets.getD k 0 = pval c d (pp.secret.offset * (pp.share.groupGen ^ 2) ^ k)) :
    pp.lagrangeUnpack dbg vals parties = .ok secrets := by
  have hlpos := hg.lpos
  have hw0 : pp.share.groupGen ≠ 0 := hg.share_wf.prim.ne_zero hg.share_wf.pos.ne'
  unfold PSS.lagrangeUnpack
  have e1 : debugAssert dbg (vals.length == parties.length) = .ok () := debugAssert_of (by simp [hvl])
  have e2 : debugAssert dbg (decide (parties.length > 2 * (pp.t + pp.l - 1))) = .ok () := by
    cases dbg
    · simp
    · apply debugAssert_of
      have := hdbg rfl
      have := hg.t_eq
      simp; omega
  simp only [e1, e2, ok_bind]
  have e3 : parties.mapM (fun p => rd pp.share.elements p) =
      .ok (parties.map fun p => pp.share.groupGen ^ p) := by
    apply mapM_ok
    intro p hp
    have hp := hlt p hp
    rw [rd_ok (by simp [Domain.elements, hg.share_size]; exact hp) 0, Domain.elements,
      getD_map_range, if_pos (by rw [hg.share_size]; exact hp), hg.share_element]
  rw [e3, ok_bind]
  have hxnd : (parties.map fun p => pp.share.groupGen ^ p).Nodup := by
    apply hnd.map_on
    intro x hx y hy hxy
    apply hg.share_wf.prim.pow_inj _ _ hxy <;> rw [hg.share_size]
    · exact hlt x hx
    · exact hlt y hy
  obtain ⟨res, er, r1, r2⟩ := lagrangeInterpolate_coeffs (ys := vals) hxnd
    (by simp [hw0]) (by simp [hvl]) (c := c) (d := d) (by simpa using hd)
    (by
      intro i hi
      have hi : i < parties.length := by simpa using hi
      rw [hv i hi, getD_map_of_lt (fun p => pp.share.groupGen ^ p) parties i 0 0 hi])
  rw [er, ok_bind]
  exact PSS.secret2_eval hg hd4 (fun j _ => r2 j) h2 h4

/-- `lagrange_unpack` on the shares of enough distinct parties. -/
theorem PSS.lagrangeUnpack_of_shares {pp : PSS F} (hg : pp.Good) (dbg : Bool) {parties : List Nat}
    (hnd : parties.Nodup) (hlt : ∀ p ∈ parties, p < 4 * pp.l) {d : Nat} (hd : d ≤ parties.length)
    (hdbg : dbg = true → 4 * pp.l - 1 ≤ parties.length)
    {shares secrets : List T} (h : pp.Shares d shares secrets) :
    pp.lagrangeUnpack dbg (parties.map fun p => shares.getD p 0) parties = .ok secrets := by
  obtain ⟨h1, h2, c, h3, h4⟩ := h
  have hle : parties.length ≤ 4 * pp.l := by
    have hsub : parties.toFinset ⊆ range (4 * pp.l) := by
      intro p hp
      exact mem_range.2 (hlt p (List.mem_toFinset.1 hp))
    have := card_le_card hsub
    rwa [List.toFinset_card_of_nodup hnd, card_range] at this
  apply PSS.lagrangeUnpack_of_points hg dbg hnd hlt hd (by omega) hdbg (c := c) (by simp) _ h2 h4
  intro i hi
  rw [getD_map_of_lt (fun p => shares.getD p 0) parties i 0 0 hi, h3]
  exact hlt _ (getD_mem 0 hi)

/-! ### Parameter construction -/

theorem PSS.new_too_large [FftField F] (dbg : Bool) {l : Nat}
    (h : FftField.TWO_ADICITY F < Nat.clog 2 (l * 4)) : PSS.new (F := F) dbg l = panic' := by
  unfold PSS.new
  simp only
  rw [debugAssert_of (by simp; ring), ok_bind, Domain.new_none h]
  rfl

theorem not_pow2_size {l : Nat} (h : ∀ b, l ≠ 2 ^ b) : 2 ^ Nat.clog 2 (l * 4) ≠ l * 4 := by
  intro hh
  have h4 : 4 ∣ 2 ^ Nat.clog 2 (l * 4) := ⟨l, by rw [hh]; ring⟩
  have h2 : 2 ≤ Nat.clog 2 (l * 4) := by
    by_contra hcon
    have : Nat.clog 2 (l * 4) = 0 ∨ Nat.clog 2 (l * 4) = 1 := by omega
    rcases this with h0 | h0 <;> rw [h0] at h4 <;> norm_num at h4
  obtain ⟨b, hb⟩ := Nat.exists_eq_add_of_le h2
  apply h b
  rw [hb, pow_add] at hh
  omega

theorem PSS.new_debug_not_pow2 [FftField F] (l : Nat) (h : ∀ b, l ≠ 2 ^ b) :
    PSS.new (F := F) true l = panic' := by
  by_cases hle : FftField.TWO_ADICITY F < Nat.clog 2 (l * 4)
  · exact PSS.new_too_large true hle
  · have hgen : (FftField.GENERATOR : F) ≠ 0 := FftField.generator_ne_zero
    have h1 : Nat.clog 2 (l + l) ≤ FftField.TWO_ADICITY F :=
      le_trans (Nat.clog_mono_right 2 (by omega)) (Nat.le_of_not_lt hle)
    have h2 : Nat.clog 2 (2 * (l + l)) ≤ FftField.TWO_ADICITY F :=
      le_trans (Nat.clog_mono_right 2 (by omega)) (Nat.le_of_not_lt hle)
    unfold PSS.new
    simp only
    rw [debugAssert_of (by simp; ring), Domain.new_eq rfl (Nat.le_of_not_lt hle), Domain.new_eq rfl h1,
      Domain.new_eq rfl h2]
    simp only [ok_bind, unwrap_some, Domain.getCoset, if_neg hgen]
    have : (2 ^ Nat.clog 2 (l * 4) == l * 4) = false := by simpa using not_pow2_size h
    rw [this]
    simp

theorem PSS.new_release_not_pow2 [FftField F] (l : Nat) (h : ∀ b, l ≠ 2 ^ b)
    (hle : 4 * l ≤ 2 ^ FftField.TWO_ADICITY F) :
    ∃ pp, PSS.new (F := F) false l = .ok pp ∧ pp.n = 4 * l ∧ pp.share.size ≠ 4 * l := by
  have hgen : (FftField.GENERATOR : F) ≠ 0 := FftField.generator_ne_zero
  have h0 : Nat.clog 2 (l * 4) ≤ FftField.TWO_ADICITY F := by
    apply Nat.clog_le_of_le_pow
    omega
  have h1 : Nat.clog 2 (l + l) ≤ FftField.TWO_ADICITY F :=
    le_trans (Nat.clog_mono_right 2 (by omega)) h0
  have h2 : Nat.clog 2 (2 * (l + l)) ≤ FftField.TWO_ADICITY F :=
    le_trans (Nat.clog_mono_right 2 (by omega)) h0
  unfold PSS.new
  simp only
  rw [Domain.new_eq rfl h0, Domain.new_eq rfl h1, Domain.new_eq rfl h2]
  simp only [ok_bind, unwrap_some, Domain.getCoset, if_neg hgen, debugAssert_release, pure_ok]
  refine ⟨_, rfl, by simp; ring, ?_⟩
  have := not_pow2_size h
  simp only
  rw [mul_comm 4 l]
  exact this

theorem PSS.pack_release (pp : PSS F) (secrets : List T) (rng : Nat → T) :
    pp.pack false secrets rng = .ok (pp.share.fft (pp.packCoeffs secrets rng)) := by
  simp [PSS.pack, PSS.packCoeffs]

/-! ### Privacy -/

theorem PSS.packCoeffs_congr {pp : PSS F} {secrets : List T} {r r' : Nat → T}
    (h : ∀ i < pp.t, r i = r' i) : pp.packCoeffs secrets r = pp.packCoeffs secrets r' := by
  unfold PSS.packCoeffs
  congr 2
  apply List.map_congr_left
  intro i hi
  exact h i (List.mem_range.1 hi)

/-- Any `l` shares are in bijection with the `l` random values. -/
theorem PSS.privacy {pp : PSS F} (hg : pp.Good) (hgen : pp.secret.offset ^ (4 * pp.l) ≠ 1)
    {secrets : List T} (hl : secrets.length = pp.l) (P : Nat → Nat)
    (hinj : ∀ i < pp.l, ∀ j < pp.l, P i = P j → i = j) (hlt : ∀ i < pp.l, P i < 4 * pp.l)
    (view : Nat → T) :
    (∃ r : Nat → T, ∀ i < pp.l, (pp.share.fft (pp.packCoeffs secrets r)).getD (P i) 0 = view i) ∧
    (∀ r r' : Nat → T, (∀ i < pp.l, (pp.share.fft (pp.packCoeffs secrets r)).getD (P i) 0 =
        (pp.share.fft (pp.packCoeffs secrets r')).getD (P i) 0) → ∀ i < pp.l, r i = r' i) := by
  have hw0 : pp.share.groupGen ≠ 0 := hg.share_wf.prim.ne_zero hg.share_wf.pos.ne'
  have hw1 : pp.share.groupGen ^ (4 * pp.l) = 1 := by
    rw [← hg.share_size]; exact hg.share_wf.prim.pow_eq_one
  have hs0 : pp.secret.offset ≠ 0 := hg.secret_wf.offne
  -- the 2l distinct points: l secret points and the l share points of the coalition
  let xs : List F := (List.range pp.l).map (fun k => pp.secret.offset * (pp.share.groupGen ^ 2) ^ k) ++
    (List.range pp.l).map (fun i => pp.share.groupGen ^ P i)
  have hxlen : xs.length = 2 * pp.l := by simp [xs]; omega
  have hx1 : ∀ k < pp.l, xs.getD k 0 = pp.secret.offset * (pp.share.groupGen ^ 2) ^ k := by
    intro k hk
    rw [getD_append', if_pos (by simpa using hk), getD_map_range, if_pos hk]
  have hx2 : ∀ k < pp.l, xs.getD (pp.l + k) 0 = pp.share.groupGen ^ P k := by
    intro k hk
    rw [getD_append', if_neg (by simp), getD_map_range]
    simp [hk]
  have h0 : (0 : F) ∉ xs := by
    simp [xs, hs0, hw0]
  have hnd : xs.Nodup := by
    apply List.Nodup.append
    · apply List.nodup_range.map_on
      intro x hx y hy hxy
      have hxy := mul_left_cancel₀ hs0 hxy
      rw [← hg.secret_gen] at hxy
      have hx := List.mem_range.1 hx
      have hy := List.mem_range.1 hy
      apply hg.secret_wf.prim.pow_inj _ _ hxy <;> rw [hg.secret_size] <;> omega
    · apply List.nodup_range.map_on
      intro x hx y hy hxy
      have hx := List.mem_range.1 hx
      have hy := List.mem_range.1 hy
      apply hinj x hx y hy
      apply hg.share_wf.prim.pow_inj _ _ hxy <;> rw [hg.share_size]
      · exact hlt x hx
      · exact hlt y hy
    · intro z hz1 hz2
      obtain ⟨k, _, rfl⟩ := List.mem_map.1 hz1
      obtain ⟨i, _, hi⟩ := List.mem_map.1 hz2
      apply hgen
      have := congrArg (· ^ (4 * pp.l)) hi
      simp only [mul_pow] at this
      rw [← pow_mul, mul_comm (P i), pow_mul, hw1, one_pow, ← pow_mul, ← pow_mul,
        show 2 * (k * (4 * pp.l)) = 4 * pp.l * (2 * k) by ring, pow_mul pp.share.groupGen, hw1, one_pow, mul_one] at this
      exact this.symm
  -- coefficients of a packing and their values at the points
  have hpk : ∀ r : Nat → T, ∀ i < 4 * pp.l, (pp.share.fft (pp.packCoeffs secrets r)).getD i 0 =
      pval (fun j => (pp.packCoeffs secrets r).getD j 0) (2 * pp.l) (pp.share.groupGen ^ i) := fun r i hi =>
    PSS.fft_share hg (by simp [PSS.packCoeffs, hg.secret_size]) (by omega) hi
  have hsec : ∀ r : Nat → T, ∀ k < 2 * pp.l,
      pval (fun j => (pp.packCoeffs secrets r).getD j 0) (2 * pp.l)
        (pp.secret.offset * (pp.share.groupGen ^ 2) ^ k) = if k < pp.l then secrets.getD k 0 else r (k - pp.l) := by
    intro r k hk
    have := Domain.eval_ifft hg.secret_wf (secrets ++ (List.range pp.t).map r) (i := k)
      (by rw [hg.secret_size]; omega)
    rw [hg.secret_element, hg.secret_size, getD_append', hl, getD_map_range, hg.t_eq] at this
    rw [if_pos (by omega : k - pp.l < pp.l)] at this
    rw [← this, PSS.packCoeffs, hg.t_eq]
    rfl
  constructor
  · obtain ⟨c, hc⟩ := interp_exists hnd h0 (fun i => if i < pp.l then secrets.getD i 0 else view (i - pp.l))
    rw [hxlen] at hc
    refine ⟨fun k => pval c (2 * pp.l) (pp.secret.offset * (pp.share.groupGen ^ 2) ^ (pp.l + k)), ?_⟩
    intro i hi
    set r : Nat → T := fun k => pval c (2 * pp.l) (pp.secret.offset * (pp.share.groupGen ^ 2) ^ (pp.l + k))
    have hcoef : pp.packCoeffs secrets r = (List.range (2 * pp.l)).map c := by
      unfold PSS.packCoeffs
      rw [← hg.secret_size]
      apply Domain.ifft_evals hg.secret_wf
      intro k hk
      rw [hg.secret_size] at hk
      rw [getD_append', getD_map_range, hl, hg.t_eq, hg.secret_element, hg.secret_size]
      split
      · rename_i hkl
        have := hc k (by omega)
        rw [if_pos hkl, hx1 k hkl] at this
        exact this.symm
      · rw [if_pos (by omega)]
        show pval c _ _ = _
        rw [show pp.l + (k - pp.l) = k by omega]
        rfl
    rw [hpk r (P i) (hlt i hi), hcoef]
    have := hc (pp.l + i) (by omega)
    rw [if_neg (by omega), hx2 i hi, Nat.add_sub_cancel_left] at this
    rw [← this]
    apply pval_congr
    intro j hj
    rw [getD_map_range, if_pos hj]
  · intro r r' h
    have hcc := interp_unique hnd h0 (c := fun j => (pp.packCoeffs secrets r).getD j 0)
      (c' := fun j => (pp.packCoeffs secrets r').getD j 0) (by
        intro i hi
        rw [hxlen] at hi ⊢
        by_cases hil : i < pp.l
        · rw [hx1 i hil, hsec r i hi, hsec r' i hi, if_pos hil, if_pos hil]
        · obtain ⟨k, rfl⟩ := Nat.exists_eq_add_of_le (Nat.le_of_not_lt hil)
          rw [hx2 k (by omega), ← hpk r _ (hlt k (by omega)), ← hpk r' _ (hlt k (by omega))]
          exact h k (by omega))
    rw [hxlen] at hcc
    intro i hi
    have h1 := hsec r (pp.l + i) (by omega)
    have h2 := hsec r' (pp.l + i) (by omega)
    rw [if_neg (by omega), Nat.add_sub_cancel_left] at h1 h2
    rw [← h1, ← h2]
    exact pval_congr hcc _

end ZkSaas
