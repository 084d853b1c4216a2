import Verif.Model.Utils
import Verif.Lemmas.Pss
import Verif.Spec.Poly
import Mathlib.LinearAlgebra.Lagrange
import Mathlib.Algebra.Polynomial.Div

/-! Lemmas about `secret-sharing/src/utils.rs`. -/

namespace ZkSaas

open Finset Spec Polynomial

set_option linter.unusedSectionVars false

variable {F : Type} [Field F]

theorem coeff_toPoly (p : List F) (j : Nat) : (toPoly p).coeff j = p.getD j 0 := by
  unfold toPoly
  rw [finset_sum_coeff]
  simp only [coeff_C_mul_X_pow]
  by_cases h : j < p.length
  · rw [sum_eq_single j]
    · simp
    · intro b _ hb; rw [if_neg (Ne.symm hb)]
    · intro hj; exact absurd (mem_range.2 h) hj
  · rw [getD_of_ge _ (Nat.le_of_not_lt h)]
    apply sum_eq_zero
    intro b hb
    have := mem_range.1 hb
    rw [if_neg (by omega)]

theorem toPoly_nil : toPoly ([] : List F) = 0 := by simp [toPoly]

theorem toPoly_cons (a : F) (p : List F) : toPoly (a :: p) = C a + X * toPoly p := by
  ext j
  rw [coeff_toPoly, coeff_add, coeff_C]
  cases j with
  | zero => simp
  | succ j => rw [coeff_X_mul, coeff_toPoly]; simp

theorem toPoly_degree_lt (p : List F) : (toPoly p).degree < p.length := by
  rw [degree_lt_iff_coeff_zero]
  intro m hm
  rw [coeff_toPoly, getD_of_ge _ hm]

theorem toPoly_eval (p : List F) (x : F) :
    (toPoly p).eval x = ∑ j ∈ range p.length, x ^ j * p.getD j 0 := by
  unfold toPoly
  rw [eval_finset_sum]
  exact sum_congr rfl fun j _ => by rw [eval_mul, eval_C, eval_pow, eval_X, mul_comm]

theorem eval_cons (a : F) (p : List F) (x : F) : eval (a :: p) x = eval p x * x + a := by
  simp [eval, List.foldl_append]

theorem eval_eq (p : List F) (x : F) : eval p x = (toPoly p).eval x := by
  induction p with
  | nil => simp [eval, toPoly_nil]
  | cons a p ih => rw [eval_cons, ih, toPoly_cons]; simp; ring

/-! ### Synthetic division -/

theorem synDiv1_spec (b : F) (p : List F) :
    (synDiv1 b p).1.length = p.length ∧
    (∀ j, p.length ≤ j + 1 → (synDiv1 b p).1.getD j 0 = 0) ∧
    toPoly p = toPoly (synDiv1 b p).1 * (X - C b) + C (synDiv1 b p).2 := by
  induction p with
  | nil => simp [synDiv1, toPoly_nil]
  | cons x xs ih =>
    obtain ⟨h1, h2, h3⟩ := ih
    refine ⟨by simp [synDiv1, h1], ?_, ?_⟩
    · intro j hj
      simp only [synDiv1]
      cases j with
      | zero =>
        have : xs = [] := by
          cases xs with
          | nil => rfl
          | cons y ys => simp at hj
        subst this
        simp [synDiv1]
      | succ j =>
        have := h2 j (by simpa using hj)
        simpa using this
    · simp only [synDiv1, toPoly_cons]
      rw [h3]
      simp only [C_add, C_mul]
      ring

theorem synDiv_loop (p : List F) (a : Nat) (b : F) (ha0 : 0 < a) (ha : a ≤ p.length) :
    ∃ s : List F, forDown (p.length - a)
        (fun i p => do wr p i ((← rd p i) + (← rd p (i + a)) * b)) p = .ok s ∧
      s.length = p.length ∧
      ∀ j < p.length, s.getD j 0 = p.getD j 0 + s.getD (j + a) 0 * b := by
  have := forDown_inv (n := p.length - a)
    (body := fun i p => do wr p i ((← rd p i) + (← rd p (i + a)) * b)) (s := p)
    (fun i s => s.length = p.length ∧ (∀ j < i, s.getD j 0 = p.getD j 0) ∧
      ∀ j, i ≤ j → j < p.length → s.getD j 0 = p.getD j 0 + s.getD (j + a) 0 * b)
    ⟨rfl, fun _ _ => rfl, fun j h1 h2 => by rw [getD_of_ge (i := j + a) _ (by omega)]; simp⟩
    (by
      rintro i hi s ⟨h1, h2, h3⟩
      have hi' : i < s.length := by omega
      have hia : i + a < s.length := by omega
      refine ⟨_, by simp only [rd_ok hi' 0, rd_ok hia 0, ok_bind]; rw [wr_ok hi'], by simp [h1], ?_, ?_⟩
      · intro j hj
        rw [getD_set, if_neg (by omega)]
        exact h2 j (by omega)
      · intro j hj hjl
        by_cases hij : i = j
        · subst hij
          rw [getD_set, if_pos ⟨rfl, hi'⟩, getD_set, h2 i (by omega)]
          rw [if_neg (by omega)]
        · rw [getD_set, if_neg (by omega), getD_set, if_neg (by omega)]
          exact h3 j (by omega) hjl)
  obtain ⟨s, e, h1, _, h3⟩ := this
  exact ⟨s, e, h1, fun j hj => h3 j (Nat.zero_le _) hj⟩

variable [DecidableEq F]

theorem synDivInPlace_general {p : List F} {a : Nat} {b : F} (ha : a ≠ 0) (hb : b ≠ 0)
    (hl : a < p.length) (h1 : a ≠ 1) :
    ∃ s : List F, s.length = p.length ∧
      (∀ j < p.length, s.getD j 0 = p.getD j 0 + s.getD (j + a) 0 * b) ∧
      synDivInPlace p a b = .ok (s.drop a ++ List.replicate a 0) := by
  obtain ⟨s, e, hs1, hs2⟩ := synDiv_loop p a b (by omega) hl.le
  refine ⟨s, hs1, hs2, ?_⟩
  have hsh : ∀ s : List F, s.length = p.length →
      (s.drop a ++ s.drop (p.length - a)).take (p.length - a) = s.drop a := by
    intro s h
    rw [List.take_append_of_le_length (by simp [h]), List.take_of_length_le (by simp [h])]
  unfold synDivInPlace
  have e1 : assert (a != 0) = .ok () := assert_of (by simp [ha])
  have e2 : assert (b != 0) = .ok () := assert_of (by simp [hb])
  have e3 : assert (decide (p.length > a)) = .ok () := by simp [hl]
  rw [e1, e2, e3]
  simp only [ok_bind, if_neg h1]
  by_cases hb1 : b = 1
  · subst hb1
    simp only [mul_one] at e
    rw [if_pos rfl, e]
    simp only [ok_bind, pure_ok]
    rw [hsh s hs1]
  · rw [if_neg hb1, e]
    simp only [ok_bind, pure_ok]
    rw [hsh s hs1]

theorem synDiv_ok {p : List F} {a : Nat} {b : F} (ha : a ≠ 0) (hb : b ≠ 0) (hl : a < p.length) :
    ∃ q : List F, synDiv p a b = .ok q ∧ q.length = p.length ∧
      (∀ j, p.length ≤ j + a → q.getD j 0 = 0) ∧
      ∃ r : F[X], r.degree < a ∧ toPoly p = toPoly q * (X ^ a - C b) + r := by
  by_cases h1 : a = 1
  · subst h1
    obtain ⟨h1, h2, h3⟩ := synDiv1_spec b p
    refine ⟨(synDiv1 b p).1, ?_, h1, h2, C (synDiv1 b p).2, ?_, ?_⟩
    · unfold synDiv synDivInPlace
      have e2 : assert (b != 0) = .ok () := assert_of (by simp [hb])
      have e3 : assert (decide (p.length > 1)) = .ok () := by simp [hl]
      rw [e2, e3]
      simp
    · exact lt_of_le_of_lt degree_C_le (by norm_num)
    · rw [pow_one]; exact h3
  · obtain ⟨s, hs1, hs2, e⟩ := synDivInPlace_general ha hb hl h1
    have hq : ∀ j, (s.drop a ++ List.replicate a 0).getD j 0 = s.getD (j + a) 0 := by
      intro j
      rw [getD_append', getD_drop, getD_replicate_self]
      split
      · rw [add_comm]
      · rename_i h
        rw [getD_of_ge _ (by simp at h; omega)]
    refine ⟨_, e, by simp [hs1]; omega, ?_, toPoly (s.take a), ?_, ?_⟩
    · intro j hj
      rw [hq, getD_of_ge _ (by omega)]
    · refine lt_of_lt_of_le (toPoly_degree_lt _) ?_
      simp
    · ext j
      rw [coeff_add, mul_sub, coeff_sub, coeff_mul_X_pow', coeff_mul_C, coeff_toPoly, coeff_toPoly,
        coeff_toPoly, coeff_toPoly, hq, hq, getD_take]
      by_cases hj : j < p.length
      · have := hs2 j hj
        by_cases hja : a ≤ j
        · rw [if_pos hja, if_neg (by omega), Nat.sub_add_cancel hja, this]; ring
        · rw [if_neg hja, if_pos (by omega), this]; ring
      · rw [getD_of_ge _ (by omega : p.length ≤ j), getD_of_ge _ (by omega : s.length ≤ j + a),
          getD_of_ge _ (by omega : s.length ≤ j), getD_of_ge _ (by omega : s.length ≤ j - a + a)]
        simp

theorem synDiv_panic {p : List F} {a : Nat} {b : F} (h : a = 0 ∨ b = 0 ∨ p.length ≤ a) :
    synDiv p a b = panic' := by
  unfold synDiv synDivInPlace
  by_cases h1 : a = 0
  · simp [h1]
  by_cases h2 : b = 0
  · have e1 : assert (a != 0) = .ok () := assert_of (by simp [h1])
    rw [e1]
    simp [h2]
  have h3 : p.length ≤ a := by tauto
  have e1 : assert (a != 0) = .ok () := assert_of (by simp [h1])
  have e2 : assert (b != 0) = .ok () := assert_of (by simp [h2])
  have e3 : assert (decide (p.length > a)) = panic' := by
    rw [decide_eq_false (by omega)]; rfl
  rw [e1, e2, e3]
  simp

/-! ### get_zero_roots -/

theorem getZeroRoots_inner (v : List F) (x : F) (n m : Nat) (hm : m ≤ v.length - 1 - n) (hn : n < v.length) :
    ∃ w, forUp m (fun d result => do
        let j := n + d
        wr result j ((← rd result j) - (← rd result (j + 1)) * x)) v = .ok w ∧
      w.length = v.length ∧
      ∀ j, w.getD j 0 = if n ≤ j ∧ j < n + m then v.getD j 0 - v.getD (j + 1) 0 * x else v.getD j 0 := by
  apply forUp_inv (fun m (w : List F) => w.length = v.length ∧
      ∀ j, w.getD j 0 = if n ≤ j ∧ j < n + m then v.getD j 0 - v.getD (j + 1) 0 * x else v.getD j 0)
  · exact ⟨rfl, fun j => by rw [if_neg (by omega)]⟩
  · rintro i hi w ⟨h1, h2⟩
    have l1 : n + i < w.length := by omega
    have l2 : n + i + 1 < w.length := by omega
    refine ⟨_, by simp only [rd_ok l1 0, rd_ok l2 0, ok_bind]; rw [wr_ok l1], by simp [h1], ?_⟩
    intro j
    rw [getD_set]
    by_cases hj : n + i = j
    · subst hj
      rw [if_pos ⟨rfl, l1⟩, h2, h2, if_neg (by omega), if_neg (by omega), if_pos (by omega)]
    · rw [if_neg (by tauto), h2]
      by_cases hc : n ≤ j ∧ j < n + i
      · rw [if_pos hc, if_pos (by omega)]
      · rw [if_neg hc, if_neg (by omega)]

theorem getZeroRoots_ok (xs : List F) :
    ∃ v, getZeroRoots xs = .ok v ∧ v.length = xs.length + 1 ∧
      toPoly v = (xs.map fun x => X - C x).prod := by
  unfold getZeroRoots
  simp only
  rw [wr_ok (by simp), ok_bind]
  have := forUp_inv (n := xs.length) (body := fun i result => do
      let n := xs.length - 1 - i
      let result ← wr result n 0
      forUp (xs.length - n) (fun d result => do
        let j := n + d
        wr result j ((← rd result j) - (← rd result (j + 1)) * (← rd xs i))) result)
    (s := (List.replicate (xs.length + 1) (0 : F)).set xs.length 1)
    (fun i v => v.length = xs.length + 1 ∧
      ∀ j, j ≤ i → v.getD (xs.length - i + j) 0 = ((xs.take i).map fun x => X - C x).prod.coeff j)
    ⟨by simp, by
      intro j hj
      have : j = 0 := by omega
      subst this
      rw [getD_set, if_pos (by simp)]
      simp⟩
    (by
      rintro i hi v ⟨h1, h2⟩
      have hx : rd xs i = .ok (xs.getD i 0) := rd_ok hi 0
      have hn : xs.length - 1 - i < v.length := by omega
      simp only [hx, ok_bind]
      rw [wr_ok hn, ok_bind]
      obtain ⟨w, e, w1, w2⟩ := getZeroRoots_inner (v.set (xs.length - 1 - i) 0) (xs.getD i 0)
        (xs.length - 1 - i) (xs.length - (xs.length - 1 - i)) (by simp; omega) (by simpa using hn)
      refine ⟨w, e, by simp [w1, h1], ?_⟩
      intro j hj
      have hprod : ((xs.take (i + 1)).map fun x => X - C x).prod
          = ((xs.take i).map fun x => X - C x).prod * (X - C (xs.getD i 0)) := by
        rw [List.take_succ_eq_append_getElem hi, List.map_append, List.prod_append]
        simp [List.getD, List.getElem?_eq_getElem hi]
      rw [hprod, mul_sub, coeff_sub, coeff_mul_C]
      have hdeg : ((xs.take i).map fun x => X - C x).prod.natDegree = i := by
        have := natDegree_multiset_prod_X_sub_C_eq_card ((xs.take i : List F) : Multiset F)
        simp only [Multiset.map_coe, Multiset.prod_coe, Multiset.coe_card] at this
        rw [this]; simp; omega
      have hmonic : ((xs.take i).map fun x => X - C x).prod.Monic := by
        have := monic_multiset_prod_of_monic ((xs.take i : List F) : Multiset F) (fun x => X - C x)
          (fun x _ => monic_X_sub_C x)
        simpa using this
      rw [w2]
      have e1 : ∀ k, (v.set (xs.length - 1 - i) 0).getD (xs.length - (i + 1) + (k + 1)) 0 =
          v.getD (xs.length - i + k) 0 := by
        intro k
        rw [getD_set, if_neg (by omega)]
        congr 1; omega
      by_cases hji : j = i + 1
      · subst hji
        rw [if_neg (by omega), e1, h2 i le_rfl, coeff_mul_X]
        have : ((xs.take i).map fun x => X - C x).prod.coeff (i + 1) = 0 :=
          coeff_eq_zero_of_natDegree_lt (by omega)
        rw [this]; simp
      · rw [if_pos (by omega)]
        cases j with
        | zero =>
          rw [getD_set, if_pos ⟨by omega, hn⟩]
          have := e1 0
          rw [zero_add] at this
          rw [Nat.add_zero, this, h2 0 (Nat.zero_le _)]
          simp
        | succ j =>
          have := e1 (j + 1)
          rw [e1 j, show xs.length - (i + 1) + (j + 1) + 1 = xs.length - (i + 1) + (j + 1 + 1) by omega, this,
            h2 j (by omega), h2 (j + 1) (by omega), coeff_mul_X])
  obtain ⟨v, e, h1, h2⟩ := this
  refine ⟨v, e, h1, ?_⟩
  have hdeg : (xs.map fun x => X - C x).prod.natDegree = xs.length := by
    have := natDegree_multiset_prod_X_sub_C_eq_card ((xs : List F) : Multiset F)
    simpa using this
  ext j
  rw [coeff_toPoly]
  by_cases hj : j ≤ xs.length
  · have := h2 j hj
    simpa using this
  · rw [getD_of_ge _ (by omega), coeff_eq_zero_of_natDegree_lt (by omega)]

end ZkSaas
