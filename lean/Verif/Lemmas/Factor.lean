import Verif.Lemmas.KingView
import Verif.Lemmas.Gao
import Mathlib.LinearAlgebra.Lagrange

/-!
# Division of a masked product by one of its factors
-/

namespace ZkSaas

open Finset Polynomial Spec

variable {F : Type} [Field F]

/-- Dividing `f · h + m` by `f` gives `h` up to a constant, when the mask `m` has at most the degree of `f`. -/
theorem div_masked {f h m : F[X]} (hf : f ≠ 0) (hm : m.degree ≤ f.degree) : ∃ κ : F, (f * h + m) / f = h + C κ := by
  have h1 := EuclideanDomain.div_add_mod (f * h + m) f
  have h2 : ((f * h + m) % f).degree < f.degree := EuclideanDomain.mod_lt _ hf
  set Q := (f * h + m) / f
  set R := (f * h + m) % f
  have h3 : f * (Q - h) = m - R := by linear_combination h1
  have h4 : (f * (Q - h)).degree ≤ f.degree := by
    rw [h3]
    exact (degree_sub_le _ _).trans (max_le hm h2.le)
  have h5 : (Q - h).degree ≤ 0 := by
    by_contra hc
    have hc : 0 < (Q - h).degree := not_le.1 hc
    rw [degree_mul] at h4
    have h0 : f.degree ≠ ⊥ := fun e => hf (degree_eq_bot.1 e)
    have := WithBot.add_lt_add_left h0 hc
    rw [add_zero] at this
    exact absurd h4 (not_le.2 this)
  exact ⟨(Q - h).coeff 0, by rw [← eq_C_of_degree_le_zero h5]; ring⟩

/-- A sequence of coefficients as a polynomial. -/
noncomputable def polyOf (c : Nat → F) (d : Nat) : F[X] := ∑ j ∈ range d, monomial j (c j)

theorem polyOf_eval (c : Nat → F) (d : Nat) (x : F) : (polyOf c d).eval x = pval c d x := by
  rw [polyOf, eval_finsetSum, pval]
  exact sum_congr rfl fun j _ => by rw [eval_monomial, smul_eq_mul, mul_comm]

theorem polyOf_coeff (c : Nat → F) (d j : Nat) : (polyOf c d).coeff j = if j < d then c j else 0 := by
  rw [polyOf, finsetSum_coeff]
  simp only [coeff_monomial]
  rw [Finset.sum_ite_eq' (range d) j c]
  simp

theorem polyOf_degree_lt (c : Nat → F) (d : Nat) : (polyOf c d).degree < d := by
  rw [degree_lt_iff_coeff_zero]
  intro m hm
  rw [polyOf_coeff, if_neg (by omega)]

theorem pval_of_poly {p : F[X]} {d : Nat} (hp : p.degree < d) (x : F) : pval p.coeff d x = p.eval x := by
  rw [← polyOf_eval]
  congr 1
  ext j
  rw [polyOf_coeff]
  split
  · rfl
  · next h => exact ((degree_lt_iff_coeff_zero _ _).1 hp j (by omega)).symm

/-- A sharing is a polynomial that takes the values. -/
theorem sharing_iff_poly {ω g : F} {l d : Nat} {shares secrets : List F} :
    Sharing ω g l d shares secrets ↔ shares.length = 4 * l ∧ secrets.length = l ∧ ∃ p : F[X], p.degree < d ∧
      (∀ i < 4 * l, shares.getD i 0 = p.eval (ω ^ i)) ∧ ∀ k < l, secrets.getD k 0 = p.eval (g * (ω ^ 2) ^ k) := by
  constructor
  · rintro ⟨h1, h2, c, h3, h4⟩
    exact ⟨h1, h2, polyOf c d, polyOf_degree_lt c d, fun i hi => by rw [h3 i hi, polyOf_eval], fun k hk => by rw [h4 k hk, polyOf_eval]⟩
  · rintro ⟨h1, h2, p, hp, h3, h4⟩
    exact ⟨h1, h2, p.coeff, fun i hi => by rw [h3 i hi, pval_of_poly hp], fun k hk => by rw [h4 k hk, pval_of_poly hp]⟩

/-- The polynomial with fewer than `2l` coefficients that takes given values in the `l` secret points and in the share points of `l`
parties. -/
noncomputable def throughPoints (pp : PSS F) (l : Nat) (P : Fin l → Nat) (secrets shares : Fin l → F) : F[X] :=
  Lagrange.interpolate univ (Sum.elim (fun k : Fin l => pp.secret.offset * (pp.share.groupGen ^ 2) ^ k.val) fun i => pp.share.groupGen ^ P i)
    (Sum.elim secrets shares)

/-- The secret points and the share points of `l` parties are different. -/
theorem nodes_injective {pp : PSS F} (hg : pp.Good) {l : Nat} (hle : pp.l = l) (hgen : pp.secret.offset ^ (4 * l) ≠ 1) (P : Fin l → Nat)
    (hinj : Function.Injective P) (hlt : ∀ i, P i < 4 * l) :
    Set.InjOn (Sum.elim (fun k : Fin l => pp.secret.offset * (pp.share.groupGen ^ 2) ^ k.val) fun i => pp.share.groupGen ^ P i)
      (univ : Finset (Fin l ⊕ Fin l)) := by
  subst hle
  have hl := hg.lpos
  have hw : pp.share.groupGen ^ (4 * pp.l) = 1 := by rw [← hg.share_size]; exact hg.share_wf.prim.pow_eq_one
  have hinjω := hg.share_wf.prim.pow_inj
  have hoff : pp.secret.offset ≠ 0 := hg.secret_wf.offne
  have cross : ∀ (k : Fin pp.l) (i : Fin pp.l), pp.secret.offset * (pp.share.groupGen ^ 2) ^ k.val ≠ pp.share.groupGen ^ P i := by
    intro k i h
    apply hgen
    have := congrArg (· ^ (4 * pp.l)) h
    simp only [mul_pow, ← pow_mul] at this
    rw [mul_comm (2 * k.val), pow_mul pp.share.groupGen (4 * pp.l), hw, one_pow, mul_one, mul_comm (P i), pow_mul pp.share.groupGen (4 * pp.l),
      hw, one_pow] at this
    exact this
  rintro (k | i) - (k' | i') - h
  · simp only [Sum.elim_inl] at h
    have h := mul_left_cancel₀ hoff h
    rw [← pow_mul, ← pow_mul] at h
    have := hinjω (by rw [hg.share_size]; omega) (by rw [hg.share_size]; omega) h
    exact congrArg Sum.inl (Fin.ext (by omega))
  · exact absurd h (cross k i')
  · exact absurd h.symm (cross k' i)
  · simp only [Sum.elim_inr] at h
    have := hinjω (by rw [hg.share_size]; exact hlt i) (by rw [hg.share_size]; exact hlt i') h
    exact congrArg Sum.inr (hinj this)

theorem throughPoints_eq {pp : PSS F} (hg : pp.Good) {l : Nat} (hle : pp.l = l) (hgen : pp.secret.offset ^ (4 * l) ≠ 1) (P : Fin l → Nat)
    (hinj : Function.Injective P) (hlt : ∀ i, P i < 4 * l) {f : F[X]} (hf : f.degree < (2 * l : Nat)) :
    throughPoints pp l P (fun k => f.eval (pp.secret.offset * (pp.share.groupGen ^ 2) ^ k.val)) (fun i => f.eval (pp.share.groupGen ^ P i)) = f := by
  symm
  unfold throughPoints
  refine Lagrange.eq_interpolate_of_eval_eq _ (nodes_injective hg hle hgen P hinj hlt) (lt_of_lt_of_eq hf ?_) ?_
  · rw [card_univ, Fintype.card_sum, Fintype.card_fin]
    congr 1
    omega
  · rintro (k | i) -
    · rfl
    · rfl

/-- What division by one factor of a masked product shows of the other factor. -/
theorem factor_revealed [DecidableEq F] {pp : PSS F} (hg : pp.Good) {l : Nat} (hle : pp.l = l) {f h m : F[X]} (hf : f.degree < (2 * l : Nat))
    (hf1 : f.coeff (2 * l - 1) ≠ 0) (hh : h.degree < (2 * l : Nat)) (hm : m.degree < (2 * l : Nat)) {col : List F}
    (hcol : ∀ p < 4 * l, col.getD p 0 = f.eval (pp.share.groupGen ^ p) * h.eval (pp.share.groupGen ^ p) + m.eval (pp.share.groupGen ^ p)) :
    ∃ κ, toPoly (pp.share.ifft col) / f = h + C κ := by
  subst hle
  have hl := hg.lpos
  have hfd : f.degree = ((2 * pp.l - 1 : Nat) : WithBot Nat) := by
    refine le_antisymm ?_ (le_degree_of_ne_zero hf1)
    rw [degree_lt_iff_coeff_zero] at hf
    rw [degree_le_iff_coeff_zero]
    intro n hn
    exact hf n (by have : 2 * pp.l - 1 < n := by exact_mod_cast hn
                   omega)
  have hR : toPoly (pp.share.ifft col) = f * h + m := by
    apply eq_of_degrees_lt_of_eval_index_eq (s := Finset.range (4 * pp.l))
      (v := fun i => pp.share.groupGen ^ i) (share_points_injOn hg)
    · have := toPoly_degree_lt (pp.share.ifft col)
      rwa [Domain.ifft_length, hg.share_size, ← Finset.card_range (4 * pp.l)] at this
    · rw [Finset.card_range, degree_lt_iff_coeff_zero]
      intro n hn
      have h1 : (f * h).coeff n = 0 := by
        by_cases h0 : f * h = 0
        · rw [h0, coeff_zero]
        apply coeff_eq_zero_of_natDegree_lt
        have hne := mul_ne_zero_iff.1 h0
        rw [natDegree_mul hne.1 hne.2]
        have a1 := (natDegree_lt_iff_degree_lt hne.1).2 hf
        have a2 := (natDegree_lt_iff_degree_lt hne.2).2 hh
        omega
      rw [coeff_add, h1, (degree_lt_iff_coeff_zero _ _).1 hm n (by omega), add_zero]
    · intro i hi
      rw [toPoly_ifft_eval hg col (Finset.mem_range.1 hi), hcol i (Finset.mem_range.1 hi), eval_add, eval_mul]
  rw [hR]
  have hf0 : f ≠ 0 := by rintro rfl; exact hf1 (coeff_zero _)
  refine div_masked hf0 ?_
  rw [hfd, degree_le_iff_coeff_zero]
  intro n hn
  exact (degree_lt_iff_coeff_zero _ _).1 hm n (by have : 2 * pp.l - 1 < n := by exact_mod_cast hn
                                                  omega)

end ZkSaas
