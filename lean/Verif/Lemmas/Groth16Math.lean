import Verif.Spec.Groth16
import Verif.Lemmas.ExtWit
import Mathlib.Algebra.BigOperators.Field
import Mathlib.Tactic.FieldSimp
import Mathlib.Tactic.LinearCombination

/-! The algebra behind Groth16: quadratic arithmetic programs, the circom `h` query, the verification equation. -/

set_option linter.unusedSectionVars false

namespace ZkSaas

open Finset Spec Polynomial

variable {F : Type} [Field F] [DecidableEq F]

theorem sum_odd {M : Type} [AddCommMonoid M] (f : Nat → M) (m : Nat) (h : ∀ i < m, f (2 * i) = 0) :
    ∑ i ∈ range m, f (2 * i + 1) = ∑ j ∈ range (2 * m), f j := by
  induction m with
  | zero => rfl
  | succ m ih =>
    rw [sum_range_succ, ih fun i hi => h i (by omega), show 2 * (m + 1) = 2 * m + 1 + 1 by ring, sum_range_succ, sum_range_succ,
      h m (by omega), add_zero]

theorem eval_eq_sum_coeff {P : F[X]} {d : Nat} (h : P.degree < d) (x : F) : P.eval x = ∑ j ∈ range d, x ^ j * P.coeff j := by
  rw [← evalAt_coeffs h x]
  unfold evalAt
  rw [List.length_map, List.length_range]
  apply sum_congr rfl
  intro j hj
  rw [getD_map_range, if_pos (mem_range.1 hj), smul_eq_mul]

/-- The coefficients from the values on a domain. -/
theorem coeff_of_evals {d : Domain F} (hd : d.WF) (hoff : d.offset = 1) {P : F[X]} (hP : P.degree < d.size) {k : Nat}
    (hk : k < d.size) : P.coeff k = (∑ j ∈ range d.size, (d.groupGen⁻¹ ^ j) ^ k * P.eval (d.groupGen ^ j)) / d.size := by
  have h := Domain.ifft_evals hd (e := (List.range d.size).map fun j => P.eval (d.groupGen ^ j)) (c := P.coeff) (by
    intro i hi
    rw [getD_map_range, if_pos hi, eval_eq_sum_coeff hP, Domain.element, hoff, one_mul]
    rfl)
  have h2 := congrArg (fun l => l.getD k 0) h
  simp only [Domain.ifft, getD_map_range, if_pos hk] at h2
  rw [← h2, evalAt_resize, hd.offinv, hoff, inv_one, one_pow, one_mul, hd.sinv, hd.ginv, smul_eq_mul, inv_mul_eq_div]
  congr 1
  apply sum_congr rfl
  intro j hj
  rw [getD_map_range, if_pos (mem_range.1 hj), smul_eq_mul, ← pow_mul, ← pow_mul, mul_comm k j]

/-- The circom `h` query evaluates a polynomial that vanishes on the small domain. -/
theorem circom_h_query {d : Domain F} (hd : d.WF) (hoff : d.offset = 1) {m : Nat} (hm : 0 < m) (hs : d.size = 2 * m) {P : F[X]}
    (hP : P.degree < (2 * m - 1 : Nat)) (h0 : ∀ i < m, P.eval (d.groupGen ^ (2 * i)) = 0) (τ δ : F) :
    ∑ i ∈ range m, P.eval (d.groupGen ^ (2 * i + 1)) *
      ((∑ k ∈ range (2 * m - 1), τ ^ k / δ * (d.groupGen⁻¹ ^ (2 * i + 1)) ^ k) / (2 * m : Nat)) = P.eval τ / δ := by
  rw [sum_odd (fun j => P.eval (d.groupGen ^ j) * ((∑ k ∈ range (2 * m - 1), τ ^ k / δ * (d.groupGen⁻¹ ^ j) ^ k) / (2 * m : Nat))) m
    (fun i hi => by rw [h0 i hi, zero_mul])]
  have hP2 : P.degree < d.size := lt_of_lt_of_le hP (by rw [hs]; exact_mod_cast (by omega : 2 * m - 1 ≤ 2 * m))
  rw [eval_eq_sum_coeff hP, sum_div]
  simp only [sum_div, mul_sum]
  rw [sum_comm]
  apply sum_congr rfl
  intro k hk
  have hk := mem_range.1 hk
  rw [coeff_of_evals hd hoff hP2 (by omega), hs, sum_div, mul_sum, sum_div]
  apply sum_congr rfl
  intro j _
  ring

theorem dot_eq_sum (row : List (F × Nat)) (z : List F) (h : ∀ t ∈ row, t.2 < z.length) :
    dot row z = ∑ k ∈ range z.length, z.getD k 0 * ((row.filter fun t => t.2 = k).map Prod.fst).sum := by
  induction row with
  | nil => simp [dot]
  | cons t row ih =>
    have hd : dot (t :: row) z = t.1 * z.getD t.2 0 + dot row z := by unfold dot; rw [List.map_cons, List.sum_cons]
    rw [hd, ih fun t' ht' => h t' (List.mem_cons_of_mem _ ht')]
    have : ∀ k, (((t :: row).filter fun t => t.2 = k).map Prod.fst).sum =
        (if t.2 = k then t.1 else 0) + ((row.filter fun t => t.2 = k).map Prod.fst).sum := by
      intro k
      by_cases hk : t.2 = k
      · rw [List.filter_cons_of_pos (by simpa using hk), if_pos hk, List.map_cons, List.sum_cons]
      · rw [List.filter_cons_of_neg (by simpa using hk), if_neg hk, zero_add]
    simp only [this, mul_add, sum_add_distrib]
    congr 1
    rw [sum_eq_single t.2 (fun k _ hk => by rw [if_neg (Ne.symm hk), mul_zero])
      (fun hk => absurd (mem_range.2 (h t (by simp))) hk), if_pos rfl, mul_comm]

/-- A row of a matrix applied to the assignment. -/
theorem dot_row {M : List (List (F × Nat))} {z : List F} (hc : ColumnsBelow z.length M) (i : Nat) :
    dot (M.getD i []) z = ∑ k ∈ range z.length, z.getD k 0 * entry M i k := by
  unfold entry
  apply dot_eq_sum
  by_cases hi : i < M.length
  · rw [List.getD_eq_getElem _ _ hi]; exact hc _ (List.getElem_mem hi)
  · rw [getD_of_ge _ (by omega)]; intro t ht; cases ht

/-- The polynomial `Σ zₖ·aₖ`. -/
noncomputable def combine (z : List F) (a : Nat → F[X]) : F[X] := ∑ k ∈ range z.length, C (z.getD k 0) * a k

theorem combine_eval (z : List F) (a : Nat → F[X]) (x : F) :
    (combine z a).eval x = ∑ k ∈ range z.length, z.getD k 0 * (a k).eval x := by
  unfold combine
  rw [eval_finsetSum]
  apply sum_congr rfl
  intro k _
  rw [eval_mul, eval_C]

theorem combine_interpolates {ω : F} {m : Nat} {z : List F} {a : Nat → F[X]} {v : Nat → Nat → F}
    (h : ∀ k < z.length, Interpolates ω m (v k) (a k)) :
    Interpolates ω m (fun i => ∑ k ∈ range z.length, z.getD k 0 * v k i) (combine z a) := by
  refine ⟨?_, fun i hi => ?_⟩
  · unfold combine
    refine lt_of_le_of_lt (degree_sum_le _ _) ?_
    refine (Finset.sup_lt_iff (WithBot.bot_lt_coe m)).2 fun k hk => ?_
    by_cases h0 : z.getD k 0 = 0
    · rw [h0, C_0, zero_mul, degree_zero]; exact WithBot.bot_lt_coe m
    · rw [degree_C_mul h0]; exact (h k (mem_range.1 hk)).1
  · rw [combine_eval]
    apply sum_congr rfl
    intro k hk
    rw [(h k (mem_range.1 hk)).2 i hi]

theorem Interpolates.congr {ω : F} {m : Nat} {v v' : Nat → F} {A : F[X]} (h : Interpolates ω m v A) (hv : ∀ i < m, v i = v' i) :
    Interpolates ω m v' A := ⟨h.1, fun i hi => (h.2 i hi).trans (hv i hi)⟩

section queries
variable {G : Type} [AddCommGroup G] [Module F G]

theorem msm_query {N : Nat} (x : Nat → F) (f : Nat → F) (g : G) :
    ∑ i ∈ range ((List.range N).map fun k => f k • g).length, x i • ((List.range N).map fun k => f k • g).getD i 0 =
      (∑ k ∈ range N, x k * f k) • g := by
  rw [List.length_map, List.length_range, sum_smul]
  apply sum_congr rfl
  intro k hk
  rw [getD_map_range, if_pos (mem_range.1 hk), mul_smul]

theorem cons_query {z : List F} {q0 : G} {qs : List G} {f : Nat → F} {g : G}
    (h : q0 :: qs = (List.range z.length).map fun k => f k • g) (hz : z.getD 0 0 = 1) :
    q0 + ∑ i ∈ range qs.length, (z.drop 1).getD i 0 • qs.getD i 0 = (∑ k ∈ range z.length, z.getD k 0 * f k) • g := by
  have hl := congrArg List.length h
  simp only [List.length_cons, List.length_map, List.length_range] at hl
  have hget : ∀ k, (q0 :: qs).getD k 0 = if k < z.length then f k • g else 0 := fun k => by rw [h, getD_map_range]
  rw [← hl, sum_range_succ', add_smul, hz, one_mul, add_comm, sum_smul]
  congr 1
  · apply sum_congr rfl
    intro k hk
    have hk := mem_range.1 hk
    have := hget (k + 1)
    rw [List.getD_cons_succ, if_pos (by omega)] at this
    rw [this, getD_drop, add_comm 1 k, mul_smul]
  · have := hget 0
    rwa [List.getD_cons_zero, if_pos (by omega)] at this

end queries

section equation
variable {G1 G2 GT : Type} [AddCommGroup G1] [Module F G1] [AddCommGroup G2] [Module F G2] [AddCommGroup GT] [Module F GT]

theorem take_query {z : List F} {ni : Nat} (hni : 1 ≤ ni) (hle : ni ≤ z.length) (hz : z.getD 0 0 = 1) (f : Nat → F) (g : G1) :
    ((List.range ni).map fun k => f k • g).getD 0 0 +
      ∑ i ∈ range ((z.take ni).drop 1).length, ((z.take ni).drop 1).getD i 0 • ((List.range ni).map fun k => f k • g).getD (i + 1) 0 =
      (∑ k ∈ range ni, z.getD k 0 * f k) • g := by
  obtain ⟨n, rfl⟩ : ∃ n, ni = n + 1 := ⟨ni - 1, by omega⟩
  have hl : ((z.take (n + 1)).drop 1).length = n := by simp; omega
  rw [hl, sum_range_succ', add_smul, sum_smul, hz, one_mul, add_comm, getD_map_range, if_pos (by omega)]
  congr 1
  apply sum_congr rfl
  intro k hk
  have hk := mem_range.1 hk
  rw [getD_map_range, if_pos (by omega), getD_drop, getD_take, if_pos (by omega), add_comm 1 k, mul_smul]

/-- What the prover computes is the proof of the paper; `x` are the values given to the `h` query, `p` what they evaluate to. -/
theorem groth16_values {t : Toxic F} {g1 : G1} {g2 : G2} {z : List F} {ni m : Nat} {w : F} {a b c : Nat → F[X]}
    {pk : ProvingKey G1 G2} (hk : IsCircomKey t g1 g2 z.length ni m w a b c pk)
    (hle : ni ≤ z.length) (hz : z.getD 0 0 = 1) (r s p : F) {x : Nat → F}
    {a0 b0 : G1} {v0 : G2} {as bs : List G1} {vs : List G2} (ha : pk.aQuery = a0 :: as) (hb : pk.bG1Query = b0 :: bs)
    (hv : pk.bG2Query = v0 :: vs) (hx : ∑ i ∈ range pk.hQuery.length, x i • pk.hQuery.getD i 0 = (p / t.delta) • g1)
    {pA pB1 pC : G1} {pB : G2}
    (hA : pA = a0 + r • pk.deltaG1 + (∑ i ∈ range as.length, (z.drop 1).getD i 0 • as.getD i 0) + pk.vk.alphaG1)
    (hB1 : pB1 = b0 + s • pk.deltaG1 + (∑ i ∈ range bs.length, (z.drop 1).getD i 0 • bs.getD i 0) + pk.betaG1)
    (hB : pB = v0 + s • pk.vk.deltaG2 + (∑ i ∈ range vs.length, (z.drop 1).getD i 0 • vs.getD i 0) + pk.vk.betaG2)
    (hC : pC = s • pA + r • pB1 - (r * s) • pk.deltaG1 +
      (∑ i ∈ range pk.lQuery.length, (z.drop ni).getD i 0 • pk.lQuery.getD i 0) +
      ∑ i ∈ range pk.hQuery.length, x i • pk.hQuery.getD i 0) :
    IsGroth16Proof t g1 g2 ni a b c z p r s pA pB pC := by
  have qA := cons_query (ha.symm.trans hk.aQuery) hz
  have qB1 := cons_query (hb.symm.trans hk.bG1Query) hz
  have qB := cons_query (hv.symm.trans hk.bG2Query) hz
  have eA : pA = (t.alpha + (∑ k ∈ range z.length, z.getD k 0 * (a k).eval t.tau) + r * t.delta) • g1 := by
    rw [hA, hk.deltaG1, hk.alphaG1, add_smul, add_smul, ← qA, mul_smul]; abel
  have eB1 : pB1 = (t.beta + (∑ k ∈ range z.length, z.getD k 0 * (b k).eval t.tau) + s * t.delta) • g1 := by
    rw [hB1, hk.deltaG1, hk.betaG1, add_smul, add_smul, ← qB1, mul_smul]; abel
  have eB : pB = (t.beta + (∑ k ∈ range z.length, z.getD k 0 * (b k).eval t.tau) + s * t.delta) • g2 := by
    rw [hB, hk.deltaG2, hk.betaG2, add_smul, add_smul, ← qB, mul_smul]; abel
  have hl : ∑ i ∈ range pk.lQuery.length, (z.drop ni).getD i 0 • pk.lQuery.getD i 0 =
      ((∑ k ∈ Ico ni z.length, z.getD k 0 *
        (t.beta * (a k).eval t.tau + t.alpha * (b k).eval t.tau + (c k).eval t.tau)) / t.delta) • g1 := by
    rw [hk.lQuery, msm_query (fun i => (z.drop ni).getD i 0) (fun k => (t.beta * (a (ni + k)).eval t.tau +
      t.alpha * (b (ni + k)).eval t.tau + (c (ni + k)).eval t.tau) / t.delta) g1, sum_Ico_eq_sum_range, sum_div]
    congr 1
    apply sum_congr rfl
    intro k _
    rw [getD_drop]; ring
  refine ⟨eA, eB, ?_⟩
  rw [hC, hx, hl, eA, eB1, hk.deltaG1]
  simp only [← mul_smul, ← add_smul, ← sub_smul]
  congr 1
  ring

/-- The verification equation for a proof as in the paper. -/
theorem IsGroth16Proof.equation {t : Toxic F} {g1 : G1} {g2 : G2} {z : List F} {ni m : Nat} {w : F} {a b c : Nat → F[X]}
    {pk : ProvingKey G1 G2} (hk : IsCircomKey t g1 g2 z.length ni m w a b c pk) (hγ : t.gamma ≠ 0) (hδ : t.delta ≠ 0)
    (hni : 1 ≤ ni) (hle : ni ≤ z.length) (hz : z.getD 0 0 = 1) (e : G1 →ₗ[F] G2 →ₗ[F] GT) {r s p : F}
    {pA pC : G1} {pB : G2} (h : IsGroth16Proof t g1 g2 ni a b c z p r s pA pB pC) :
    e pA pB = e pk.vk.alphaG1 pk.vk.betaG2 +
      e (pk.vk.gammaAbcG1.getD 0 0 + ∑ i ∈ range ((z.take ni).drop 1).length, ((z.take ni).drop 1).getD i 0 •
        pk.vk.gammaAbcG1.getD (i + 1) 0) pk.vk.gammaG2 + e pC pk.vk.deltaG2 +
      ((combine z a).eval t.tau * (combine z b).eval t.tau - p - (combine z c).eval t.tau) • e g1 g2 := by
  obtain ⟨eA, eB, eC⟩ := h
  set L : Nat → F := fun k => t.beta * (a k).eval t.tau + t.alpha * (b k).eval t.tau + (c k).eval t.tau with hL
  rw [← combine_eval] at eA eB
  rw [← combine_eval, ← combine_eval] at eC
  have hsum : t.beta * (combine z a).eval t.tau + t.alpha * (combine z b).eval t.tau + (combine z c).eval t.tau =
      (∑ k ∈ range ni, z.getD k 0 * L k) + ∑ k ∈ Ico ni z.length, z.getD k 0 * L k := by
    rw [sum_range_add_sum_Ico _ hle, combine_eval, combine_eval, combine_eval, mul_sum,
      mul_sum, ← sum_add_distrib, ← sum_add_distrib]
    apply sum_congr rfl
    intro k _
    rw [hL]; ring
  have hpub := take_query hni hle hz (fun k => L k / t.gamma) g1
  rw [hk.gammaAbcG1, hpub, eA, eB, eC, hk.alphaG1, hk.betaG2, hk.gammaG2, hk.deltaG2]
  simp only [map_smul, LinearMap.smul_apply, ← mul_smul, ← add_smul]
  congr 1
  have hg : ∑ k ∈ range ni, z.getD k 0 * (L k / t.gamma) = (∑ k ∈ range ni, z.getD k 0 * L k) / t.gamma := by
    rw [sum_div]; exact sum_congr rfl fun k _ => by ring
  rw [hg]
  generalize (∑ k ∈ range ni, z.getD k 0 * L k) = S1 at hsum ⊢
  generalize (∑ k ∈ Ico ni z.length, z.getD k 0 * L k) = S2 at hsum ⊢
  field_simp
  linear_combination hsum

end equation

end ZkSaas
