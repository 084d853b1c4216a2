import Verif.Model.Bench
import Verif.Lemmas.ExtWit
import Verif.Lemmas.Opened
import Verif.Model.Example17

/-! `ConstraintDomain::new` and the benchmark `local_groth_bench` (C65). -/

set_option linter.unusedSectionVars false

namespace ZkSaas

open Finset Spec Polynomial

section loops
variable {G : Type}

theorem doublings_eq [AddCommGroup G] (n : Nat) (x : G) :
    doublings n x = .ok ((List.range n).map fun i => 2 ^ i • x) := by
  obtain ⟨s, e, hl, hs⟩ := forUp_inv (n := n - 1) (body := fun i (s : List G) => do
      let y ← rd s i
      wr s (i + 1) (y + y)) (s := List.replicate n x)
    (fun k s => s.length = n ∧ ∀ i ≤ k, i < n → s.getD i 0 = 2 ^ i • x)
    ⟨by simp, fun i hi hn => by
      obtain rfl : i = 0 := by omega
      rw [getD_replicate', if_pos hn, pow_zero, one_smul]⟩
    (fun k hk s ⟨hl, hs⟩ => by
      refine ⟨s.set (k + 1) (s.getD k 0 + s.getD k 0), ?_, by simp [hl], fun i hi hn => ?_⟩
      · rw [rd_ok (by omega) 0, ok_bind, wr_ok (by omega)]
      · rw [getD_set]
        split
        · rename_i h
          rw [← h.1, hs k le_rfl (by omega), pow_succ, mul_comm, ← smul_smul, two_smul]
        · exact hs i (by omega) hn)
  unfold doublings
  rw [e]
  congr 1
  apply list_ext_getD 0 (by simp [hl])
  intro i hi
  rw [hs i (by omega) (by omega), getD_map_range, if_pos (by omega)]

theorem randVec_eq [Inhabited G] (g : Nat → G) (n rng : Nat) :
    randVec g n rng = .ok ((List.range n).map fun i => g (rng + i), rng + max 1 n) := by
  obtain ⟨⟨s, r⟩, e, hr, hl, hs⟩ := forUp_inv (n := n - 1) (body := fun i (st : List G × Nat) => do
      let s ← wr st.1 (i + 1) (g st.2)
      pure (s, st.2 + 1)) (s := (List.replicate n (g rng), rng + 1))
    (fun k st => st.2 = rng + 1 + k ∧ st.1.length = n ∧ ∀ i ≤ k, i < n → st.1.getD i default = g (rng + i))
    ⟨rfl, by simp, fun i hi hn => by
      obtain rfl : i = 0 := by omega
      dsimp only
      rw [List.getD_eq_getElem _ _ (by simpa using hn), List.getElem_replicate]; rfl⟩
    (fun k hk ⟨s, r⟩ ⟨hr, hl, hs⟩ => by
      dsimp only at hr hl hs
      refine ⟨(s.set (k + 1) (g r), r + 1), ?_, by dsimp only; omega, by simp [hl], fun i hi hn => ?_⟩
      · dsimp only
        rw [wr_ok (by omega), ok_bind]; rfl
      · dsimp only
        rw [getD_set]
        split
        · rename_i h
          rw [← h.1, hr]
          congr 1
          omega
        · exact hs i (by omega) hn)
  dsimp only at hr hl hs
  unfold randVec
  rw [e]
  have h1 : s = (List.range n).map fun i => g (rng + i) := by
    apply list_ext_getD default (by simp [hl])
    intro i hi
    rw [hs i (by omega) (by omega), List.getD_eq_getElem _ _ (by simp; omega), List.getElem_map, List.getElem_range]
  have h2 : r = rng + max 1 n := by omega
  rw [h1, h2]

/-- A loop that replaces every entry. -/
theorem forUp_write [Zero G] {n : Nat} (f : Nat → G → G) (body : Nat → List G → Res (List G))
    (hbody : ∀ i < n, ∀ s : List G, s.length = n → body i s = .ok (s.set i (f i (s.getD i 0)))) (s : List G) (hs : s.length = n) :
    forUp n body s = .ok ((List.range n).map fun i => f i (s.getD i 0)) := by
  obtain ⟨s', e, hl, h1, -⟩ := forUp_inv (n := n) (body := body) (s := s)
    (fun k t => t.length = n ∧ (∀ i < k, t.getD i 0 = f i (s.getD i 0)) ∧ ∀ i, k ≤ i → t.getD i 0 = s.getD i 0)
    ⟨hs, fun _ h => absurd h (by omega), fun _ _ => rfl⟩
    (fun k hk t ⟨hl, h1, h2⟩ => by
      refine ⟨_, hbody k hk t hl, by simp [hl], fun i hi => ?_, fun i hi => ?_⟩
      · rw [getD_set]
        split
        · rename_i h
          rw [← h.1, h2 k le_rfl]
        · exact h1 i (by omega)
      · rw [getD_set, if_neg (by omega)]
        exact h2 i (by omega))
  rw [e]
  congr 1
  apply list_ext_getD 0 (by simp [hl])
  intro i hi
  rw [h1 i (by omega), getD_map_range, if_pos (by omega)]

end loops

variable {F : Type} [Field F] [DecidableEq F] [FftField F]

theorem Domain.elements_nodup {d : Domain F} (hwf : d.WF) (ho : d.offset = 1) : d.elements.Nodup := by
  unfold Domain.elements
  refine List.Nodup.map_on (fun i hi j hj h => ?_) List.nodup_range
  rw [Domain.element, Domain.element, ho, one_mul, one_mul] at h
  exact hwf.prim.pow_inj (List.mem_range.1 hi) (List.mem_range.1 hj) h

theorem Domain.mem_elements {d : Domain F} (hwf : d.WF) (ho : d.offset = 1) (x : F) : x ∈ d.elements ↔ x ^ d.size = 1 := by
  unfold Domain.elements
  rw [List.mem_map]
  constructor
  · rintro ⟨i, -, rfl⟩
    rw [Domain.element, ho, one_mul, ← pow_mul, mul_comm, pow_mul, hwf.prim.pow_eq_one, one_pow]
  · intro h
    haveI : NeZero d.size := ⟨hwf.pos.ne'⟩
    obtain ⟨i, hi, rfl⟩ := hwf.prim.eq_pow_of_pow_eq_one h
    exact ⟨i, List.mem_range.2 hi, by rw [Domain.element, ho, one_mul]⟩

/-- The coefficients computed by the benchmark. -/
def benchH (cd : ConstraintDomain F) (p q w : List F) : List F :=
  cd.constraint2.ifft ((List.range cd.constraint2.size).map fun i =>
    (cd.constraint2.fft (cd.constraint.ifft p)).getD i 0 * (cd.constraint2.fft (cd.constraint.ifft q)).getD i 0 -
      (cd.constraint2.fft (cd.constraint.ifft w)).getD i 0)

theorem msm_doublings {G : Type} [AddCommGroup G] [Module F G] (n : Nat) (x : G) (c : List F) (hc : c.length = n) :
    msm ((List.range n).map fun i => 2 ^ i • x) c = .ok ((∑ i ∈ range n, c.getD i 0 * 2 ^ i) • x) := by
  classical
  rw [msm_eq (N := n) (by simp) hc, sum_smul]
  congr 1
  apply sum_congr rfl
  intro i hi
  rw [getD_map_range, if_pos (mem_range.1 hi), mul_smul]
  congr 1
  rw [← Nat.cast_smul_eq_nsmul F]
  push_cast
  rfl

theorem localGroth_eq {G1 G2 : Type} [AddCommGroup G1] [Module F G1] [AddCommGroup G2] [Module F G2] (cd : ConstraintDomain F)
    (p q w : List F) (s₀ u₀ w₀ h₀ : G1) (v₀ : G2) (a : F) :
    localGroth cd p q w s₀ u₀ w₀ h₀ v₀ a = (do
      let piC3 ← unwrap (msm ((List.range (cd.m * 2)).map fun i => 2 ^ i • u₀) (benchH cd p q w)).toOption
      let f := ∑ i ∈ range cd.m, a * 2 ^ i
      pure ⟨benchH cd p q w, f • s₀, f • v₀, f • h₀ + f • w₀ + piC3⟩) := by
  unfold localGroth
  have e1 := forUp_write (n := cd.constraint2.size) (fun i (_ : F) =>
      (cd.constraint2.fft (cd.constraint.ifft p)).getD i 0 * (cd.constraint2.fft (cd.constraint.ifft q)).getD i 0 -
      (cd.constraint2.fft (cd.constraint.ifft w)).getD i 0) (fun i h => do
    let x ← rd (cd.constraint2.fft (cd.constraint.ifft p)) i
    let y ← rd (cd.constraint2.fft (cd.constraint.ifft q)) i
    let z ← rd (cd.constraint2.fft (cd.constraint.ifft w)) i
    wr h i (x * y - z)) (fun i hi s hs => by
      rw [rd_ok (by simpa using hi) 0, ok_bind, rd_ok (by simpa using hi) 0, ok_bind, rd_ok (by simpa using hi) 0, ok_bind,
        wr_ok (by omega)]) (List.replicate cd.constraint2.size 0) (by simp)
  have e2 := fun h (hh : h.length = cd.constraint2.size) => forUp_write (n := cd.constraint2.size) (fun _ (x : F) => x) (fun i h => do
    let x ← rd h i
    let y ← rd (List.replicate cd.constraint2.size (1 : F)) i
    wr h i (x * y)) (fun i hi s hs => by
      rw [rd_ok (by omega) 0, ok_bind, rd_ok (by simpa using hi) 0, ok_bind, wr_ok (by omega), getD_replicate', if_pos hi, mul_one])
      h hh
  simp only [Domain.fft_length]
  rw [e1, ok_bind]
  simp only [List.length_map, List.length_range]
  rw [e2 _ (by simp), ok_bind]
  have e3 : (List.range cd.constraint2.size).map (fun i => ((List.range cd.constraint2.size).map fun i =>
    (cd.constraint2.fft (cd.constraint.ifft p)).getD i 0 * (cd.constraint2.fft (cd.constraint.ifft q)).getD i 0 -
      (cd.constraint2.fft (cd.constraint.ifft w)).getD i 0).getD i 0) = (List.range cd.constraint2.size).map fun i =>
    (cd.constraint2.fft (cd.constraint.ifft p)).getD i 0 * (cd.constraint2.fft (cd.constraint.ifft q)).getD i 0 -
      (cd.constraint2.fft (cd.constraint.ifft w)).getD i 0 := by
    apply List.map_congr_left
    intro i hi
    rw [getD_map_range, if_pos (List.mem_range.1 hi)]
  rw [e3]
  unfold localDummyCrs
  simp only [doublings_eq, ok_bind]
  have hf : ∀ {G : Type} [AddCommGroup G] [Module F G] (x : G),
      msm ((List.range cd.m).map fun i => 2 ^ i • x) (List.replicate cd.m a) = .ok ((∑ i ∈ range cd.m, a * 2 ^ i) • x) := by
    intro G _ _ x
    rw [msm_doublings _ _ _ (by simp)]
    congr 2
    apply sum_congr rfl
    intro i hi
    rw [getD_replicate', if_pos (mem_range.1 hi)]
  show (do
    let piA ← unwrap (msm ((List.range cd.m).map fun i => 2 ^ i • s₀)
      (List.replicate ((List.range cd.m).map fun i => 2 ^ i • s₀).length a)).toOption
    _) = _
  rw [List.length_map, List.length_range, hf]
  simp only [hf, Except.toOption, unwrap, ok_bind]
  rfl

theorem ConstraintDomain.new_ok {k : Nat} (hk : k + 1 ≤ FftField.TWO_ADICITY F) (dbg : Bool) :
    ∃ cd : ConstraintDomain F, ConstraintDomain.new dbg (2 ^ k) = .ok cd ∧ cd.m = 2 ^ k ∧ cd.constraint.size = 2 ^ k ∧
      cd.constraint2.size = 2 ^ (k + 1) ∧ cd.constraint.groupGen = rootOfUnity k ∧
      cd.constraint2.groupGen = rootOfUnity (k + 1) ∧ cd.constraint.offset = 1 ∧ cd.constraint2.offset = 1 ∧
      cd.constraint.WF ∧ cd.constraint2.WF := by
  have h1 := Domain.new_eq (F := F) (m := 2 ^ k) (k := k) (Nat.clog_pow 2 k (by omega)) (by omega)
  have h2 := Domain.new_eq (F := F) (m := 2 * 2 ^ k) (k := k + 1) (by rw [mul_comm, ← pow_succ]; exact Nat.clog_pow 2 _ (by omega)) hk
  refine ⟨⟨2 ^ k, _, _⟩, ?_, rfl, rfl, rfl, rfl, rfl, rfl, rfl, (Domain.new_wf h1).1, (Domain.new_wf h2).1⟩
  unfold ConstraintDomain.new
  rw [h1, h2]
  simp only [unwrap, ok_bind]
  rw [debugAssert_of (by simp), ok_bind, debugAssert_of (by simp [pow_succ, mul_comm]), ok_bind]
  rfl

namespace Properties

/-- **C65** For `m = 2^k` with `2m` below the two-adicity bound the two domains have sizes `m` and `2m`, are generated by
primitive roots, are not shifted, and the even-numbered elements of the second are the elements of the first. -/
theorem C65_constraint_domain {k : Nat} (hk : k + 1 ≤ FftField.TWO_ADICITY F) (dbg : Bool) :
    ∃ cd : ConstraintDomain F, ConstraintDomain.new dbg (2 ^ k) = .ok cd ∧ cd.m = 2 ^ k ∧
      cd.constraint.elements.length = cd.m ∧ cd.constraint2.elements.length = 2 * cd.m ∧
      cd.constraint.elements.Nodup ∧ cd.constraint2.elements.Nodup ∧
      (∀ x : F, x ∈ cd.constraint.elements ↔ x ^ cd.m = 1) ∧ (∀ x : F, x ∈ cd.constraint2.elements ↔ x ^ (2 * cd.m) = 1) ∧
      ∀ i < cd.m, cd.constraint2.elements.getD (2 * i) 0 = cd.constraint.elements.getD i 0 := by
  obtain ⟨cd, e, hm, hs, hs2, hg, hg2, ho, ho2, hwf, hwf2⟩ := ConstraintDomain.new_ok (F := F) hk dbg
  refine ⟨cd, e, hm, ?_, ?_, ?_, ?_, ?_, ?_, ?_⟩
  · simp [Domain.elements, hs, hm]
  · simp [Domain.elements, hs2, hm, pow_succ, mul_comm]
  · exact Domain.elements_nodup hwf ho
  · exact Domain.elements_nodup hwf2 ho2
  · intro x
    rw [Domain.mem_elements hwf ho, hs, hm]
  · intro x
    rw [Domain.mem_elements hwf2 ho2, hs2, hm, pow_succ, mul_comm]
  · intro i hi
    rw [Domain.elements, Domain.elements, getD_map_range, getD_map_range, hs, hs2, if_pos (by rw [pow_succ]; omega), if_pos (by omega),
      Domain.element, Domain.element, ho, ho2, hg, hg2, pow_mul, show (2 : Nat) = 2 ^ 1 from rfl, rootOfUnity_pow hk]

/-- **C65** The constructor succeeds in debug builds exactly for powers of two whose double is supported, in release builds
exactly when the double, rounded up to a power of two, is supported. -/
theorem C65_constraint_domain_iff (m : Nat) :
    ((∃ cd : ConstraintDomain F, ConstraintDomain.new true m = .ok cd) ↔ ∃ k, m = 2 ^ k ∧ k + 1 ≤ FftField.TWO_ADICITY F) ∧
    ((∃ cd : ConstraintDomain F, ConstraintDomain.new false m = .ok cd) ↔ 2 * m ≤ 2 ^ FftField.TWO_ADICITY F) := by
  constructor
  · constructor
    · rintro ⟨cd, h⟩
      unfold ConstraintDomain.new at h
      cases h1 : Domain.new (F := F) m with
      | none => rw [h1] at h; cases h
      | some d1 =>
        cases h2 : Domain.new (F := F) (2 * m) with
        | none => rw [h1, h2] at h; cases h
        | some d2 =>
          rw [h1, h2] at h
          simp only [unwrap, ok_bind] at h
          by_cases e1 : d1.size = m
          · have hs : d1.size = 2 ^ Nat.clog 2 m := by
              unfold Domain.new at h1
              simp only at h1
              split at h1
              · cases h1
              · cases h1; rfl
            refine ⟨Nat.clog 2 m, by rw [← hs, e1], ?_⟩
            by_contra hc
            have hm : m = 2 ^ Nat.clog 2 m := by rw [← hs, e1]
            rw [Domain.new_none] at h2
            · cases h2
            · have : Nat.clog 2 (2 * m) = Nat.clog 2 m + 1 := by
                rw [hm, mul_comm, ← pow_succ, Nat.clog_pow 2 _ (by omega), Nat.clog_pow 2 _ (by omega)]
              omega
          · have : debugAssert true (d1.size == m) = panic' := by
              simp [debugAssert, e1]
            rw [this] at h
            cases h
    · rintro ⟨k, rfl, hk⟩
      obtain ⟨cd, e, -⟩ := ConstraintDomain.new_ok (F := F) hk true
      exact ⟨cd, e⟩
  · rw [← Nat.clog_le_iff_le_pow (by omega)]
    constructor
    · rintro ⟨cd, h⟩
      by_contra hc
      unfold ConstraintDomain.new at h
      rw [Domain.new_none (m := 2 * m) (by omega)] at h
      cases h1 : unwrap (Domain.new (F := F) m) with
      | error e => rw [h1] at h; cases h
      | ok d1 => rw [h1] at h; cases h
    · intro h
      have h' : Nat.clog 2 m ≤ FftField.TWO_ADICITY F := (Nat.clog_mono_right 2 (by omega)).trans h
      unfold ConstraintDomain.new
      rw [Domain.new_eq rfl h', Domain.new_eq rfl h]
      exact ⟨_, rfl⟩

section bench
variable {G1 G2 : Type} [AddCommGroup G1] [Module F G1] [AddCommGroup G2] [Module F G2]

/-- **C65** The benchmark computes the coefficients of `P·Q - W` and the five multi-scalar multiplications: with `P`, `Q`, `W` the
polynomials of degree below `m` through the given values, the second point is `a (2^m - 1)` times `v₀` and the last point contains
`u₀` with the factor `P(2)·Q(2) - W(2)`. -/
theorem C65_local_groth {k : Nat} {dbg : Bool} {cd : ConstraintDomain F} (hcd : ConstraintDomain.new dbg (2 ^ k) = .ok cd)
    (p q w : List F) (hp : p.length = 2 ^ k) (hq : q.length = 2 ^ k) (hw : w.length = 2 ^ k) (s₀ u₀ w₀ h₀ : G1) (v₀ : G2) (a : F)
    {P Q W : F[X]} (hP : Interpolates cd.constraint.groupGen (2 ^ k) (fun i => p.getD i 0) P)
    (hQ : Interpolates cd.constraint.groupGen (2 ^ k) (fun i => q.getD i 0) Q)
    (hW : Interpolates cd.constraint.groupGen (2 ^ k) (fun i => w.getD i 0) W) :
    localGroth cd p q w s₀ u₀ w₀ h₀ v₀ a = .ok
      { h := (List.range (2 * 2 ^ k)).map (P * Q - W).coeff
        a := (a * (2 ^ 2 ^ k - 1)) • s₀
        b := (a * (2 ^ 2 ^ k - 1)) • v₀
        c := (a * (2 ^ 2 ^ k - 1)) • (h₀ + w₀) + (P.eval 2 * Q.eval 2 - W.eval 2) • u₀ } := by
  obtain ⟨cd', e', hm, hs, hs2, hg, hg2, ho, ho2, hwf, hwf2⟩ := ConstraintDomain.new_ok (F := F) (k := k) (by
    cases dbg with
    | false =>
      have := (C65_constraint_domain_iff (F := F) (2 ^ k)).2.1 ⟨cd, hcd⟩
      rw [mul_comm, ← pow_succ] at this
      exact (Nat.pow_le_pow_iff_right (by omega)).1 this
    | true =>
      obtain ⟨k', e, h⟩ := (C65_constraint_domain_iff (F := F) (2 ^ k)).1.1 ⟨cd, hcd⟩
      obtain rfl := Nat.pow_right_injective le_rfl e
      exact h) dbg
  rw [hcd] at e'
  cases e'
  have hs2' : cd.constraint2.size = 2 * 2 ^ k := by rw [hs2, pow_succ, mul_comm]
  have key : ∀ (v : List F) (A : F[X]), v.length = 2 ^ k → Interpolates cd.constraint.groupGen (2 ^ k) (fun i => v.getD i 0) A →
      ∀ i < cd.constraint2.size, (cd.constraint2.fft (cd.constraint.ifft v)).getD i 0 = A.eval (cd.constraint2.element i) := by
    intro v A hv hA i hi
    rw [← hs] at hA
    have h1 := Interpolates.fft ho (by rw [hv, hs]) hA
    rw [← h1, Domain.ifft_fft hwf (by simp), Domain.fft_getD _ _ hi, ← evalAt_coeffs (m := cd.constraint2.size)
      (lt_of_lt_of_le hA.1 (by rw [hs, hs2']; exact_mod_cast (by omega : 2 ^ k ≤ 2 * 2 ^ k)))]
    unfold evalAt
    rw [List.length_map, List.length_range]
    apply sum_congr rfl
    intro j hj
    rw [getD_map_range, getD_map_range, if_pos (mem_range.1 hj)]
    split
    · rfl
    · rename_i hjm
      rw [coeff_eq_zero_of_degree_lt]
      exact lt_of_lt_of_le hA.1 (by exact_mod_cast (by omega : cd.constraint.size ≤ j))
  have hdeg : (P * Q - W).degree < (cd.constraint2.size : WithBot ℕ) := by
    refine lt_of_le_of_lt (degree_sub_le _ _) (max_lt ?_ (lt_of_lt_of_le hW.1 (by
      rw [hs2']; exact_mod_cast (by omega : 2 ^ k ≤ 2 * 2 ^ k))))
    by_cases hP0 : P = 0
    · rw [hP0, zero_mul, degree_zero]; exact WithBot.bot_lt_coe _
    by_cases hQ0 : Q = 0
    · rw [hQ0, mul_zero, degree_zero]; exact WithBot.bot_lt_coe _
    have h1 := (natDegree_lt_iff_degree_lt hP0).2 hP.1
    have h2 := (natDegree_lt_iff_degree_lt hQ0).2 hQ.1
    rw [← natDegree_lt_iff_degree_lt (mul_ne_zero hP0 hQ0), natDegree_mul hP0 hQ0, hs2']
    omega
  have hH : benchH cd p q w = (List.range (2 * 2 ^ k)).map (P * Q - W).coeff := by
    unfold benchH
    rw [← hs2', Domain.ifft_evals hwf2 (c := (P * Q - W).coeff)]
    intro i hi
    rw [getD_map_range, if_pos hi, key p P hp hP i hi, key q Q hq hQ i hi, key w W hw hW i hi, ← eval_mul, ← eval_sub,
      ← evalAt_coeffs hdeg]
    unfold evalAt
    rw [List.length_map, List.length_range]
    apply sum_congr rfl
    intro j hj
    rw [getD_map_range, if_pos (mem_range.1 hj)]
  have hgeo : ∑ i ∈ range (2 ^ k), a * (2 : F) ^ i = a * (2 ^ 2 ^ k - 1) := by
    rw [← mul_sum]
    congr 1
    have := geom_sum_mul (2 : F) (2 ^ k)
    rw [show (2 : F) - 1 = 1 by norm_num, mul_one] at this
    exact this
  have h2 : ∑ i ∈ range (2 ^ k * 2), ((List.range (2 * 2 ^ k)).map (P * Q - W).coeff).getD i 0 * (2 : F) ^ i =
      P.eval 2 * Q.eval 2 - W.eval 2 := by
    rw [← eval_mul, ← eval_sub, ← evalAt_coeffs hdeg, hs2', mul_comm]
    unfold evalAt
    rw [List.length_map, List.length_range]
    apply sum_congr rfl
    intro j _
    rw [smul_eq_mul, mul_comm]
  rw [localGroth_eq, hH, hm, msm_doublings _ _ _ (by rw [List.length_map, List.length_range, mul_comm]), h2, hgeo, smul_add]
  rfl

/-- **C65** In a release build `ConstraintDomain::new` accepts sizes that are not powers of two. The benchmark then panics at its
last multi-scalar multiplication, whatever the inputs. -/
theorem C65_local_groth_not_pow2 {m : Nat} (hm : ∀ k, m ≠ 2 ^ k) {cd : ConstraintDomain F}
    (hcd : ConstraintDomain.new false m = .ok cd)
    (p q w : List F) (s₀ u₀ w₀ h₀ : G1) (v₀ : G2) (a : F) : localGroth cd p q w s₀ u₀ w₀ h₀ v₀ a = panic' := by
  have hl : (benchH cd p q w).length = cd.constraint2.size := by simp [benchH]
  have hsz : cd.m = m ∧ ∃ j, cd.constraint2.size = 2 ^ j := by
    unfold ConstraintDomain.new at hcd
    cases h1 : Domain.new (F := F) m with
    | none => rw [h1] at hcd; cases hcd
    | some d1 =>
      cases h2 : Domain.new (F := F) (2 * m) with
      | none => rw [h1, h2] at hcd; cases hcd
      | some d2 =>
        rw [h1, h2] at hcd
        cases hcd
        refine ⟨rfl, Nat.clog 2 (2 * m), ?_⟩
        unfold Domain.new at h2
        simp only at h2
        split at h2
        · cases h2
        · cases h2; rfl
  obtain ⟨hm', j, hj⟩ := hsz
  have hne : m * 2 ≠ cd.constraint2.size := by
    rw [hj]
    intro h
    cases j with
    | zero => simp at h
    | succ j =>
      rw [pow_succ] at h
      exact hm j (by omega)
  rw [localGroth_eq, hm', msm, if_neg (by rw [List.length_map, List.length_range, hl]; exact hne)]
  rfl

end bench

/-- **C66** `PackedProvingKeyShare::rand`: the vectors have lengths `m/l`, `2m/l`, `m/l`, `m/l`, `m/l`, and no draw of the generator
is used for two entries: the draws used by the thirteen components are consecutive (one is wasted for an empty vector). -/
theorem C66_rand {G1 G2 : Type} [Inhabited G1] [Inhabited G2] (g1 : Nat → G1) (g2 : Nat → G2) (rng m l : Nat) (hl : 0 < l) :
    ∃ (pk : PackedProvingKeyShare G1 G2) (d : Nat → Nat), PackedProvingKeyShare.rand g1 g2 rng m l = .ok pk ∧
      pk.s = (List.range' rng (m / l)).map g1 ∧ rng + m / l ≤ d 0 ∧
      pk.u = (List.range' (d 0) (m * 2 / l)).map g1 ∧ d 0 + m * 2 / l ≤ d 1 ∧
      pk.w = (List.range' (d 1) (m / l)).map g1 ∧ d 1 + m / l ≤ d 2 ∧
      pk.h = (List.range' (d 2) (m / l)).map g1 ∧ d 2 + m / l ≤ d 3 ∧
      pk.v = (List.range' (d 3) (m / l)).map g2 ∧ d 3 + m / l ≤ d 4 ∧
      [pk.aQuery0, pk.bG1Query0, pk.deltaG1, pk.alphaG1, pk.betaG1] = [d 4, d 4 + 1, d 4 + 3, d 4 + 5, d 4 + 6].map g1 ∧
      [pk.bG2Query0, pk.deltaG2, pk.betaG2] = [d 4 + 2, d 4 + 4, d 4 + 7].map g2 := by
  have hr : ∀ {G : Type} (g : Nat → G) (r n : Nat), (List.range n).map (fun i => g (r + i)) = (List.range' r n).map g := by
    intro G g r n
    rw [List.range'_eq_map_range, List.map_map]
    rfl
  let k := max 1 (m / l)
  let k2 := max 1 (m * 2 / l)
  let d : Nat → Nat := fun j => match j with
    | 0 => rng + k
    | 1 => rng + k + k2
    | 2 => rng + k + k2 + k
    | 3 => rng + k + k2 + k + k
    | _ => rng + k + k2 + k + k + k
  refine ⟨{ s := (List.range' rng (m / l)).map g1
            u := (List.range' (d 0) (m * 2 / l)).map g1
            w := (List.range' (d 1) (m / l)).map g1
            h := (List.range' (d 2) (m / l)).map g1
            v := (List.range' (d 3) (m / l)).map g2
            aQuery0 := g1 (d 4), bG1Query0 := g1 (d 4 + 1), bG2Query0 := g2 (d 4 + 2), deltaG1 := g1 (d 4 + 3),
            deltaG2 := g2 (d 4 + 4), alphaG1 := g1 (d 4 + 5), betaG1 := g1 (d 4 + 6), betaG2 := g2 (d 4 + 7) }, d, ?_, rfl, ?_,
            rfl, ?_, rfl, ?_, rfl, ?_, rfl, ?_, rfl, rfl⟩
  · unfold PackedProvingKeyShare.rand
    rw [assert_of (by simp; omega)]
    simp only [randVec_eq, ok_bind, hr]
    rfl
  all_goals first | exact Nat.add_le_add_left (le_max_right 1 (m / l)) _ | exact Nat.add_le_add_left (le_max_right 1 (m * 2 / l)) _

end Properties

theorem foldU32 (dbg : Bool) (xs : List (Fin (2 ^ 32))) : ∀ a : Fin (2 ^ 32), (dbg = true → a.val + (xs.map Fin.val).sum < 2 ^ 32) →
    xs.foldlM (addU32 dbg) a = .ok (Fin.ofNat _ (a.val + (xs.map Fin.val).sum)) := by
  induction xs with
  | nil =>
    intro a _
    show Except.ok a = _
    congr 1
    apply Fin.ext
    simp [Nat.mod_eq_of_lt a.2]
  | cons x xs ih =>
    intro a h
    have e : addU32 dbg a x = .ok (a + x) := by
      unfold addU32
      rw [debugAssert, if_neg, ok_bind]
      · rfl
      · intro hc
        simp only [Bool.and_eq_true, Bool.not_eq_true', decide_eq_false_iff_not] at hc
        have := h hc.1
        rw [List.map_cons, List.sum_cons] at this
        omega
    have hv : (a + x).val = (a.val + x.val) % 2 ^ 32 := Fin.val_add a x
    rw [List.foldlM_cons, e, ok_bind, ih]
    · congr 1
      apply Fin.ext
      simp only [List.map_cons, List.sum_cons, Fin.ofNat_eq_cast, Fin.val_natCast, hv]
      omega
    · intro hd
      have := h hd
      rw [List.map_cons, List.sum_cons] at this
      omega

theorem foldU32_panic (xs : List (Fin (2 ^ 32))) : ∀ a : Fin (2 ^ 32), 2 ^ 32 ≤ a.val + (xs.map Fin.val).sum →
    xs.foldlM (addU32 true) a = panic' := by
  induction xs with
  | nil =>
    intro a h
    simp at h
    omega
  | cons x xs ih =>
    intro a h
    rw [List.map_cons, List.sum_cons] at h
    rw [List.foldlM_cons]
    by_cases hc : a.val + x.val < 2 ^ 32
    · have e : addU32 true a x = .ok (a + x) := by
        unfold addU32
        rw [debugAssert_of (by simpa using hc), ok_bind]; rfl
      have hv : (a + x).val = (a.val + x.val) % 2 ^ 32 := Fin.val_add a x
      rw [e, ok_bind, ih _ (by omega)]
    · have e : addU32 true a x = panic' := by
        unfold addU32
        rw [debugAssert, if_pos (by simpa using hc)]; rfl
      rw [e]; rfl

theorem sum_ids {n : Nat} (hn : n ≤ 2 ^ 32) :
    (((List.range n).map (Fin.ofNat (2 ^ 32))).map Fin.val).sum = ∑ i ∈ range n, i := by
  rw [List.map_map]
  have : ∀ k ≤ n, ((List.range k).map (Fin.val ∘ Fin.ofNat (2 ^ 32))).sum = ∑ i ∈ range k, i := by
    intro k hk
    induction k with
    | zero => rfl
    | succ k ih =>
      rw [List.range_succ, List.map_append, List.sum_append, ih (by omega), sum_range_succ]
      simp only [List.map_cons, List.map_nil, List.sum_cons, List.sum_nil, Function.comp]
      congr 1
      show k % 2 ^ 32 = k
      exact Nat.mod_eq_of_lt (by omega)
  exact this n le_rfl

namespace Properties

/-- **C66** `add_ids`: for every number of parties (in debug builds: as long as the sum of the ids fits into 32 bits) and every
schedule all parties finish, so the sum each of them holds is the sum of the ids. -/
theorem C66_add_ids (dbg : Bool) {n : Nat} (hn : 0 < n) (hn32 : n ≤ 2 ^ 32) (h : dbg = true → ∑ i ∈ range n, i < 2 ^ 32) :
    AlwaysYields (Net.init fun i : Fin n => addIds dbg n i) (fun _ => ()) := by
  have hsum : sumU32 dbg ((List.range n).map (Fin.ofNat (2 ^ 32))) = .ok (Fin.ofNat _ (∑ i ∈ range n, i)) := by
    unfold sumU32
    rw [foldU32 dbg _ 0 (by rw [sum_ids hn32]; simpa using h), sum_ids hn32]
    simp
  set S : Fin (2 ^ 32) := Fin.ofNat _ (∑ i ∈ range n, i)
  have hid : ∀ i : Fin n, (Fin.ofNat (2 ^ 32) i.val).val = i.val := fun i => Nat.mod_eq_of_lt (by omega)
  let tail : Fin n → Option (ReceivedShares (Fin (2 ^ 32))) → Proc Unit := fun i received => do
    let sum ← match received with
      | some rs => do
        assert (Fin.ofNat (2 ^ 32) i.val == 0)
        let sum ← sumU32 dbg rs.shares
        let _ ← clientReceiveOrKingSend n i (some (List.replicate n (Wire.enc sum))) .zero
        pure sum
      | none => do
        assert (Fin.ofNat (2 ^ 32) i.val != 0)
        let bytes ← clientReceiveOrKingSend n i none .zero
        unwrap (Wire.dec (T := Fin (2 ^ 32)) bytes)
    assert (sum == S)
  have hprog : ∀ i : Fin n, addIds dbg n i =
      (clientSendOrKingReceiveSer n i (Fin.ofNat (2 ^ 32) i.val) .zero 0).bind (tail i) := by
    intro i
    unfold addIds addIdsOpts
    rw [hsum]
    rfl
  refine Runs.alwaysYields (S := only .zero) (P := fun _ => True) ?_ fun i => ?_
  · refine Runs.congr ?_ hprog fun _ => rfl
    refine Runs.bind (S := only .zero) (ps := fun i : Fin n => clientSendOrKingReceiveSer n i (Fin.ofNat (2 ^ 32) i.val) .zero 0)
      (rs := fun i => if i.val = 0 then some (ReceivedShares.mk ((List.range n).map fun i => Fin.ofNat (2 ^ 32) i) (List.range n))
        else none)
      (fun Q hQ => reach_sendReceive (P := fun _ => True) hn .zero 0 (fun i => Fin.ofNat (2 ^ 32) i) (fun i _ => Wire.ok_fixed _) Q
        (fun i => hQ i 0 .zero rfl) (by intros; trivial)) ?_
    intro Q hQ
    have h := reach_scatter (P := fun _ => True) hn .zero (fun _ => Wire.enc S) 4 (fun i hi => FixedWire.enc_length _)
      (fun _ => Proc.done (.ok ())) (fun _ bytes =>
        Proc.bind (.done (unwrap (Wire.dec (T := Fin (2 ^ 32)) bytes))) fun s => .done (assert (s == S))) Q (fun i => hQ 0 i .zero rfl) (by intros; trivial)
    have hd : unwrap (Wire.dec (T := Fin (2 ^ 32)) (Wire.enc S)) = .ok S := by
      rw [Wire.ok_fixed S]; rfl
    simp only [hd, Proc.bind, assert_of (beq_self_eq_true S), ite_self] at h
    have e1 : (fun i : Fin n => tail i (if i.val = 0 then
          some ⟨(List.range n).map fun i => Fin.ofNat (2 ^ 32) i, List.range n⟩ else none)) =
        fun i => if i.val = 0 then (kingSendLoop ((List.range n).map fun _ => Wire.enc S) 4 .zero
          ((List.range n).filter (· ≠ 0))).bind fun _ => Proc.done (.ok ())
        else .recv 0 .zero fun bytes =>
          Proc.bind (.done (unwrap (Wire.dec (T := Fin (2 ^ 32)) bytes))) fun s => .done (assert (s == S)) := by
      funext i
      by_cases hi : i.val = 0
      · have ha : assert (Fin.ofNat (2 ^ 32) i.val == 0) = .ok () := by rw [hi]; rfl
        have hr : rd (List.replicate n (Wire.enc S)) 0 = .ok (Wire.enc S) := by
          unfold rd
          rw [List.getElem?_replicate, if_pos hn]
        have hl : (Wire.enc S).length = 4 := FixedWire.enc_length _
        rw [if_pos hi, if_pos hi]
        show Proc.bind (.done (assert _)) (fun _ => Proc.bind (.done (sumU32 dbg _)) fun sum =>
          Proc.bind (clientReceiveOrKingSend n i (some (List.replicate n (Wire.enc sum))) .zero) fun _ =>
            Proc.bind (.done (.ok sum)) fun sum => .done (assert (sum == S))) = _
        rw [ha, hsum]
        show Proc.bind (clientReceiveOrKingSend n i (some (List.replicate n (Wire.enc S))) .zero) (fun _ =>
            .done (assert (S == S))) = _
        rw [assert_of (beq_self_eq_true S)]
        unfold clientReceiveOrKingSend
        simp only [hi, ne_eq, not_true_eq_false, if_false]
        rw [hr]
        show Proc.bind (Proc.bind (kingSendLoop _ (Wire.enc S).length _ _) _) _ = _
        rw [Proc.bind_assoc, hl]
        have : List.replicate n (Wire.enc S) = (List.range n).map fun _ => Wire.enc S := by simp
        rw [this]
        rfl
      · have ha : assert (Fin.ofNat (2 ^ 32) i.val != 0) = .ok () := by
          rw [assert_of]
          rw [bne_iff_ne]
          intro hc
          have := congrArg Fin.val hc
          rw [hid i] at this
          exact hi this
        rw [if_neg hi, if_neg hi]
        show Proc.bind (.done (assert _)) (fun _ => Proc.bind (clientReceiveOrKingSend n i none .zero) fun bytes =>
          Proc.bind (.done (unwrap (Wire.dec (T := Fin (2 ^ 32)) bytes))) fun sum => .done (assert (sum == S))) = _
        rw [ha]
        unfold clientReceiveOrKingSend
        simp only [hi, if_false]
        rfl
    exact e1 ▸ h
  · rw [hprog i]
    refine Proc.WF.bind (sendReceive_wf hn _ _ _ _) fun r => ?_
    cases r with
    | none =>
      exact Proc.WF.bind (.done _ _) fun _ => Proc.WF.bind (clientReceiveOrKingSend_wf _ _ _) fun _ =>
        Proc.WF.bind (.done _ _) fun _ => .done _ _
    | some rs =>
      exact Proc.WF.bind (.done _ _) fun _ => Proc.WF.bind (.done _ _) fun _ =>
        Proc.WF.bind (clientReceiveOrKingSend_wf _ _ _) fun _ => Proc.WF.bind (.done _ _) fun _ => .done _ _

/-- **C66** In a debug build with at least 92683 parties every party panics when it adds up the expected sum. -/
theorem C66_add_ids_overflow {n : Nat} (hn : 92683 ≤ n) (hn32 : n ≤ 2 ^ 32) (me : Nat) : addIds true n me = .done panic' := by
  have hs : sumU32 true ((List.range n).map (Fin.ofNat (2 ^ 32))) = panic' := by
    refine foldU32_panic _ 0 ?_
    rw [sum_ids hn32, sum_range_id]
    have : 92683 * 92682 ≤ n * (n - 1) := Nat.mul_le_mul hn (by omega)
    omega
  unfold addIds addIdsOpts
  rw [hs]
  rfl

/-! ### Examples -/

example (dbg : Bool) : ∃ cd : ConstraintDomain (ZMod 17), ConstraintDomain.new dbg (2 ^ 2) = .ok cd ∧
    (∀ x : ZMod 17, x ∈ cd.constraint2.elements ↔ x ^ (2 * 4) = 1) :=
  let ⟨cd, e, hm, _, _, _, _, _, h, _⟩ := C65_constraint_domain (F := ZMod 17) (k := 2) (by decide) dbg
  ⟨cd, e, fun x => by rw [h x, hm]; norm_num⟩

/-- Size 3 is refused in debug builds and accepted in release builds. -/
example : (¬ ∃ cd : ConstraintDomain (ZMod 17), ConstraintDomain.new true 3 = .ok cd) ∧
    ∃ cd : ConstraintDomain (ZMod 17), ConstraintDomain.new false 3 = .ok cd := by
  refine ⟨fun h => ?_, (C65_constraint_domain_iff 3).2.2 (by decide)⟩
  obtain ⟨k, e, -⟩ := (C65_constraint_domain_iff (F := ZMod 17) 3).1.1 h
  rcases k with _ | _ | k
  · omega
  · omega
  · rw [pow_succ, pow_succ] at e; omega

example : ∃ (cd : ConstraintDomain (ZMod 17)) (P Q W : (ZMod 17)[X]), ConstraintDomain.new true (2 ^ 2) = .ok cd ∧
    Interpolates cd.constraint.groupGen (2 ^ 2) (fun i => [0, 1, 2, 3].getD i 0) P ∧
    localGroth cd [0, 1, 2, 3] [5, 1, 2, 4] [0, 1, 4, 9] (1 : ZMod 17) 2 3 4 (5 : ZMod 17) 6 = .ok
      { h := (List.range (2 * 2 ^ 2)).map (P * Q - W).coeff
        a := ((6 : ZMod 17) * (2 ^ 2 ^ 2 - 1)) • 1
        b := ((6 : ZMod 17) * (2 ^ 2 ^ 2 - 1)) • 5
        c := ((6 : ZMod 17) * (2 ^ 2 ^ 2 - 1)) • (4 + 3) + (P.eval 2 * Q.eval 2 - W.eval 2) • 2 } := by
  obtain ⟨cd, e, hm, hs, -, -, -, ho, -, hwf, -⟩ := ConstraintDomain.new_ok (F := ZMod 17) (k := 2) (by decide) true
  obtain ⟨P, hP⟩ := Interpolates.exists hwf ho [0, 1, 2, 3] (by rw [hs]; rfl)
  obtain ⟨Q, hQ⟩ := Interpolates.exists hwf ho [5, 1, 2, 4] (by rw [hs]; rfl)
  obtain ⟨W, hW⟩ := Interpolates.exists hwf ho [0, 1, 4, 9] (by rw [hs]; rfl)
  rw [hs] at hP hQ hW
  refine ⟨cd, P, Q, W, e, hP, ?_⟩
  exact C65_local_groth e [0, 1, 2, 3] [5, 1, 2, 4] [0, 1, 4, 9] (by simp) (by simp) (by simp) (1 : ZMod 17) 2 3 4 (5 : ZMod 17) 6
    hP hQ hW

example {cd : ConstraintDomain (ZMod 17)} (hcd : ConstraintDomain.new false 3 = .ok cd) :
    localGroth cd [0, 1, 2] [0, 1, 2] [0, 1, 2] (1 : ZMod 17) 2 3 4 (5 : ZMod 17) 6 = panic' :=
  C65_local_groth_not_pow2 (fun k => by
    rcases k with _ | _ | k
    · omega
    · omega
    · rw [pow_succ, pow_succ]; omega) hcd _ _ _ _ _ _ _ _ _

/-- Four constraints in two slots: draws 0-1, 2-5, 6-7, 8-9, 10-11 and 12-19. -/
example : (PackedProvingKeyShare.rand (fun k => k) (fun k => 100 + k) 0 4 2).map (fun pk => (pk.s, pk.u, pk.w, pk.h, pk.v, pk.betaG2)) =
    .ok ([0, 1], [2, 3, 4, 5], [6, 7], [8, 9], [110, 111], 119) := rfl

example (dbg : Bool) : AlwaysYields (Net.init fun i : Fin 5 => addIds dbg 5 i) (fun _ => ()) :=
  C66_add_ids dbg (by omega) (by omega) fun _ => by decide

/-- Example for C66: six constraints in four slots (`6/4 = 1` and `12/4 = 3` points). -/
example : ∃ pk : PackedProvingKeyShare Nat Nat, PackedProvingKeyShare.rand (fun k => k) (fun k => 100 + k) 7 6 4 = .ok pk ∧ pk.s = [7] := by
  obtain ⟨pk, d, h, hs, -⟩ := C66_rand (fun k => k) (fun k => 100 + k) 7 6 4 (by norm_num)
  exact ⟨pk, h, hs⟩

/-- Example for C66: party 5 of 92683 panics in a debug build. -/
example : addIds true 92683 5 = .done panic' := C66_add_ids_overflow (by norm_num) (by norm_num) 5

end Properties

end ZkSaas
