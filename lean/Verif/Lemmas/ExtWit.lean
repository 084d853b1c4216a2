import Verif.Lemmas.Qap
import Verif.Properties.Protocols
import Verif.Spec.Poly
import Mathlib.LinearAlgebra.Lagrange

/-! `libsnark_h`, `circom_h`: joins of three protocols and the polynomial identities behind them. -/

set_option linter.unusedSectionVars false

namespace ZkSaas

open Finset Spec Polynomial

section join
variable {n : Nat} {α β γ δ : Type}

theorem Runs.tryJoin3 {P : Bytes → Prop} {ps : Fin n → Proc α} {qs : Fin n → Proc β} {us : Fin n → Proc γ} {rs : Fin n → α} {ss : Fin n → β}
    {ts : Fin n → γ} (h1 : Runs P (only .zero) ps rs) (h2 : Runs P (only .one) qs ss) (h3 : Runs P (only .two) us ts)
    {k : Fin n → α → β → γ → Proc δ} {out : Fin n → δ} (hk : Runs P (fun _ => True) (fun i => k i (rs i) (ss i) (ts i)) out) :
    Runs P (fun _ => True) (fun i => ZkSaas.tryJoin3 (ps i) (qs i) (us i) (k i)) out := by
  have h12 : Runs P (fun _ => True) (fun i => Proc.par (ps i) (qs i) fun x y => .done (.ok (x, y))) fun i => (rs i, ss i) :=
    Runs.par h1 h2 (fun _ _ => trivial) (fun _ _ => trivial) (Runs.done fun i => (rs i, ss i))
  exact Runs.par h12 h3 (fun _ _ => trivial) (fun _ _ => trivial) hk

theorem Proc.WF.tryJoin3 {p : Proc α} {q : Proc β} {u : Proc γ} {k : α → β → γ → Proc δ}
    (hp : p.WF (only .zero)) (hq : q.WF (only .one)) (hu : u.WF (only .two)) (hk : ∀ x y z, (k x y z).WF fun _ => True) :
    (ZkSaas.tryJoin3 p q u k).WF fun _ => True := by
  refine .par (S1 := fun s => s = .zero ∨ s = .one) (S2 := only .two)
    (by rintro s (h | h) h' <;> rw [h] at h' <;> cases h') (fun _ _ => trivial) (fun _ _ => trivial) ?_ hu fun _ _ => hk _ _ _
  exact .par (S1 := only .zero) (S2 := only .one) (by intro s h h'; rw [h] at h'; cases h') (fun _ h => .inl h)
    (fun _ h => .inr h) hp hq fun _ _ => .done _ _

end join

variable {F : Type} [Field F] [DecidableEq F]

/-- Shares of `x·y - z`, position by position. -/
theorem SharedVec.mulSub {pp : PSS F} (hg : pp.Good) {a b N : Nat} (hlb : pp.l = 2 ^ b) (rev : Bool) (hN : N = 2 ^ a)
    {sx sy sz : Nat → List F} {x y z : Nat → F}
    (hx : pp.SharedVec (2 * pp.l) N sx (packed rev a b x)) (hy : pp.SharedVec (2 * pp.l) N sy (packed rev a b y))
    (hz : pp.SharedVec (2 * pp.l) N sz (packed rev a b z)) :
    pp.SharedVec (4 * pp.l - 1) N (fun p => List.zipWith (fun ab c => ab.1 * ab.2 - c) (List.zip (sx p) (sy p)) (sz p))
      (packed rev a b fun i => x i * y i - z i) := by
  have hl := hg.lpos
  refine ⟨fun p hp => by simp [hx.1 p hp, hy.1 p hp, hz.1 p hp], fun c hc => ?_⟩
  have h1 := Shares.mul (hx.2 c hc) (hy.2 c hc)
  rw [show 2 * pp.l + 2 * pp.l - 1 = 4 * pp.l - 1 by omega] at h1
  have h2 := Shares.add h1 (Shares.smul (-1) (Shares.mono (show 2 * pp.l ≤ 4 * pp.l - 1 by omega) (hz.2 c hc)))
  refine cast ?_ h2
  congr 1
  · apply list_ext_getD 0 (by simp)
    intro p hp
    simp at hp
    rw [List.map_map, getD_zipWith _ _ _ _ 0 0 _ (by simpa using hp) (by simpa using hp),
      getD_zipWith _ _ _ _ 0 0 _ (by simpa using hp) (by simpa using hp)]
    simp only [getD_map_range, Function.comp, if_pos hp]
    rw [getD_zipWith _ _ _ _ (0, 0) 0 _ (by simp [hx.1 p hp, hy.1 p hp]; exact hc) (by rw [hz.1 p hp]; exact hc)]
    rw [List.zip, getD_zipWith _ _ _ _ 0 0 _ (by rw [hx.1 p hp]; exact hc) (by rw [hy.1 p hp]; exact hc)]
    simp only [smul_eq_mul]
    ring
  · unfold packed
    apply list_ext_getD 0 (by simp)
    intro j hj
    simp at hj
    rw [List.map_map, getD_zipWith _ _ _ _ 0 0 _ (by simpa using hj) (by simpa using hj),
      getD_zipWith _ _ _ _ 0 0 _ (by simpa using hj) (by simpa using hj)]
    simp only [getD_map_range, Function.comp, if_pos hj, smul_eq_mul]
    ring

theorem evalAt_coeffs {m : Nat} {A : F[X]} (h : A.degree < m) (x : F) : evalAt ((List.range m).map A.coeff) x = A.eval x := by
  unfold evalAt
  rw [List.length_map, List.length_range]
  rcases Nat.eq_zero_or_pos m with rfl | hm
  · have : A = 0 := by
      by_contra h0
      have h1 : A.degree ≠ ⊥ := fun h => h0 (degree_eq_bot.1 h)
      rw [degree_eq_natDegree h0] at h
      norm_cast at h
    simp [this]
  · rw [eval_eq_sum_range' (n := m) (by
      by_cases h0 : A = 0
      · simp [h0, hm]
      · exact (natDegree_lt_iff_degree_lt h0).2 h)]
    apply sum_congr rfl
    intro j hj
    rw [getD_map_range, if_pos (mem_range.1 hj), smul_eq_mul, mul_comm]

theorem Interpolates.fft {dom : Domain F} (hoff : dom.offset = 1) {v : List F} (hv : v.length = dom.size) {A : F[X]}
    (h : Interpolates dom.groupGen dom.size (fun i => v.getD i 0) A) :
    dom.fft ((List.range dom.size).map A.coeff) = v := by
  apply list_ext_getD 0 (by simp [hv])
  intro i hi
  rw [Domain.fft_length] at hi
  have := h.2 i hi
  dsimp only at this
  rw [← this, ← evalAt_coeffs h.1, Domain.fft, getD_map_range, if_pos hi, resize_eq_of_length 0 (by simp), Domain.element,
    hoff, one_mul]

/-- Interpolating polynomials exist and are unique. -/
theorem Interpolates.unique {ω : F} {m : Nat} (hω : IsPrimitiveRoot ω m) {v : Nat → F} {A B : F[X]}
    (hA : Interpolates ω m v A) (hB : Interpolates ω m v B) : A = B := by
  refine Polynomial.eq_of_degrees_lt_of_eval_index_eq (s := Finset.range m) (v := fun i => ω ^ i)
    ?_ (by simpa using hA.1) (by simpa using hB.1) fun i hi => ?_
  · intro i hi j hj h
    exact hω.pow_inj (by simpa using hi) (by simpa using hj) h
  · rw [hA.2 i (by simpa using hi), hB.2 i (by simpa using hi)]

theorem Interpolates.exists {dom : Domain F} (hwf : dom.WF) (hoff : dom.offset = 1) (v : List F) (hv : v.length = dom.size) :
    ∃ A : F[X], Interpolates dom.groupGen dom.size (fun i => v.getD i 0) A := by
  refine ⟨toPoly (dom.ifft v), by simpa using toPoly_degree_lt (dom.ifft v), fun i hi => ?_⟩
  have := Domain.eval_ifft hwf v hi
  rw [Domain.element, hoff, one_mul] at this
  rw [toPoly_eval, Domain.ifft_length]
  exact this

end ZkSaas
