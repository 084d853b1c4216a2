import Verif.Lemmas.Gao
import Verif.Properties.Pss

/-!
# Properties C13–C15: the Gao decoder (`secret-sharing/src/gao.rs`)
-/

namespace ZkSaas.Properties

open Polynomial Spec

variable {F : Type} [Field F] [DecidableEq F]

/-- **C13** With a positive stop bound `partial_xgcd` terminates without dividing by zero; the result satisfies the
Bezout relation and the degree bound. -/
theorem C13_partial_xgcd (a b : F[X]) (n k : Nat) (h : 1 ≤ (n + k) / 2) :
    ∃ r s, partialXgcd a b n k = .ok (r, s) ∧ r.natDegree < (n + k) / 2 ∧ ∃ t, r = a * t + s * b := by
  obtain ⟨r, s, e, h1, t, h2⟩ := xgcdLoop_spec ((k + n) / 2) (by omega) a b b a 1 0 (by simp) (by simp)
  exact ⟨r, s, e, by omega, t, by rw [← h2]; ring⟩

/-- **C13** With stop bound zero it never returns a result. -/
theorem C13_stop_zero (a b : F[X]) (n k : Nat) (h : (n + k) / 2 = 0) : partialXgcd a b n k = panic' := by
  unfold partialXgcd
  rw [show (k + n) / 2 = 0 by omega]
  exact xgcdLoop_zero _ _ _ _

example : 1 ≤ (16 + 10) / 2 := by decide

variable [FftField F]

/-- **C14** The decoder corrects up to half the minimum distance: at most `(n-k)/2` wrong positions. -/
theorem C14_gao_corrects {dbg₀ : Bool} {b : Nat} {pp : PSS F} (hpp : PSS.new dbg₀ (2 ^ b) = .ok pp)
    (k : Nat) (hk : k ≤ 4 * 2 ^ b) (f : F[X]) (hf : f.degree < k) (received : List F)
    (herr : ((Finset.range (4 * 2 ^ b)).filter
      fun i => received.getD i 0 ≠ f.eval (pp.share.groupGen ^ i)).card ≤ (4 * 2 ^ b - k) / 2) :
    pp.decodeToMessage received (4 * 2 ^ b) k = .ok f := by
  have hg := PSS.good_of_new hpp
  have hle := l_eq hpp
  rw [← hle] at hk herr ⊢
  exact decode_correct hg k hk f hf received (by omega)

/-- Non-vacuity: `1 + 4X` on the eight points with position 1 corrupted, as in `gao.rs:126-140`. -/
example : (C 1 + C 4 * X : (ZMod 17)[X]).degree < 4 ∧
    ((Finset.range (4 * 2 ^ 1)).filter fun i =>
      ([5, 4, 2, 10, 14, 16, 0, 9] : List (ZMod 17)).getD i 0 ≠
        (C 1 + C 4 * X : (ZMod 17)[X]).eval (pp17.share.groupGen ^ i)).card ≤ (4 * 2 ^ 1 - 4) / 2 := by
  constructor
  · refine lt_of_le_of_lt (degree_add_le _ _) ?_
    refine max_lt ?_ ?_
    · exact lt_of_le_of_lt degree_C_le (by decide)
    · exact lt_of_le_of_lt (degree_C_mul_X_le _) (by decide)
  · simp only [eval_add, eval_C, eval_mul, eval_X]
    decide +kernel

/-- **C15** Anything the decoder returns agrees with the received word in at least `(n+k)/2` positions. -/
theorem C15_gao_close {dbg₀ : Bool} {b : Nat} {pp : PSS F} (hpp : PSS.new dbg₀ (2 ^ b) = .ok pp)
    (k : Nat) (hk : k ≤ 4 * 2 ^ b) (received : List F) (h : F[X])
    (hd : pp.decodeToMessage received (4 * 2 ^ b) k = .ok h) :
    (4 * 2 ^ b + k) / 2 ≤ ((Finset.range (4 * 2 ^ b)).filter
      fun i => received.getD i 0 = h.eval (pp.share.groupGen ^ i)).card := by
  have hg := PSS.good_of_new hpp
  have hle := l_eq hpp
  rw [← hle] at hk hd ⊢
  exact (decode_close hg received k hk hd).2

/-- **C15** Otherwise it panics (there is no other error). -/
theorem C15_gao_ok_or_panic (pp : PSS F) (k n : Nat) (received : List F) :
    (∃ h, pp.decodeToMessage received n k = .ok h) ∨ pp.decodeToMessage received n k = panic' := by
  unfold PSS.decodeToMessage
  simp only
  by_cases h0 : (n + k) / 2 = 0
  · right
    rw [C13_stop_zero _ _ _ _ h0]; rfl
  · obtain ⟨r, s, e, _⟩ := C13_partial_xgcd
      (X ^ pp.share.size - C (pp.share.offset ^ pp.share.size)) (toPoly (pp.share.ifft received)) n k (by omega)
    rw [e, ok_bind]
    simp only
    unfold divideWithQAndR
    split
    · left; exact ⟨0, by simp⟩
    · split
      · right; rfl
      · simp only [ok_bind]
        by_cases hrem : r % s = 0
        · left; exact ⟨r / s, by rw [assert_of (by simpa using hrem)]; rfl⟩
        · right; rw [assert_panic_of (by simpa using hrem)]; rfl

/-- **C15** (no membership check) The decoder does not check that its result is a message: a received word that
interpolates to a polynomial of degree between `k` and `(n+k)/2 - 1` is returned unchanged. -/
theorem C15_gao_returns_non_messages {dbg₀ : Bool} {b : Nat} {pp : PSS F} (hpp : PSS.new dbg₀ (2 ^ b) = .ok pp)
    (k : Nat) (f : F[X]) (hf : f.natDegree < (4 * 2 ^ b + k) / 2) (hn : f.natDegree < 4 * 2 ^ b)
    (received : List F) (hr : ∀ i < 4 * 2 ^ b, received.getD i 0 = f.eval (pp.share.groupGen ^ i)) :
    pp.decodeToMessage received (4 * 2 ^ b) k = .ok f := by
  have hg := PSS.good_of_new hpp
  have hle := l_eq hpp
  rw [← hle] at hf hn hr ⊢
  have hR : toPoly (pp.share.ifft received) = f := by
    apply eq_of_degrees_lt_of_eval_index_eq (s := Finset.range (4 * pp.l))
      (v := fun i => pp.share.groupGen ^ i) (share_points_injOn hg)
    · have := toPoly_degree_lt (pp.share.ifft received)
      rwa [Domain.ifft_length, hg.share_size, ← Finset.card_range (4 * pp.l)] at this
    · rw [Finset.card_range]
      exact lt_of_le_of_lt degree_le_natDegree (by exact_mod_cast hn)
    · intro i hi
      rw [toPoly_ifft_eval hg received (Finset.mem_range.1 hi), hr i (Finset.mem_range.1 hi)]
  have e : partialXgcd (X ^ pp.share.size - C (pp.share.offset ^ pp.share.size))
        (toPoly (pp.share.ifft received)) (4 * pp.l) k = .ok (f, 1) := by
    unfold partialXgcd xgcdLoop
    rw [hR, if_neg (by omega)]
  exact decode_of_mul hg received e one_ne_zero (by simp)

/-- Non-vacuity: `X^5` has degree 5, at least `k = 4` but below `(8+4)/2`. -/
example : 4 ≤ (X ^ 5 : (ZMod 17)[X]).natDegree ∧ (X ^ 5 : (ZMod 17)[X]).natDegree < (4 * 2 ^ 1 + 4) / 2 := by
  simp

/-- Examples for C13 to C15: the theorems on concrete polynomials and words. -/
example : ∃ r s, partialXgcd (X ^ 8 - 1 : (ZMod 17)[X]) (X ^ 7 + X) 8 4 = .ok (r, s) ∧ r.natDegree < 6 :=
  let ⟨r, s, h1, h2, _⟩ := C13_partial_xgcd (X ^ 8 - 1 : (ZMod 17)[X]) (X ^ 7 + X) 8 4 (by decide)
  ⟨r, s, h1, h2⟩

example : partialXgcd (X ^ 8 - 1 : (ZMod 17)[X]) (X ^ 7 + X) 1 0 = panic' := C13_stop_zero _ _ _ _ rfl

theorem word17 : pp17.decodeToMessage ([5, 4, 2, 10, 14, 16, 0, 9] : List (ZMod 17)) (4 * 2 ^ 1) 4 = .ok (C 1 + C 4 * X) := by
  refine C14_gao_corrects (b := 1) (pp17_eq true) 4 (by decide) _ ?_ _ ?_
  · refine lt_of_le_of_lt (degree_add_le _ _) (max_lt ?_ ?_)
    · exact lt_of_le_of_lt degree_C_le (by decide)
    · exact lt_of_le_of_lt (degree_C_mul_X_le _) (by decide)
  · simp only [eval_add, eval_C, eval_mul, eval_X]
    decide +kernel

example : (4 * 2 ^ 1 + 4) / 2 ≤ ((Finset.range (4 * 2 ^ 1)).filter fun i =>
    ([5, 4, 2, 10, 14, 16, 0, 9] : List (ZMod 17)).getD i 0 = (C 1 + C 4 * X : (ZMod 17)[X]).eval (pp17.share.groupGen ^ i)).card :=
  C15_gao_close (b := 1) (pp17_eq true) 4 (by decide) _ _ word17

example : (∃ h, pp17.decodeToMessage [1, 2, 3, 4, 5, 6, 7, 8] 8 4 = .ok h) ∨ pp17.decodeToMessage [1, 2, 3, 4, 5, 6, 7, 8] 8 4 = panic' :=
  C15_gao_ok_or_panic pp17 4 8 [1, 2, 3, 4, 5, 6, 7, 8]

example : pp17.decodeToMessage ((List.range 8).map fun i => (pp17.share.groupGen ^ i) ^ 5) (4 * 2 ^ 1) 4 = .ok (X ^ 5) :=
  C15_gao_returns_non_messages (b := 1) (pp17_eq true) 4 (X ^ 5) (by simp) (by simp) _ (by
    intro i hi
    rw [getD_map_range, if_pos (by omega), eval_pow, eval_X])

end ZkSaas.Properties
