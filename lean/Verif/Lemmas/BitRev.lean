import Verif.Model.Dfft
import Verif.Spec.BitRev
import Verif.Lemmas.Basic
import Mathlib.Tactic.Ring

/-! Bit reversal and `fft_in_place_rearrange`. -/

namespace ZkSaas

open Spec

theorem bitRev_lt (k i : Nat) : bitRev k i < 2 ^ k := by
  induction k generalizing i with
  | zero => simp [bitRev]
  | succ k ih =>
    rw [bitRev, pow_succ]
    have := ih (i / 2)
    have : i % 2 ≤ 1 := by omega
    have : (i % 2) * 2 ^ k ≤ 1 * 2 ^ k := Nat.mul_le_mul_right _ this
    omega

theorem bitRev_testBit (k i j : Nat) (hj : j < k) :
    (bitRev k i).testBit j = i.testBit (k - 1 - j) := by
  induction k generalizing i with
  | zero => omega
  | succ k ih =>
    rw [bitRev, Nat.mul_comm]
    rw [Nat.testBit_two_pow_mul_add _ (bitRev_lt k _)]
    by_cases h : j < k
    · rw [if_pos h, ih _ h, Nat.testBit_div_two]
      congr 1; omega
    · have : j = k := by omega
      subst this
      rw [if_neg h]
      simp

theorem bitRev_testBit_ge (k i j : Nat) (hj : k ≤ j) : (bitRev k i).testBit j = false :=
  Nat.testBit_lt_two_pow (lt_of_lt_of_le (bitRev_lt k i) (Nat.pow_le_pow_right (by norm_num) hj))

theorem bitRev_bitRev (k i : Nat) (hi : i < 2 ^ k) : bitRev k (bitRev k i) = i := by
  apply Nat.eq_of_testBit_eq
  intro j
  by_cases hj : j < k
  · rw [bitRev_testBit k _ j hj, bitRev_testBit k _ _ (by omega)]
    congr 1; omega
  · rw [bitRev_testBit_ge k _ j (by omega), Nat.testBit_lt_two_pow]
    exact lt_of_lt_of_le hi (Nat.pow_le_pow_right (by norm_num) (by omega))

theorem bitRev_zero (k : Nat) : bitRev k 0 = 0 := by
  induction k with
  | zero => rfl
  | succ k ih => simp [bitRev, ih]

/-- Incrementing in reversed binary. -/
theorem bumpTarget_bitRev (k pos : Nat) : bumpTarget (bitRev k pos) (2 ^ k >>> 1) = bitRev k (pos + 1) := by
  induction k generalizing pos with
  | zero =>
    unfold bumpTarget
    simp [bitRev]
  | succ k ih =>
    have hm : 2 ^ (k + 1) >>> 1 = 2 ^ k := by
      rw [Nat.shiftRight_eq_div_pow, pow_succ]; omega
    have hlt := bitRev_lt k (pos / 2)
    rw [hm, bitRev]
    unfold bumpTarget
    rcases Nat.mod_two_eq_zero_or_one pos with h | h
    · have h0 : (bitRev k (pos / 2)) &&& 2 ^ k = 0 := by
        rw [Nat.and_two_pow, Nat.testBit_lt_two_pow hlt]; simp
      rw [h, Nat.zero_mul, Nat.zero_add, dif_neg (by simpa using h0)]
      rw [bitRev, show (pos + 1) % 2 = 1 by omega, show (pos + 1) / 2 = pos / 2 by omega, one_mul,
        Nat.lor_comm]
      have := Nat.two_pow_add_eq_or_of_lt hlt 1
      rw [mul_one] at this
      exact this.symm
    · have hb : (1 * 2 ^ k + bitRev k (pos / 2)).testBit k = true := by
        rw [Nat.mul_comm, Nat.testBit_two_pow_mul_add _ hlt]; simp
      have h1 : (1 * 2 ^ k + bitRev k (pos / 2)) &&& 2 ^ k = 2 ^ k := by
        rw [Nat.and_two_pow, hb]; simp
      have hne : ¬ ((2 : Nat) ^ k = 0) := by positivity
      rw [h, h1, dif_pos hne]
      have hx : (1 * 2 ^ k + bitRev k (pos / 2)) ^^^ 2 ^ k = bitRev k (pos / 2) := by
        have : 1 * 2 ^ k + bitRev k (pos / 2) = 2 ^ k ^^^ bitRev k (pos / 2) := by
          apply Nat.eq_of_testBit_eq
          intro j
          rw [Nat.mul_comm, Nat.testBit_two_pow_mul_add _ hlt, Nat.testBit_xor, Nat.testBit_two_pow]
          by_cases hj : j < k
          · rw [if_pos hj]
            have : ¬ k = j := by omega
            simp [this]
          · rw [if_neg hj, Nat.testBit_lt_two_pow (lt_of_lt_of_le hlt
              (Nat.pow_le_pow_right (by norm_num) (Nat.le_of_not_lt hj)))]
            by_cases hk : k = j
            · subst hk; simp
            · have : j - k ≠ 0 := by omega
              simp [hk]
              rw [Nat.testBit_eq_false_of_lt]
              have : 2 ≤ 2 ^ (j - k) := by
                calc 2 = 2 ^ 1 := rfl
                  _ ≤ 2 ^ (j - k) := Nat.pow_le_pow_right (by norm_num) (by omega)
              omega
        rw [this, Nat.xor_comm (2 ^ k), Nat.xor_assoc, Nat.xor_self, Nat.xor_zero]
      rw [hx, ih, bitRev, show (pos + 1) % 2 = 0 by omega, show (pos + 1) / 2 = pos / 2 + 1 by omega]
      simp

section
variable {T : Type}

theorem swap_ok (v : List T) {i j : Nat} (d : T) (hi : i < v.length) (hj : j < v.length) :
    ∃ w, swap v i j = .ok w ∧ w.length = v.length ∧
      ∀ p, w.getD p d = if p = j then v.getD i d else if p = i then v.getD j d else v.getD p d := by
  refine ⟨(v.set i (v.getD j d)).set j (v.getD i d), ?_, by simp, ?_⟩
  · unfold swap
    rw [rd_ok hi d, ok_bind, rd_ok hj d, ok_bind, wr_ok hi, ok_bind, wr_ok (by simpa using hj)]
  · intro p
    rw [getD_set, getD_set]
    by_cases h1 : j = p
    · subst h1; simp [hj]
    · by_cases h2 : i = p
      · subst h2
        rw [if_neg (by tauto), if_pos ⟨rfl, hi⟩, if_neg (by tauto), if_pos rfl]
      · rw [if_neg (by tauto), if_neg (by tauto), if_neg (by tauto), if_neg (by tauto)]

/-- `fft_in_place_rearrange` is the bit reversal permutation. -/
theorem fftInPlaceRearrange_eq (k : Nat) (data : List T) (d : T) (hlen : data.length = 2 ^ k) :
    fftInPlaceRearrange data = .ok ((List.range (2 ^ k)).map fun i => data.getD (bitRev k i) d) := by
  unfold fftInPlaceRearrange
  obtain ⟨⟨w, t⟩, e, hw, ht, hp⟩ := forUp_inv (n := data.length) (s := (data, 0))
    (body := fun pos (st : List T × Nat) => do
      let data ← if st.2 > pos then swap st.1 st.2 pos else .ok st.1
      pure (data, bumpTarget st.2 (data.length >>> 1)))
    (P := fun pos (st : List T × Nat) => st.1.length = 2 ^ k ∧ st.2 = bitRev k pos ∧
      ∀ i < 2 ^ k, st.1.getD i d =
        if min i (bitRev k i) < pos then data.getD (bitRev k i) d else data.getD i d)
    ⟨hlen, (bitRev_zero k).symm, fun i _ => by simp⟩
    (by
      rintro pos hpos ⟨v, t⟩ ⟨hv, ht, hp⟩
      simp only at hv ht hp ⊢
      rw [hlen] at hpos
      have hbl := bitRev_lt k pos
      have hbb := bitRev_bitRev k pos hpos
      by_cases hgt : t > pos
      · obtain ⟨w, e, hwl, hw⟩ := swap_ok v d (i := t) (j := pos) (by omega) (by omega)
        rw [if_pos hgt, e]
        refine ⟨(w, bumpTarget t (w.length >>> 1)), rfl, by rw [hwl, hv], ?_, ?_⟩
        · show bumpTarget t (w.length >>> 1) = _
          rw [hwl, hv, ht, bumpTarget_bitRev]
        · intro i hi
          show w.getD i d = _
          rw [hw i]
          have hibb := bitRev_bitRev k i hi
          by_cases h1 : i = pos
          · subst h1
            have hbt : bitRev k t = i := by rw [ht]; exact hbb
            rw [if_pos rfl, hp t (by omega), hbt, if_neg (by omega), if_pos (by omega), ht]
          · rw [if_neg h1]
            by_cases h2 : i = t
            · subst h2
              rw [if_pos rfl, hp pos hpos, if_neg (by omega), ht, hbb, if_pos (by omega)]
            · rw [if_neg h2, hp i hi]
              have : bitRev k i ≠ pos := by
                intro h; apply h2; rw [ht, ← h, hibb]
              by_cases h3 : min i (bitRev k i) < pos
              · rw [if_pos h3, if_pos (by omega)]
              · rw [if_neg h3, if_neg (by omega)]
      · rw [if_neg hgt]
        refine ⟨(v, bumpTarget t (v.length >>> 1)), rfl, hv, ?_, ?_⟩
        · show bumpTarget t (v.length >>> 1) = _
          rw [hv, ht, bumpTarget_bitRev]
        · intro i hi
          show v.getD i d = _
          rw [hp i hi]
          have hibb := bitRev_bitRev k i hi
          by_cases h3 : min i (bitRev k i) < pos
          · rw [if_pos h3, if_pos (by omega)]
          · rw [if_neg h3]
            by_cases h4 : min i (bitRev k i) < pos + 1
            · rw [if_pos h4]
              have : i = bitRev k i := by
                by_cases h5 : i = pos
                · subst h5; omega
                · have : bitRev k i = pos := by omega
                  rw [this] at hibb
                  omega
              rw [← this]
            · rw [if_neg h4])
  rw [e, ok_bind]
  simp only [pure_ok]
  congr 1
  apply list_ext_getD d (by simp only [List.length_map, List.length_range]; exact hw)
  intro i hi
  simp only at hw hp hi
  rw [hw] at hi
  rw [hp i hi, getD_map_range, if_pos hi, if_pos (by rw [hlen]; omega)]

end

end ZkSaas
