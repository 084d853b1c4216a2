import Verif.Lemmas.Lagrange
import Verif.Model.Examples

/-!
# Properties C09–C12: polynomial helpers of `secret-sharing/src/utils.rs`
-/

namespace ZkSaas.Properties

open Finset Spec Polynomial

variable {F : Type} [Field F] [DecidableEq F]

/-- **C09** `eval` is polynomial evaluation and `eval_many` evaluates at every point. -/
theorem C09_eval (p : List F) (x : F) (xs : List F) :
    ZkSaas.eval p x = (toPoly p).eval x ∧
    evalMany p xs = xs.map (fun y => (toPoly p).eval y) :=
  ⟨eval_eq p x, by simp [evalMany, eval_eq]⟩

example : ZkSaas.eval ([1, 2, 3] : List (ZMod 17)) 2 = 0 := by decide

/-- **C10** `syn_div` is division by `X^a - b`: same length, zero padding, Euclidean quotient; -/
theorem C10_syn_div (p : List F) (a : Nat) (b : F) (ha : a ≠ 0) (hb : b ≠ 0) (hl : a < p.length) :
    ∃ q : List F, synDiv p a b = .ok q ∧ q.length = p.length ∧
      (∀ j, p.length ≤ j + a → q.getD j 0 = 0) ∧
      toPoly q = toPoly p /ₘ (X ^ a - C b) ∧
      ∃ r : F[X], r.degree < a ∧ toPoly p = toPoly q * (X ^ a - C b) + r := by
  obtain ⟨q, h1, h2, h3, r, h4, h5⟩ := synDiv_ok ha hb hl
  refine ⟨q, h1, h2, h3, ?_, r, h4, h5⟩
  have hm : (X ^ a - C b).Monic := monic_X_pow_sub_C b ha
  refine ((div_modByMonic_unique (f := toPoly p) (q := toPoly q) (r := r) hm ⟨?_, ?_⟩).1).symm
  · rw [h5]; ring
  · rwa [degree_X_pow_sub_C (Nat.pos_of_ne_zero ha)]

/-- **C10** … and it panics exactly outside those conditions. -/
theorem C10_syn_div_panics (p : List F) (a : Nat) (b : F) :
    synDiv p a b = panic' ↔ a = 0 ∨ b = 0 ∨ p.length ≤ a := by
  constructor
  · intro h
    by_contra hcon
    push Not at hcon
    obtain ⟨q, h1, _⟩ := synDiv_ok hcon.1 hcon.2.1 hcon.2.2
    rw [h1] at h
    exact ok_ne_panic _ h
  · exact synDiv_panic

example : synDiv ([1, 2, 3, 4, 5] : List (ZMod 17)) 2 3 = .ok [1, 4, 5, 0, 0] := by decide

/-- **C11** `get_zero_roots` is the vanishing polynomial of the points. -/
theorem C11_get_zero_roots (xs : List F) :
    ∃ v, getZeroRoots xs = .ok v ∧ v.length = xs.length + 1 ∧
      toPoly v = (xs.map fun x => X - C x).prod :=
  getZeroRoots_ok xs

example : getZeroRoots ([1, 2] : List (ZMod 17)) = .ok [2, 14, 1] := by decide

variable {T : Type} [AddCommGroup T] [Module F T] [DecidableEq T]

/-- **C12** Lagrange interpolation: through the points, short enough, unique, and without trailing
zeros unless identically zero. -/
theorem C12_lagrange_interpolate (xs : List F) (ys : List T) (hnd : xs.Nodup) (h0 : (0 : F) ∉ xs)
    (hl : ys.length = xs.length) :
    ∃ res, lagrangeInterpolate xs ys = .ok res ∧ res.length ≤ xs.length ∧
      (∀ k < xs.length, pval (fun j => res.getD j 0) xs.length (xs.getD k 0) = ys.getD k 0) ∧
      (∀ c : Nat → T, (∀ k < xs.length, pval c xs.length (xs.getD k 0) = ys.getD k 0) →
        ∀ j < xs.length, c j = res.getD j 0) ∧
      ((∃ x ∈ res, x ≠ 0) → ∃ h : res ≠ [], res.getLast h ≠ 0) ∧
      ((∀ x ∈ res, x = 0) → res.length = xs.length) := by
  obtain ⟨res, h1, h2, h3, h4, h5⟩ := lagrangeInterpolate_passes (ys := ys) hnd h0 hl
  refine ⟨res, h1, h2, h3, ?_, h4, h5⟩
  intro c hc j hj
  obtain ⟨res', e', _, h6⟩ := lagrangeInterpolate_coeffs (ys := ys) hnd h0 hl (c := c) le_rfl
    (fun i hi => (hc i hi).symm)
  rw [h1] at e'
  cases e'
  rw [h6 j, if_pos hj]

/-- **C12** A zero among the points is a panic. -/
theorem C12_zero_point_panics (xs : List F) (ys : List T) (h0 : (0 : F) ∈ xs) :
    lagrangeInterpolate xs ys = panic' :=
  lagrangeInterpolate_zero_panic h0

example : lagrangeInterpolate ([1, 2, 3] : List (ZMod 17)) ([2, 3, 4] : List (ZMod 17)) = .ok [1, 1] := by
  decide +kernel

example : ([1, 2, 3] : List (ZMod 17)).Nodup ∧ (0 : ZMod 17) ∉ ([1, 2, 3] : List (ZMod 17)) := by decide

/-- Examples for C09 to C12: the theorems on concrete lists. -/
example : (toPoly ([1, 2, 3] : List (ZMod 17))).eval 2 = 0 :=
  (C09_eval [1, 2, 3] (2 : ZMod 17) []).1.symm.trans (by decide)

example : toPoly ([1, 2, 3, 4, 5] : List (ZMod 17)) /ₘ (X ^ 2 - C 3) = toPoly [1, 4, 5, 0, 0] := by
  obtain ⟨q, h1, -, -, h2, -⟩ := C10_syn_div ([1, 2, 3, 4, 5] : List (ZMod 17)) 2 3 (by decide) (by decide) (by decide)
  rw [← h2, Except.ok.inj (h1.symm.trans (by decide : synDiv ([1, 2, 3, 4, 5] : List (ZMod 17)) 2 3 = .ok [1, 4, 5, 0, 0]))]

example : synDiv ([1, 2] : List (ZMod 17)) 2 3 = panic' := (C10_syn_div_panics _ _ _).2 (by decide)

example : toPoly ([2, 14, 1] : List (ZMod 17)) = ([1, 2].map fun x => X - C x).prod := by
  obtain ⟨v, h1, -, h2⟩ := C11_get_zero_roots ([1, 2] : List (ZMod 17))
  rw [← h2, Except.ok.inj (h1.symm.trans (by decide : getZeroRoots ([1, 2] : List (ZMod 17)) = .ok [2, 14, 1]))]

example : ∃ res, lagrangeInterpolate ([1, 2, 3] : List (ZMod 17)) ([2, 3, 4] : List (ZMod 17)) = .ok res ∧ res.length ≤ 3 :=
  let ⟨res, h1, h2, _⟩ := C12_lagrange_interpolate ([1, 2, 3] : List (ZMod 17)) ([2, 3, 4] : List (ZMod 17)) (by decide) (by decide) rfl
  ⟨res, h1, h2⟩

example : lagrangeInterpolate ([1, 0, 3] : List (ZMod 17)) ([2, 3, 4] : List (ZMod 17)) = panic' :=
  C12_zero_point_panics _ _ (by decide)

end ZkSaas.Properties
