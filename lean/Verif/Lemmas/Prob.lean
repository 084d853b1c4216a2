import Mathlib.Algebra.BigOperators.Field
import Mathlib.Algebra.BigOperators.Fin
import Mathlib.Algebra.Order.BigOperators.Group.Finset
import Mathlib.Data.Fintype.BigOperators
import Mathlib.Data.Fintype.EquivFin
import Mathlib.Tactic.Positivity
import Mathlib.Tactic.FieldSimp
import Mathlib.Tactic.Linarith
import Mathlib.Tactic.Ring
import Verif.Spec.Statistical

/-!
# Finite probabilities
-/

set_option linter.unusedSectionVars false

namespace ZkSaas

open Spec Finset

/-- The average of a function. -/
noncomputable def avg {Ω : Type} [Fintype Ω] (f : Ω → ℚ) : ℚ := (∑ ω, f ω) / Fintype.card Ω

section
variable {Ω O : Type} [Fintype Ω]

open Classical in
theorem prob_eq (E : Ω → Prop) : prob E = avg fun ω => if E ω then 1 else 0 := by
  rw [prob, avg, Nat.card_eq_fintype_card, Nat.card_eq_fintype_card, Fintype.card_subtype, sum_boole]

theorem avg_mono {f g : Ω → ℚ} (h : ∀ ω, f ω ≤ g ω) : avg f ≤ avg g :=
  div_le_div_of_nonneg_right (sum_le_sum fun ω _ => h ω) (Nat.cast_nonneg _)

theorem avg_sub (f g : Ω → ℚ) : avg (fun ω => f ω - g ω) = avg f - avg g := by
  simp only [avg, sum_sub_distrib, sub_div]

theorem avg_add (f g : Ω → ℚ) : avg (fun ω => f ω + g ω) = avg f + avg g := by
  simp only [avg, sum_add_distrib, add_div]

theorem avg_const [Nonempty Ω] (c : ℚ) : avg (fun _ : Ω => c) = c := by
  rw [avg, sum_const, card_univ, nsmul_eq_mul]
  have : (Fintype.card Ω : ℚ) ≠ 0 := by exact_mod_cast Fintype.card_ne_zero
  field_simp

theorem avg_equiv (φ : Ω ≃ Ω) (f : Ω → ℚ) : avg (fun ω => f (φ ω)) = avg f := by
  rw [avg, avg, Equiv.sum_comp φ f]

theorem prob_mono {E E' : Ω → Prop} (h : ∀ ω, E ω → E' ω) : prob E ≤ prob E' := by
  classical
  rw [prob_eq, prob_eq]
  refine avg_mono fun ω => ?_
  by_cases h1 : E ω
  · rw [if_pos h1, if_pos (h ω h1)]
  · rw [if_neg h1]; split <;> norm_num

theorem prob_or (E E' : Ω → Prop) : prob (fun ω => E ω ∨ E' ω) ≤ prob E + prob E' := by
  classical
  rw [prob_eq, prob_eq, prob_eq, ← avg_add]
  refine avg_mono fun ω => ?_
  by_cases h1 : E ω <;> by_cases h2 : E' ω <;> simp [h1, h2]

theorem prob_equiv (φ : Ω ≃ Ω) (E : Ω → Prop) : prob (fun ω => E (φ ω)) = prob E := by
  classical
  rw [prob_eq, prob_eq]
  exact avg_equiv φ fun ω => if E ω then 1 else 0

/-- Random values that a bijection of the draws takes to each other, but for some bad draws. -/
theorem close_of_equiv {X Y : Ω → O} (φ : Ω ≃ Ω) (B : Ω → Prop) (h : ∀ ω, ¬ B ω → X ω = Y (φ ω)) : Close (prob B) X Y := by
  classical
  intro E
  rw [← prob_equiv φ fun ω => E (Y ω), prob_eq, prob_eq, ← avg_sub, prob_eq, abs_le, neg_le_iff_add_nonneg, ← avg_add]
  constructor
  · refine le_trans (by simp [avg]) (avg_mono (f := fun _ => 0) fun ω => ?_)
    by_cases hB : B ω
    · rw [if_pos hB]; split <;> split <;> norm_num
    · rw [if_neg hB, h ω hB]; simp
  · refine avg_mono fun ω => ?_
    by_cases hB : B ω
    · rw [if_pos hB]; split <;> split <;> norm_num
    · rw [if_neg hB, h ω hB]; simp

theorem avg_comp [DecidableEq O] (X : Ω → O) (S : Finset O) (hS : ∀ ω, X ω ∈ S) (f : O → ℚ) : avg (fun ω => f (X ω)) = ∑ o ∈ S, f o * prob (fun ω => X ω = o) := by
  classical
  simp only [prob_eq, avg]
  simp only [← mul_div_assoc, ← sum_div]
  congr 1
  simp only [mul_sum]
  rw [sum_comm]
  refine sum_congr rfl fun ω _ => ?_
  rw [sum_eq_single_of_mem (X ω) (hS ω)]
  · simp
  · intro o _ ho
    rw [if_neg (Ne.symm ho), mul_zero]

theorem close_avg_le {Ω' : Type} [Fintype Ω'] {X : Ω → O} {Y : Ω' → O} {ε : ℚ} (h : Close ε X Y) (f : O → ℚ) (h0 : ∀ o, 0 ≤ f o) (h1 : ∀ o, f o ≤ 1) :
    avg (fun ω => f (X ω)) - avg (fun ω => f (Y ω)) ≤ ε := by
  classical
  let S := univ.image X ∪ univ.image Y
  have hX : ∀ ω, X ω ∈ S := fun ω => mem_union_left _ (mem_image_of_mem _ (mem_univ _))
  have hY : ∀ ω, Y ω ∈ S := fun ω => mem_union_right _ (mem_image_of_mem _ (mem_univ _))
  let E : O → Prop := fun o => prob (fun ω => Y ω = o) < prob (fun ω => X ω = o)
  have e1 : prob (fun ω => E (X ω)) = ∑ o ∈ S, (if E o then 1 else 0) * prob (fun ω => X ω = o) := by
    rw [prob_eq, ← avg_comp X S hX fun o => if E o then 1 else 0]; congr!
  have e2 : prob (fun ω => E (Y ω)) = ∑ o ∈ S, (if E o then 1 else 0) * prob (fun ω => Y ω = o) := by
    rw [prob_eq, ← avg_comp Y S hY fun o => if E o then 1 else 0]; congr!
  refine le_trans ?_ ((le_abs_self _).trans (h E))
  rw [e1, e2, avg_comp X S hX, avg_comp Y S hY, ← sum_sub_distrib, ← sum_sub_distrib]
  refine sum_le_sum fun o _ => ?_
  rw [← mul_sub, ← mul_sub]
  by_cases hE : E o
  · rw [if_pos hE]
    exact mul_le_mul_of_nonneg_right (h1 o) (by have : prob _ < prob _ := hE; linarith)
  · rw [if_neg hE, zero_mul]
    have : ¬ prob _ < prob _ := hE
    exact mul_nonpos_of_nonneg_of_nonpos (h0 o) (by linarith)

theorem prob_fst {Ω' : Type} [Fintype Ω'] [Nonempty Ω'] (E : Ω → Prop) : prob (fun ω : Ω × Ω' => E ω.1) = prob E := by
  classical
  have h : (Fintype.card Ω' : ℚ) ≠ 0 := by exact_mod_cast Fintype.card_ne_zero
  have e : ∑ ω : Ω × Ω', (if E ω.1 then (1 : ℚ) else 0) = Fintype.card Ω' * ∑ ω, if E ω then (1 : ℚ) else 0 := by
    rw [Fintype.sum_prod_type, mul_sum]
    exact sum_congr rfl fun ω _ => by by_cases hE : E ω <;> simp [hE]
  have e' : (avg fun ω : Ω × Ω' => if E ω.1 then (1 : ℚ) else 0) = avg fun ω => if E ω then (1 : ℚ) else 0 := by
    rw [avg, avg, e, Fintype.card_prod, Nat.cast_mul, mul_comm (Fintype.card Ω : ℚ), mul_div_mul_left _ _ h]
  rw [prob_eq, prob_eq, ← e']

end

section
variable {Ω O : Type} [Fintype Ω] [Nonempty Ω]

theorem avg_cons {k : Nat} (f : (Fin (k + 1) → Ω) → ℚ) : avg f = avg fun ω₀ => avg fun ω : Fin k → Ω => f (Fin.cons ω₀ ω) := by
  simp only [avg, ← sum_div, div_div]
  congr 1
  · rw [← Fintype.sum_prod_type', ← Equiv.sum_comp (Fin.consEquiv fun _ => Ω)]
    rfl
  · rw [Fintype.card_fun, Fintype.card_fun, Fintype.card_fin, Fintype.card_fin]
    push_cast
    ring

theorem close_symm {Ω' : Type} {X : Ω → O} {Y : Ω' → O} {ε : ℚ} (h : Close ε X Y) : Close ε Y X := fun E => by rw [abs_sub_comm]; exact h E

theorem avg_sub_le {f g : Ω → ℚ} {c : ℚ} (h : ∀ ω, f ω - g ω ≤ c) : avg f - avg g ≤ c := by
  rw [← avg_sub]
  exact (avg_mono h).trans (avg_const c).le

/-- Rounds each of which can be told apart with advantage at most `ε`, whatever was observed before. -/
theorem close_observed {Ω' : Type} [Fintype Ω'] [Nonempty Ω'] {X : List O → Ω → O} {Y : List O → Ω' → O} {ε : ℚ} (h : ∀ l, Close ε (X l) (Y l)) (k : Nat) (l : List O) :
    Close (k * ε) (observed X k l) (observed Y k l) := by
  classical
  have key : ∀ {Ω Ω' : Type} [Fintype Ω] [Nonempty Ω] [Fintype Ω'] [Nonempty Ω'] {X : List O → Ω → O} {Y : List O → Ω' → O}, (∀ l, Close ε (X l) (Y l)) → ∀ (k : Nat) (l : List O) (E : List O → Prop),
      prob (fun ω => E (observed X k l ω)) - prob (fun ω => E (observed Y k l ω)) ≤ k * ε := by
    intro Ω Ω' _ _ _ _ X Y h k
    induction k with
    | zero =>
      intro l E
      have e : ∀ (Ω : Type) [Fintype Ω] [Nonempty Ω], (prob fun _ : Fin 0 → Ω => E l) = if E l then 1 else 0 := fun Ω _ _ => by
        rw [prob_eq, avg_const]
      simp [observed, e]
    | succ k ih =>
      intro l E
      let q : {Ω : Type} → (List O → Ω → O) → O → ℚ := fun {Ω} Z o => prob fun ω : Fin k → Ω => E (observed Z k (l ++ [o]) ω)
      have e : ∀ {Ω : Type} [Fintype Ω] [Nonempty Ω] (Z : List O → Ω → O), prob (fun ω => E (observed Z (k + 1) l ω)) = avg fun ω₀ => q Z (Z l ω₀) := by
        intro Ω _ _ Z
        rw [prob_eq, avg_cons]
        simp only [observed, Fin.cons_zero, Fin.cons_succ, q, prob_eq]
      rw [e X, e Y]
      have h1 : avg (fun ω₀ => q X (X l ω₀)) - avg (fun ω₀ => q Y (X l ω₀)) ≤ k * ε := avg_sub_le fun ω => ih _ _
      have hq : ∀ o, 0 ≤ q Y o ∧ q Y o ≤ 1 := fun o => by
        simp only [q, prob_eq]
        constructor
        · refine le_trans (avg_const (Ω := Fin k → Ω') 0).ge (avg_mono fun ω => ?_)
          split <;> norm_num
        · refine le_trans (avg_mono (g := fun _ => 1) fun ω => ?_) (avg_const (Ω := Fin k → Ω') 1).le
          split <;> norm_num
      have h2 := close_avg_le (h l) (q Y) (fun o => (hq o).1) fun o => (hq o).2
      push_cast
      linarith
  intro E
  rw [abs_le]
  have h1 := key h k l E
  have h2 := key (fun l => close_symm (h l)) k l E
  constructor <;> linarith

end

end ZkSaas
