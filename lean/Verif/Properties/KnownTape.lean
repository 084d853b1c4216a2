import Verif.Spec.KnownTape
import Verif.Properties.Simulator

/-!
# C102: with the tape the code uses for the program `l` servers tell assignments apart
-/

set_option linter.unusedSectionVars false

namespace ZkSaas.Properties

open Spec Polynomial Finset

variable {F : Type} [Field F] [DecidableEq F] {G1 G2 : Type} [AddCommGroup G1] [Module F G1] [DecidableEq G1] [AddCommGroup G2] [Module F G2] [DecidableEq G2]
  [FftField F] [FixedWire F] [FixedWire G1] [FixedWire G2]

theorem prob_not {Ω : Type} [Fintype Ω] [Nonempty Ω] (E : Ω → Prop) : prob (fun ω => ¬ E ω) = 1 - prob E := by
  classical
  have h := avg_sub (fun _ : Ω => 1) fun ω => if E ω then 1 else 0
  rw [avg_const, ← prob_eq] at h
  rw [← h, prob_eq]
  congr 1
  funext ω
  by_cases h : E ω <;> simp [h]

section
variable [Finite F] [Finite G1] [Finite G2] {dbg₀ : Bool} {b : Nat} {pp : PSS F} (hpp : PSS.new dbg₀ (2 ^ b) = .ok pp)
  (hgen : (FftField.GENERATOR : F) ^ (4 * 2 ^ b) ≠ 1) (dbg : Bool) {gen1 : G1} {gen2 : G2}
  (hspan1 : ∀ g : G1, ∃ c : F, c • gen1 = g) (hspan2 : ∀ g : G2, ∃ c : F, c • gen2 = g) {N : Nat}
include hpp hgen hspan1 hspan2

/-- **C102** Sessions in which the program is packed with a known tape end but for a share of `4l / |F|` of the draws. -/
theorem C102_ends (w : OneWitness (F := F) b dbg N G1 G2) (rng : Nat → Nat → Nat → F) (P : Fin (2 ^ b) → Nat) (hinj : Function.Injective P)
    (hlt : ∀ i, P i < 4 * 2 ^ b) (τ : Fin 3 → Fin N → Fin N → F) :
    prob (fun x => observation (N := N) pp dbg (4 * 2 ^ b) (2 ^ b) w.mats w.z w.pk gen1 gen2 rng P (knownProgram τ x) = none) ≤ 4 * 2 ^ b / Nat.card F := by
  have := Fintype.ofFinite F
  have := Fintype.ofFinite G1
  have := Fintype.ofFinite G2
  have hb : 2 ^ b ≤ N := le_trans (Nat.pow_le_pow_right (by norm_num) (by omega)) w.hN
  refine (prob_mono fun x hx => ?_).trans (prob_zeroShare (G1 := G1) (G2 := G2) hpp hgen dbg hb)
  by_contra hn
  obtain ⟨v, e⟩ := shows_exists hpp hgen dbg hspan1 hspan2 w rng P hinj hlt (x := knownProgram τ x) hn
  rw [observation_of hlt e] at hx
  cases hx

/-- **C102** The program is packed with a known tape, as in the code. Then whatever the tape is, any `l` servers tell two assignments with different
values in a row of the first or second matrix, or different public inputs, apart with an advantage of at least `1 - 4l / |F|`. -/
theorem C102_told_apart (w : OneWitness (F := F) b dbg N G1 G2) {z' : List F} (hcirc' : Circuit w.a b w.mats z' w.dom w.dom2)
    (hne : (∃ i < w.mats.numConstraints, dot (w.mats.a.getD i []) w.z ≠ dot (w.mats.a.getD i []) z' ∨
      dot (w.mats.b.getD i []) w.z ≠ dot (w.mats.b.getD i []) z') ∨ ∃ j < w.mats.numInstanceVariables, w.z.getD j 0 ≠ z'.getD j 0)
    (rng : Nat → Nat → Nat → F) (P : Fin (2 ^ b) → Nat) (hinj : Function.Injective P) (hlt : ∀ i, P i < 4 * 2 ^ b) (τ : Fin 3 → Fin N → Fin N → F) :
    ∃ E : Option (Observation F G1 G2 (4 * 2 ^ b) (2 ^ b)) → Prop,
      1 - 4 * 2 ^ b / Nat.card F ≤
        prob (fun x => E (observation (N := N) pp dbg (4 * 2 ^ b) (2 ^ b) w.mats w.z w.pk gen1 gen2 rng P (knownProgram τ x))) ∧
      prob (fun x => E (observation (N := N) pp dbg (4 * 2 ^ b) (2 ^ b) w.mats z' w.pk gen1 gen2 rng P (knownProgram τ x))) = 0 := by
  have := Fintype.ofFinite F
  have := Fintype.ofFinite G1
  have := Fintype.ofFinite G2
  refine ⟨fun o => ∃ v, o = some v ∧ ∃ x : Draws F G1 G2 N, Shows pp dbg (4 * 2 ^ b) (2 ^ b) w.mats w.z w.pk gen1 gen2 rng P (knownProgram τ x) v, ?_, ?_⟩
  · have h := C102_ends hpp hgen dbg hspan1 hspan2 w rng P hinj hlt τ
    refine (sub_le_sub_left h 1).trans ((prob_not _).ge.trans (prob_mono fun x hx => ?_))
    unfold observation at hx ⊢
    split at hx
    · next he =>
      rw [dif_pos he]
      exact ⟨_, rfl, x, he.choose_spec⟩
    · exact absurd rfl hx
  · have hno : ∀ x' : Draws F G1 G2 N, ¬ ∃ v, observation pp dbg (4 * 2 ^ b) (2 ^ b) w.mats z' w.pk gen1 gen2 rng P (knownProgram τ x') = some v ∧
        ∃ x : Draws F G1 G2 N, Shows pp dbg (4 * 2 ^ b) (2 ^ b) w.mats w.z w.pk gen1 gen2 rng P (knownProgram τ x) v := by
      rintro x' ⟨v, e', x, ins, outs, views, e, -, -, hd, -⟩
      unfold observation at e'
      split at e'
      · next he =>
        obtain ⟨ins', outs', views', e2, -, -, hd', -⟩ := Option.some.inj e' ▸ he.choose_spec
        obtain ⟨h1, h2⟩ := C56_dealing_known_tape hpp hgen dbg (2 ^ b) w.a w.hcirc hcirc' _ _ _ _ w.pk gen1 gen2 P hinj hlt
          (clientTape (knownProgram τ x)) (clientTape (knownProgram τ x')) rfl rfl rfl v.dealt
          (fun i => by rw [e, partOf_range ins (hlt i), hd i]) (fun i => by rw [e2, partOf_range ins' (hlt i), hd' i])
        rcases hne with ⟨i, hi, h | h⟩ | ⟨j, hj, h⟩
        · exact h (h1 i hi).1
        · exact h (h1 i hi).2
        · exact h (h2 j hj)
      · cases e'
    have : IsEmpty {x : Draws F G1 G2 N // ∃ v, observation pp dbg (4 * 2 ^ b) (2 ^ b) w.mats z' w.pk gen1 gen2 rng P (knownProgram τ x) = some v ∧
        ∃ x : Draws F G1 G2 N, Shows pp dbg (4 * 2 ^ b) (2 ^ b) w.mats w.z w.pk gen1 gen2 rng P (knownProgram τ x) v} := ⟨fun x => hno x.1 x.2⟩
    rw [prob, Nat.card_of_isEmpty, Nat.cast_zero, zero_div]

/-- **C102** So what holds when the tape of the program is drawn (C100) fails for the code as it is, unless the field has no more than `l` times a dozen elements. -/
theorem C102_not_close (hF : 12 * 2 ^ b < Nat.card F) (w : OneWitness (F := F) b dbg N G1 G2) {z' : List F} (hcirc' : Circuit w.a b w.mats z' w.dom w.dom2)
    (hne : (∃ i < w.mats.numConstraints, dot (w.mats.a.getD i []) w.z ≠ dot (w.mats.a.getD i []) z' ∨
      dot (w.mats.b.getD i []) w.z ≠ dot (w.mats.b.getD i []) z') ∨ ∃ j < w.mats.numInstanceVariables, w.z.getD j 0 ≠ z'.getD j 0)
    (rng : Nat → Nat → Nat → F) (P : Fin (2 ^ b) → Nat) (hinj : Function.Injective P) (hlt : ∀ i, P i < 4 * 2 ^ b) (τ : Fin 3 → Fin N → Fin N → F) :
    ¬ Close (8 * 2 ^ b / Nat.card F)
      (fun x => observation (N := N) pp dbg (4 * 2 ^ b) (2 ^ b) w.mats w.z w.pk gen1 gen2 rng P (knownProgram τ x))
      (fun x => observation (N := N) pp dbg (4 * 2 ^ b) (2 ^ b) w.mats z' w.pk gen1 gen2 rng P (knownProgram τ x)) := by
  obtain ⟨E, h1, h2⟩ := C102_told_apart hpp hgen dbg hspan1 hspan2 w hcirc' hne rng P hinj hlt τ
  intro hc
  have h3 := (le_abs_self _).trans (hc E)
  rw [h2, sub_zero] at h3
  have h4 := h1.trans h3
  have hpos : (0 : ℚ) < Nat.card F := by exact_mod_cast Nat.card_pos
  have h5 : (12 * 2 ^ b : ℚ) / Nat.card F < 1 := (div_lt_one hpos).2 (by exact_mod_cast hF)
  have h6 : (12 * 2 ^ b : ℚ) / Nat.card F = 8 * 2 ^ b / Nat.card F + 4 * 2 ^ b / Nat.card F := by ring
  linarith

end

/-! ### Examples -/

/-- C102: over 17 elements two servers tell the sessions on the roots 3 and 14 of 9 apart with an advantage of at least `9 / 17`. -/
example (rng : Nat → Nat → Nat → ZMod 17) (τ : Fin 3 → Fin 6 → Fin 6 → ZMod 17) :
    ∃ (pk : ProvingKey (ZMod 17) (ZMod 17)) (E : Option (Observation (ZMod 17) (ZMod 17) (ZMod 17) (4 * 2 ^ 1) (2 ^ 1)) → Prop),
      (9 / 17 : ℚ) ≤ prob (fun x => E (observation (N := 6) pp17 false (4 * 2 ^ 1) (2 ^ 1) mats17 [1, 9, 3] pk 1 1 rng pair17 (knownProgram τ x))) ∧
      prob (fun x => E (observation (N := 6) pp17 false (4 * 2 ^ 1) (2 ^ 1) mats17 [1, 9, 14] pk 1 1 rng pair17 (knownProgram τ x))) = 0 := by
  obtain ⟨pa, pb, pc, pk, h1, h2⟩ := C35_key_exists circuit17 (⟨2, 3, 4, 5, 6⟩ : Toxic (ZMod 17)) (1 : ZMod 17) (1 : ZMod 17)
  let w : OneWitness (F := ZMod 17) 1 false 6 (ZMod 17) (ZMod 17) := ⟨1, by norm_num, _, _, _, _, circuit17, mats17_sat,
    _, _, _, h1, _, _, _, _, h2, by decide, by decide, by simp, by decide, by decide⟩
  obtain ⟨E, e1, e2⟩ := C102_told_apart (pp17_eq true) gen17 false (gen1 := (1 : ZMod 17)) (gen2 := (1 : ZMod 17)) (fun g => ⟨g, by simp⟩) (fun g => ⟨g, by simp⟩)
    w circuit17' (.inl (show ∃ i < mats17.numConstraints, dot (mats17.a.getD i []) z17 ≠ dot (mats17.a.getD i []) [1, 9, 14] ∨
      dot (mats17.b.getD i []) z17 ≠ dot (mats17.b.getD i []) [1, 9, 14] by decide)) rng pair17 pair17_inj pair17_lt τ
  refine ⟨pk, E, le_trans ?_ e1, e2⟩
  rw [Nat.card_eq_fintype_card, ZMod.card]
  norm_num

/-- C102: with one secret per packing one server does. -/
example (rng : Nat → Nat → Nat → ZMod 17) (τ : Fin 3 → Fin 6 → Fin 6 → ZMod 17) :
    ∃ (pp : PSS (ZMod 17)) (pk : ProvingKey (ZMod 17) (ZMod 17)), PSS.new true (2 ^ 0) = .ok pp ∧ ¬ Close (8 * 2 ^ 0 / Nat.card (ZMod 17))
      (fun x => observation (N := 6) pp false (4 * 2 ^ 0) (2 ^ 0) mats17 [1, 9, 3] pk 1 1 rng (fun _ : Fin (2 ^ 0) => 2) (knownProgram τ x))
      (fun x => observation (N := 6) pp false (4 * 2 ^ 0) (2 ^ 0) mats17 [1, 9, 14] pk 1 1 rng (fun _ : Fin (2 ^ 0) => 2) (knownProgram τ x)) := by
  obtain ⟨pp, hpp⟩ : ∃ pp : PSS (ZMod 17), PSS.new true (2 ^ 0) = .ok pp := ⟨_, rfl⟩
  have c : Circuit 2 0 mats17 z17 dom17 dom17b := ⟨circuit17.domain, circuit17.size, circuit17.double, circuit17.rowsA, circuit17.rowsB, circuit17.colsA,
    circuit17.colsB, circuit17.colsC, circuit17.inputs, circuit17.wires, circuit17.one⟩
  have c' : Circuit 2 0 mats17 [1, 9, 14] dom17 dom17b := ⟨circuit17'.domain, circuit17'.size, circuit17'.double, circuit17'.rowsA, circuit17'.rowsB,
    circuit17'.colsA, circuit17'.colsB, circuit17'.colsC, circuit17'.inputs, circuit17'.wires, circuit17'.one⟩
  obtain ⟨pa, pb, pc, pk, h1, h2⟩ := C35_key_exists c (⟨2, 3, 4, 5, 6⟩ : Toxic (ZMod 17)) (1 : ZMod 17) (1 : ZMod 17)
  let w : OneWitness (F := ZMod 17) 0 false 6 (ZMod 17) (ZMod 17) := ⟨2, by norm_num, _, _, _, _, c, mats17_sat,
    _, _, _, h1, _, _, _, _, h2, by decide, by decide, by simp, by decide, by decide⟩
  refine ⟨pp, pk, hpp, C102_not_close hpp (by decide) false (gen1 := (1 : ZMod 17)) (gen2 := (1 : ZMod 17)) (fun g => ⟨g, by simp⟩) (fun g => ⟨g, by simp⟩)
    (by rw [Nat.card_eq_fintype_card, ZMod.card]; norm_num) w c' (.inl (show ∃ i < mats17.numConstraints,
      dot (mats17.a.getD i []) z17 ≠ dot (mats17.a.getD i []) [1, 9, 14] ∨ dot (mats17.b.getD i []) z17 ≠ dot (mats17.b.getD i []) [1, 9, 14] by decide))
    rng (fun _ => 2) (by decide) (fun _ => by norm_num) τ⟩

end ZkSaas.Properties
