import Verif.Spec.KingKnows
import Verif.Properties.Bn254Zk
import Verif.Properties.OpenMsm

/-!
# C105: how often the king and `l - 1` others learn what `r` and `s` are to hide
-/

set_option linter.unusedSectionVars false

namespace ZkSaas.Properties

open Spec Polynomial Finset

variable {F : Type} [Field F] [DecidableEq F] {G1 G2 : Type} [AddCommGroup G1] [Module F G1] [DecidableEq G1] [AddCommGroup G2] [Module F G2] [DecidableEq G2]
  [FftField F] [FixedWire F] [FixedWire G1] [FixedWire G2]

section
variable [Finite F] [Finite G1] [Finite G2] {dbg₀ : Bool} {b : Nat} {pp : PSS F} (hpp : PSS.new dbg₀ (2 ^ b) = .ok pp)
  (hgen : (FftField.GENERATOR : F) ^ (4 * 2 ^ b) ≠ 1) (dbg : Bool) {gen1 : G1} {gen2 : G2}
  (hspan1 : ∀ g : G1, ∃ c : F, c • gen1 = g) (hspan2 : ∀ g : G2, ∃ c : F, c • gen2 = g) {N : Nat}
include hpp hgen

/-- **C105** Everything that the client draws is uniform. There is a function, the same for all circuits, keys and assignments, that finds from what the
king is sent and what any `l` servers are dealt the three sums that `r` and `s` are to hide, for all but a share of `4l / |F|` of the draws. -/
theorem C105_learns (P : Fin (2 ^ b) → Nat) (hinj : Function.Injective P) (hlt : ∀ i, P i < 4 * 2 ^ b) :
    ∃ learn : (Fin (2 ^ b) → ServerInput F G1 G2) × Transcript → G1 × G2 × G1,
      (∀ (a : Nat), a < 64 → ∀ (mats : ConstraintMatrices F) (z : List F) (dom dom2 : Domain F), Circuit a b mats z dom dom2 →
        ∀ pk : ProvingKey G1 G2, KeyFits z.length mats.numInstanceVariables (2 ^ (a + b)) pk → 2 ^ b ≤ N → ∀ rng : Nat → Nat → Nat → F,
        prob (fun x : Draws F G1 G2 N => ∃ v, kingObservation pp dbg (4 * 2 ^ b) (2 ^ b) mats z pk gen1 gen2 rng P x = some v ∧ learn v ≠ hiddenSums mats z pk) ≤
          4 * 2 ^ b / Nat.card F) ∧
      ((∀ g : G1, ∃ c : F, c • gen1 = g) → (∀ g : G2, ∃ c : F, c • gen2 = g) → ∀ (w : OneWitness (F := F) b dbg N G1 G2) (rng : Nat → Nat → Nat → F),
        1 - 4 * 2 ^ b / Nat.card F ≤ prob fun x : Draws F G1 G2 N =>
          (kingObservation pp dbg (4 * 2 ^ b) (2 ^ b) w.mats w.z w.pk gen1 gen2 rng P x).map learn = some (hiddenSums w.mats w.z w.pk)) := by
  have := Fintype.ofFinite F
  have := Fintype.ofFinite G1
  have := Fintype.ofFinite G2
  obtain ⟨learn, H⟩ := C76_session (G1 := G1) (G2 := G2) hpp hgen P hinj hlt
  have key : ∀ (a : Nat), a < 64 → ∀ (mats : ConstraintMatrices F) (z : List F) (dom dom2 : Domain F), Circuit a b mats z dom dom2 →
      ∀ pk : ProvingKey G1 G2, KeyFits z.length mats.numInstanceVariables (2 ^ (a + b)) pk → ∀ (rng : Nat → Nat → Nat → F) (x : Draws F G1 G2 N) v,
      ¬ ZeroShare pp dbg b x → KingShows pp dbg (4 * 2 ^ b) (2 ^ b) mats z pk gen1 gen2 rng P x v → learn v.2 v.1 = hiddenSums mats z pk := by
    rintro a ha mats z dom dom2 hc pk hk rng x v hx ⟨ins, outs, views, e, r1, hd, hv⟩
    have n1 := shares_ne hpp rfl e hx
    have h := H dbg a ha mats z dom dom2 hc pk hk gen1 gen2 (2 ^ b) _ _ (clientTape x) ins e (.inl n1) rng outs views r1
    rw [← funext hd, ← hv ⟨0, by positivity⟩ rfl] at h
    exact h
  refine ⟨fun v => learn v.2 v.1, fun a ha mats z dom dom2 hc pk hk hN rng => ?_, fun hspan1 hspan2 w rng => ?_⟩
  · refine (prob_mono fun x hx => ?_).trans (prob_zeroShare (G1 := G1) (G2 := G2) hpp hgen dbg hN)
    by_contra hn
    obtain ⟨v, e, hne⟩ := hx
    unfold kingObservation at e
    split at e
    · next he => exact hne (key a ha mats z dom dom2 hc pk hk rng x v hn (Option.some.inj e ▸ he.choose_spec))
    · cases e
  · have hb : 2 ^ b ≤ N := le_trans (Nat.pow_le_pow_right (by norm_num) (by omega)) w.hN
    refine (sub_le_sub_left (prob_zeroShare (G1 := G1) (G2 := G2) hpp hgen dbg hb) 1).trans ((prob_not _).ge.trans (prob_mono fun x hx => ?_))
    obtain ⟨v, ins, outs, views, e, r1, -⟩ := shows_exists hpp hgen dbg hspan1 hspan2 w rng P hinj hlt hx
    have he : ∃ v, KingShows pp dbg (4 * 2 ^ b) (2 ^ b) w.mats w.z w.pk gen1 gen2 rng P x v :=
      ⟨(fun i => ins (P i), views ⟨0, by positivity⟩), ins, outs, views, e, r1, fun _ => rfl, fun i hi => by
        rw [show i = ⟨0, by positivity⟩ from Fin.ext hi]⟩
    unfold kingObservation
    rw [dif_pos he, Option.map_some, key w.a w.ha w.mats w.z w.dom w.dom2 w.hcirc w.pk (KeyFits.of_key w.hk) rng x _ hx he.choose_spec]

include hspan1 hspan2 in
/-- **C105** So a coalition of `l` servers with the king tells two assignments apart for which one of the sums differs: there is a test that accepts the first
with probability at least `1 - 4l / |F|` and the second with at most `4l / |F|`. -/
theorem C105_told_apart (w : OneWitness (F := F) b dbg N G1 G2) {z' : List F} (hcirc' : Circuit w.a b w.mats z' w.dom w.dom2) (hz : w.z.length = z'.length)
    (hne : hiddenSums w.mats w.z w.pk ≠ hiddenSums w.mats z' w.pk) (rng : Nat → Nat → Nat → F) (P : Fin (2 ^ b) → Nat) (hinj : Function.Injective P)
    (hlt : ∀ i, P i < 4 * 2 ^ b) :
    ∃ E : Option ((Fin (2 ^ b) → ServerInput F G1 G2) × Transcript) → Prop,
      1 - 4 * 2 ^ b / Nat.card F ≤
        prob (fun x : Draws F G1 G2 N => E (kingObservation pp dbg (4 * 2 ^ b) (2 ^ b) w.mats w.z w.pk gen1 gen2 rng P x)) ∧
      prob (fun x : Draws F G1 G2 N => E (kingObservation pp dbg (4 * 2 ^ b) (2 ^ b) w.mats z' w.pk gen1 gen2 rng P x)) ≤ 4 * 2 ^ b / Nat.card F := by
  have := Fintype.ofFinite F
  have := Fintype.ofFinite G1
  have := Fintype.ofFinite G2
  obtain ⟨learn, h1, h2⟩ := C105_learns (G1 := G1) (G2 := G2) (gen1 := gen1) (gen2 := gen2) (N := N) hpp hgen dbg P hinj hlt
  refine ⟨fun o => o.map learn = some (hiddenSums w.mats w.z w.pk), h2 hspan1 hspan2 w rng, ?_⟩
  have hb : 2 ^ b ≤ N := le_trans (Nat.pow_le_pow_right (by norm_num) (by omega)) w.hN
  refine (prob_mono fun x hx => ?_).trans (h1 w.a w.ha w.mats z' w.dom w.dom2 hcirc' w.pk (hz ▸ KeyFits.of_key w.hk) hb rng)
  obtain ⟨v, e, hv⟩ := Option.map_eq_some_iff.1 hx
  exact ⟨v, e, fun h => hne (hv.symm.trans h)⟩

end

/-- **C105** On BN254 that is all but a share of `l / 2^251` of the draws. -/
theorem C105_bn254 {dbg₀ : Bool} {b : Nat} {pp : PSS Bn254Fr} (hpp : PSS.new dbg₀ (2 ^ b) = .ok pp) (dbg : Bool) {gen1 : Bn254G1} {gen2 : Bn254G2}
    (h1 : gen1 ≠ 0) (h2 : gen2 ≠ 0) {N : Nat} (P : Fin (2 ^ b) → Nat) (hinj : Function.Injective P) (hlt : ∀ i, P i < 4 * 2 ^ b) :
    ∃ learn : (Fin (2 ^ b) → ServerInput Bn254Fr Bn254G1 Bn254G2) × Transcript → Bn254G1 × Bn254G2 × Bn254G1,
      ∀ (w : OneWitness (F := Bn254Fr) b dbg N Bn254G1 Bn254G2) (rng : Nat → Nat → Nat → Bn254Fr),
        1 - 2 ^ b / 2 ^ 251 ≤ prob fun x : Draws Bn254Fr Bn254G1 Bn254G2 N =>
          (kingObservation pp dbg (4 * 2 ^ b) (2 ^ b) w.mats w.z w.pk gen1 gen2 rng P x).map learn = some (hiddenSums w.mats w.z w.pk) := by
  obtain ⟨learn, -, h⟩ := C105_learns (G1 := Bn254G1) (G2 := Bn254G2) (gen1 := gen1) (gen2 := gen2) (N := N) hpp (bn254_gen b) dbg P hinj hlt
  refine ⟨learn, fun w rng => le_trans (sub_le_sub_left ?_ 1) (h (spans_of_card bn254G1_card h1) (spans_of_card C91_g2_card h2) w rng)⟩
  have h3 : (4 * 2 ^ b / Nat.card Bn254Fr : ℚ) ≤ 4 * 2 ^ b / 2 ^ 253 := by
    have := bn254_large
    gcongr
  exact h3.trans (le_of_eq (by ring))

/-! ### Examples -/

/-- C105: over 17 elements; the king and a second server learn of the root 3 of 9, for at least 9 in 17 of the draws. -/
example (rng : Nat → Nat → Nat → ZMod 17) :
    ∃ (pk : ProvingKey (ZMod 17) (ZMod 17)) (learn : (Fin (2 ^ 1) → ServerInput (ZMod 17) (ZMod 17) (ZMod 17)) × Transcript → ZMod 17 × ZMod 17 × ZMod 17),
      (9 / 17 : ℚ) ≤ prob fun x : Draws (ZMod 17) (ZMod 17) (ZMod 17) 6 =>
        (kingObservation pp17 false (4 * 2 ^ 1) (2 ^ 1) mats17 [1, 9, 3] pk 1 1 rng king17 x).map learn =
          some (hiddenSums mats17 [1, 9, 3] pk) := by
  obtain ⟨pa, pb, pc, pk, h1, h2⟩ := C35_key_exists circuit17 (⟨2, 3, 4, 5, 6⟩ : Toxic (ZMod 17)) (1 : ZMod 17) (1 : ZMod 17)
  let w : OneWitness (F := ZMod 17) 1 false 6 (ZMod 17) (ZMod 17) := ⟨1, by norm_num, _, _, _, _, circuit17, mats17_sat,
    _, _, _, h1, _, _, _, _, h2, by decide, by decide, by simp, by decide, by decide⟩
  obtain ⟨learn, -, h⟩ := C105_learns (G1 := ZMod 17) (G2 := ZMod 17) (gen1 := 1) (gen2 := 1) (N := 6) (pp17_eq true) gen17 false
    king17 king17_inj king17_lt
  refine ⟨pk, learn, le_trans ?_ (h (fun g => ⟨g, by simp⟩) (fun g => ⟨g, by simp⟩) w rng)⟩
  rw [Nat.card_eq_fintype_card, ZMod.card]
  norm_num

/-- C105: the king and server 3 tell the sessions on the roots 3 and 14 of 9 apart. -/
example (rng : Nat → Nat → Nat → ZMod 17) :
    ∃ (pk : ProvingKey (ZMod 17) (ZMod 17)) (E : Option ((Fin (2 ^ 1) → ServerInput (ZMod 17) (ZMod 17) (ZMod 17)) × Transcript) → Prop),
      (9 / 17 : ℚ) ≤ prob (fun x : Draws (ZMod 17) (ZMod 17) (ZMod 17) 6 =>
        E (kingObservation pp17 false (4 * 2 ^ 1) (2 ^ 1) mats17 z17 pk 1 1 rng king17 x)) ∧
      prob (fun x : Draws (ZMod 17) (ZMod 17) (ZMod 17) 6 =>
        E (kingObservation pp17 false (4 * 2 ^ 1) (2 ^ 1) mats17 [1, 9, 14] pk 1 1 rng king17 x)) ≤ 8 / 17 := by
  obtain ⟨pa, pb, pc, pk, h1, h2⟩ := C35_key_exists circuit17 (⟨2, 3, 4, 5, 6⟩ : Toxic (ZMod 17)) (1 : ZMod 17) (1 : ZMod 17)
  let w : OneWitness (F := ZMod 17) 1 false 6 (ZMod 17) (ZMod 17) := ⟨1, by norm_num, _, _, _, _, circuit17, mats17_sat,
    _, _, _, h1, _, _, _, _, h2, by decide, by decide, by simp, by decide, by decide⟩
  have hw : pk.aQuery.getD 2 0 = 1 := by
    rw [h2.aQuery, getD_map_range, if_pos (by decide)]
    show (pa 2).eval 6 • (1 : ZMod 17) = 1
    rw [qap17_wire h1]
    rfl
  have hne : hiddenSums mats17 z17 pk ≠ hiddenSums mats17 [1, 9, 14] pk := fun h => by
    have h := congrArg Prod.fst h
    simp only [hiddenSums, z17, List.length_cons, List.length_nil, sum_range_succ, range_zero, sum_empty, zero_add, hw] at h
    simp at h
    exact absurd h (by decide)
  obtain ⟨E, e1, e2⟩ := C105_told_apart (pp17_eq true) gen17 false (gen1 := (1 : ZMod 17)) (gen2 := (1 : ZMod 17)) (fun g => ⟨g, by simp⟩) (fun g => ⟨g, by simp⟩)
    w circuit17' rfl hne rng king17 king17_inj king17_lt
  refine ⟨pk, E, le_trans ?_ e1, e2.trans ?_⟩
  all_goals
    rw [Nat.card_eq_fintype_card, ZMod.card]
    norm_num

end ZkSaas.Properties
