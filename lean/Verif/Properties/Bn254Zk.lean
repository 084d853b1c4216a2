import Verif.Properties.Curves
import Verif.Properties.KnownTape

/-!
# C103: zero knowledge and its failure on BN254, without assumptions on the groups
-/

namespace ZkSaas.Properties

open Spec Polynomial Finset

/-- A point other than the one at infinity spans a group of `r` elements. -/
theorem spans_of_card {V : Type} [AddCommGroup V] [Module Bn254Fr V] (hV : Nat.card V = bn254) {v : V} (hv : v ≠ 0) :
    ∀ g : V, ∃ c : Bn254Fr, c • v = g := by
  have hfin : Finite V := Nat.finite_of_card_ne_zero (by rw [hV]; decide +kernel)
  have hp : Nat.card V = bn254 ^ Module.finrank Bn254Fr V := by
    rw [Module.natCard_eq_pow_finrank (K := Bn254Fr), Nat.card_zmod]
  rw [hV] at hp
  have h1 : Module.finrank Bn254Fr V = 1 := (Nat.pow_right_injective (show 2 ≤ bn254 by decide +kernel) ((pow_one _).trans hp)).symm
  exact (finrank_eq_one_iff_of_nonzero' v hv).1 h1

theorem bn254G1_card : Nat.card Bn254G1 = bn254 := by
  rw [← C91_g1_all.1]
  exact Nat.card_eq_of_bijective (fun g : Bn254G1 => g.1) ⟨fun a b h => Subtype.ext h, C91_g1_all.2⟩

instance finiteBn254G1 : Finite Bn254G1 := Nat.finite_of_card_ne_zero (by rw [bn254G1_card]; decide +kernel)
instance finiteBn254G2 : Finite Bn254G2 := Nat.finite_of_card_ne_zero (by rw [C91_g2_card]; decide +kernel)

theorem bn254_gen (b : Nat) : (FftField.GENERATOR : Bn254Fr) ^ (4 * 2 ^ b) ≠ 1 := by
  rw [show 4 * 2 ^ b = 2 ^ (b + 2) by rw [pow_add]; ring]
  exact C80_bn254_parameters.2.2.2 _

theorem bn254_large : (2 : ℚ) ^ 253 ≤ Nat.card Bn254Fr := by
  rw [Nat.card_zmod]
  exact_mod_cast (show 2 ^ 253 ≤ bn254 by decide +kernel)

/-- **C103** Every satisfied constraint system of at most `2^27` rows, not so small that one share holds all of it, has keys from every set-up, and is the
subject of the theorems below in a release build. -/
theorem C103_instance (b : Nat) (mats : ConstraintMatrices Bn254Fr) (z : List Bn254Fr) (h : IsR1cs mats z)
    (hsat : Satisfies mats.numConstraints mats.a mats.b mats.c z) (hsize : mats.numConstraints + mats.numInstanceVariables ≤ 2 ^ 27)
    (hbig : 2 ^ b < 2 * (mats.numConstraints + mats.numInstanceVariables)) (t : Toxic Bn254Fr) (hγ : t.gamma ≠ 0) (hδ : t.delta ≠ 0)
    (g1 : Bn254G1) (g2 : Bn254G2) (N : Nat) (hN : 2 * (mats.numConstraints + mats.numInstanceVariables) ≤ N) (hzN : z.length ≤ N) :
    ∃ w : OneWitness (F := Bn254Fr) b false N Bn254G1 Bn254G2, w.mats = mats ∧ w.z = z ∧ w.t = t ∧ w.g1 = g1 ∧ w.g2 = g2 := by
  obtain ⟨a, dom, dom2, hc, ha, hab⟩ := circuit_of_size (b := b) h (show _ ≤ 2 ^ (28 - 1) from hsize) (by decide) (by decide) hbig
  obtain ⟨pa, pb, pc, pk, hq, hk⟩ := C35_key_exists (G1 := Bn254G1) (G2 := Bn254G2) hc t g1 g2
  have h2 : 2 ^ (a + b) ≤ N := by
    rw [hab]
    refine le_trans ?_ hN
    generalize mats.numConstraints + mats.numInstanceVariables = n at hbig
    have hpos : 0 < 2 ^ b := by positivity
    rcases Nat.lt_or_ge 1 n with hn | hn
    · have hlt := Nat.pow_pred_clog_lt_self (b := 2) (by norm_num) hn
      have hc := Nat.clog_pos (b := 2) (by norm_num) hn
      rw [show Nat.clog 2 n = (Nat.clog 2 n).pred + 1 from (Nat.succ_pred_eq_of_pos hc).symm, pow_succ]
      omega
    · rw [Nat.clog_of_right_le_one hn]
      omega
  exact ⟨⟨a, ha, mats, z, dom, dom2, hc, hsat, pa, pb, pc, hq, t, g1, g2, pk, hk, hγ, hδ, by simp, h2, hzN⟩, rfl, rfl, rfl, rfl, rfl⟩

section
variable {dbg₀ : Bool} {b : Nat} {pp : PSS Bn254Fr} (hpp : PSS.new dbg₀ (2 ^ b) = .ok pp) (dbg : Bool) {gen1 : Bn254G1} {gen2 : Bn254G2}
  (h1 : gen1 ≠ 0) (h2 : gen2 ≠ 0) {N : Nat}
include hpp h1 h2

/-- **C103** Sessions on BN254, any number `k` of them one after the other and chosen from what was observed before: what `l` servers are dealt and end
with, what every server but the king is sent and the proofs that are opened are, up to an advantage of `k·l / 2^250`, the output of a simulator that
knows the secrets of the set-up and the public inputs, but no witness. -/
theorem C103_simulated {O : Type} (w : List O → OneWitness (F := Bn254Fr) b dbg N Bn254G1 Bn254G2) (rng : List O → Nat → Nat → Nat → Bn254Fr)
    (P : List O → Fin (2 ^ b) → Nat) (hinj : ∀ h, Function.Injective (P h)) (hlt : ∀ h i, P h i < 4 * 2 ^ b)
    (f : List O → Option (Observation Bn254Fr Bn254G1 Bn254G2 (4 * 2 ^ b) (2 ^ b)) → O) (k : Nat) :
    Close (k * 2 ^ b / 2 ^ 250)
      (observed (fun h x => f h (observation (N := N) pp dbg (4 * 2 ^ b) (2 ^ b) (w h).mats (w h).z (w h).pk gen1 gen2 (rng h) (P h) x)) k [])
      (observed (fun h x => f h (simulation (N := N) pp dbg (4 * 2 ^ b) (2 ^ b) (w h).mats (w h).z.length (w h).pk gen1 gen2 (rng h) (P h)
        (trapdoorProof (w h).t (w h).g1 (w h).g2 (w h).pa (w h).pb (w h).pc ((w h).z.take (w h).mats.numInstanceVariables)) x)) k []) := by
  intro E
  refine (C101_sessions hpp (bn254_gen b) dbg (spans_of_card bn254G1_card h1) (spans_of_card C91_g2_card h2) w rng P hinj hlt f k E).trans ?_
  have h3 : (k : ℚ) * (8 * 2 ^ b / Nat.card Bn254Fr) ≤ k * (8 * 2 ^ b / 2 ^ 253) := by
    have := bn254_large
    gcongr
  exact h3.trans (le_of_eq (by ring))

/-- **C103** All but `l / 2^251` of the draws let a session end. -/
theorem C103_ends (w : OneWitness (F := Bn254Fr) b dbg N Bn254G1 Bn254G2) (rng : Nat → Nat → Nat → Bn254Fr) (P : Fin (2 ^ b) → Nat)
    (hinj : Function.Injective P) (hlt : ∀ i, P i < 4 * 2 ^ b) :
    prob (fun x => observation (N := N) pp dbg (4 * 2 ^ b) (2 ^ b) w.mats w.z w.pk gen1 gen2 rng P x = none) ≤ 2 ^ b / 2 ^ 251 := by
  refine (C101_ends hpp (bn254_gen b) dbg (spans_of_card bn254G1_card h1) (spans_of_card C91_g2_card h2) w rng P hinj hlt).trans ?_
  have h3 : (4 * 2 ^ b / Nat.card Bn254Fr : ℚ) ≤ 4 * 2 ^ b / 2 ^ 253 := by
    have := bn254_large
    gcongr
  exact h3.trans (le_of_eq (by ring))

/-- **C103** The code packs the program with a known tape. On BN254 that tells assignments with different values in a row of the first or second matrix, or
different public inputs, apart with an advantage of at least `1 - l / 2^251`. -/
theorem C103_told_apart (w : OneWitness (F := Bn254Fr) b dbg N Bn254G1 Bn254G2) {z' : List Bn254Fr} (hcirc' : Circuit w.a b w.mats z' w.dom w.dom2)
    (hne : (∃ i < w.mats.numConstraints, dot (w.mats.a.getD i []) w.z ≠ dot (w.mats.a.getD i []) z' ∨
      dot (w.mats.b.getD i []) w.z ≠ dot (w.mats.b.getD i []) z') ∨ ∃ j < w.mats.numInstanceVariables, w.z.getD j 0 ≠ z'.getD j 0)
    (rng : Nat → Nat → Nat → Bn254Fr) (P : Fin (2 ^ b) → Nat) (hinj : Function.Injective P) (hlt : ∀ i, P i < 4 * 2 ^ b)
    (τ : Fin 3 → Fin N → Fin N → Bn254Fr) :
    ∃ E : Option (Observation Bn254Fr Bn254G1 Bn254G2 (4 * 2 ^ b) (2 ^ b)) → Prop,
      1 - 2 ^ b / 2 ^ 251 ≤
        prob (fun x => E (observation (N := N) pp dbg (4 * 2 ^ b) (2 ^ b) w.mats w.z w.pk gen1 gen2 rng P (knownProgram τ x))) ∧
      prob (fun x => E (observation (N := N) pp dbg (4 * 2 ^ b) (2 ^ b) w.mats z' w.pk gen1 gen2 rng P (knownProgram τ x))) = 0 := by
  obtain ⟨E, e1, e2⟩ := C102_told_apart hpp (bn254_gen b) dbg (spans_of_card bn254G1_card h1) (spans_of_card C91_g2_card h2) w hcirc' hne rng P hinj hlt τ
  refine ⟨E, le_trans (sub_le_sub_left ?_ 1) e1, e2⟩
  have h3 : (4 * 2 ^ b / Nat.card Bn254Fr : ℚ) ≤ 4 * 2 ^ b / 2 ^ 253 := by
    have := bn254_large
    gcongr
  exact h3.trans (le_of_eq (by ring))

end

/-! ### Examples -/

/-- C103: eight servers prove the knowledge of a root `x` over the curves, packed in pairs. What two of them see in a thousand sessions is simulated
without `x`; with the tape of the code for the program it is told apart from what they see of a proof with `-x`. -/
example (x : Bn254Fr) (hx : x ≠ -x) (rng : Nat → Nat → Nat → Bn254Fr) (τ : Fin 3 → Fin 6 → Fin 6 → Bn254Fr) :
    ∃ (pp : PSS Bn254Fr) (w : OneWitness (F := Bn254Fr) 1 false 6 Bn254G1 Bn254G2), w.z = [1, x * x, x] ∧ w.g1 ≠ 0 ∧
      Close (1000 * 2 ^ 1 / 2 ^ 250)
        (observed (fun _ => observation (N := 6) pp false (4 * 2 ^ 1) (2 ^ 1) w.mats w.z w.pk w.g1 w.g2 rng pair17) 1000 [])
        (observed (fun _ => simulation (N := 6) pp false (4 * 2 ^ 1) (2 ^ 1) w.mats 3 w.pk w.g1 w.g2 rng pair17
          (trapdoorProof w.t w.g1 w.g2 w.pa w.pb w.pc [1, x * x])) 1000 []) ∧
      ∃ E : Option (Observation Bn254Fr Bn254G1 Bn254G2 (4 * 2 ^ 1) (2 ^ 1)) → Prop,
        1 - 2 ^ 1 / 2 ^ 251 ≤
          prob (fun y => E (observation (N := 6) pp false (4 * 2 ^ 1) (2 ^ 1) w.mats w.z w.pk w.g1 w.g2 rng pair17 (knownProgram τ y))) ∧
        prob (fun y => E (observation (N := 6) pp false (4 * 2 ^ 1) (2 ^ 1) w.mats [1, x * x, -x] w.pk w.g1 w.g2 rng pair17 (knownProgram τ y))) = 0 := by
  obtain ⟨pp, hpp⟩ := (C80_bn254_parameters.2.1 true 1).2 (by norm_num)
  obtain ⟨-, g1, -, ho1⟩ := C91_g1
  obtain ⟨-, -, -, g2, -, -, -, -, ho2⟩ := C91_g2
  have hg1 : g1 ≠ 0 := by
    rintro rfl
    rw [addOrderOf_zero] at ho1
    exact absurd ho1 (by decide +kernel)
  have hg2 : g2 ≠ 0 := by
    rintro rfl
    rw [addOrderOf_zero] at ho2
    exact absurd ho2 (by decide +kernel)
  obtain ⟨w, hm, hz, -, rfl, rfl⟩ := C103_instance 1 (squareMats Bn254Fr) [1, x * x, x] (square_r1cs x).1 (square_r1cs x).2
    (by show 1 + 2 ≤ 2 ^ 27; norm_num) (by show 2 ^ 1 < 2 * (1 + 2); norm_num) ⟨2, 3, 1, 1, 6⟩ one_ne_zero one_ne_zero g1 g2 6
    (by show 2 * (1 + 2) ≤ 6; norm_num) (by show 3 ≤ 6; norm_num)
  refine ⟨pp, w, hz, hg1, ?_, C103_told_apart hpp false hg1 hg2 w ?_ ?_ rng pair17 pair17_inj pair17_lt τ⟩
  · have h := C103_simulated hpp false hg1 hg2 (fun _ => w) (fun _ => rng) (fun _ => pair17) (fun _ => pair17_inj) (fun _ => pair17_lt) (fun _ o => o) 1000
    rw [show w.z.take w.mats.numInstanceVariables = [1, x * x] by rw [hz, hm]; rfl, show w.z.length = 3 by rw [hz]; rfl] at h
    exact_mod_cast h
  · have hc := w.hcirc
    rw [hz] at hc
    exact ⟨hc.domain, hc.size, hc.double, hc.rowsA, hc.rowsB, hc.colsA, hc.colsB, hc.colsC, hc.inputs, hc.wires, rfl⟩
  · refine .inl ⟨0, by rw [hm]; exact Nat.one_pos, .inl ?_⟩
    rw [hm, hz]
    simpa [squareMats, dot] using hx

end ZkSaas.Properties
