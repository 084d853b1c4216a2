import Verif.Properties.Bn254Zk
import Verif.Properties.Causal

/-!
# C111: cheating servers over several sessions, and on BN254
-/

namespace ZkSaas.Properties

open Spec Polynomial Finset

/-- **C111** Any number of sessions one after the other with fresh draws, in each of which the servers choose every wrong message by what they are dealt and
by the answers so far. The circuit, the key, both assignments, the servers and the strategy of each session may depend on all that was seen before. -/
theorem C111_sessions {F : Type} [Field F] [FftField F] [DecidableEq F] [FixedWire F] {G1 G2 : Type} [AddCommGroup G1] [Module F G1] [DecidableEq G1]
    [FixedWire G1] [AddCommGroup G2] [Module F G2] [DecidableEq G2] [FixedWire G2] [Finite F] [Finite G1] [Finite G2] {dbg₀ : Bool} {b : Nat} {pp : PSS F}
    (hpp : PSS.new dbg₀ (2 ^ b) = .ok pp) (hgen : (FftField.GENERATOR : F) ^ (4 * 2 ^ b) ≠ 1) (dbg : Bool) (a : Nat) (ha : a < 64) {O : Type}
    {mats : List O → ConstraintMatrices F} {z z' : List O → List F} {dom dom2 : Domain F} (hcirc : ∀ h, Circuit a b (mats h) (z h) dom dom2)
    (hcirc' : ∀ h, Circuit a b (mats h) (z' h) dom dom2) (hz : ∀ h, (z h).length = (z' h).length) (pk : List O → ProvingKey G1 G2)
    (hk : ∀ h, KeyFits (z h).length (mats h).numInstanceVariables (2 ^ (a + b)) (pk h)) (hal : dbg = true → ∀ h, KeyAligned (2 ^ b) (pk h))
    (gen1 : G1) (gen2 : G2) (hspan1 : ∀ g : G1, ∃ c : F, c • gen1 = g) (hspan2 : ∀ g : G2, ∃ c : F, c • gen2 = g)
    (rng : List O → Nat → Nat → Nat → F) (P : List O → Fin (2 ^ b) → Nat) (hinj : ∀ h, Function.Injective (P h)) (hlt : ∀ h i, P h i < 4 * 2 ^ b)
    (hking : ∀ h i, P h i ≠ 0) {N : Nat} (hN : 2 ^ (a + b) ≤ N) (hzN : ∀ h, (z h).length ≤ N)
    (σ : List O → Holding F G1 G2 (2 ^ b) → Nat → Errors F G1 G2) (hσ : dbg = true → ∀ h v, Passes pp b (σ h v)) (hcausal : ∀ h, Causal (σ h))
    (f : List O → Option (Holding F G1 G2 (2 ^ b)) → O) (k : Nat) :
    Close (k * (4 * 2 ^ b / Nat.card F))
      (observed (fun h x => f h (gained (N := N) pp dbg b (mats h) (z h) (pk h) gen1 gen2 (rng h) (P h) (σ h) x)) k [])
      (observed (fun h x => f h (gained (N := N) pp dbg b (mats h) (z' h) (pk h) gen1 gen2 (rng h) (P h) (σ h) x)) k []) :=
  C109_sessions hpp hgen dbg a ha hcirc hcirc' hz pk hk hal gen1 gen2 hspan1 hspan2 rng P hinj hlt hking hN hzN σ hσ
    (fun h => C110_decided hpp hgen dbg a ha (hcirc h) (pk h) (hk h) (fun e => hal e h) gen1 gen2 (rng h) (P h) (hlt h) (hking h) (σ h)
      (fun e => hσ e h) (hcausal h))
    (fun h => C110_decided hpp hgen dbg a ha (hcirc' h) (pk h) (hz h ▸ hk h) (fun e => hal e h) gen1 gen2 (rng h) (P h) (hlt h) (hking h) (σ h)
      (fun e => hσ e h) (hcausal h)) f k

section
variable {dbg₀ : Bool} {b : Nat} {pp : PSS Bn254Fr} (hpp : PSS.new dbg₀ (2 ^ b) = .ok pp) (dbg : Bool) {a : Nat} (ha : a < 64) {N : Nat}
  (hN : 2 ^ (a + b) ≤ N)
include hpp ha hN

/-- **C111** On BN254 the servers who cheat in `k` sessions learn of the assignments at most what gives an advantage of `k·l / 2^251`. -/
theorem C111_bn254 {O : Type} {mats : List O → ConstraintMatrices Bn254Fr} {z z' : List O → List Bn254Fr} {dom dom2 : Domain Bn254Fr}
    (hcirc : ∀ h, Circuit a b (mats h) (z h) dom dom2) (hcirc' : ∀ h, Circuit a b (mats h) (z' h) dom dom2) (hz : ∀ h, (z h).length = (z' h).length)
    (pk : List O → ProvingKey Bn254G1 Bn254G2) (hk : ∀ h, KeyFits (z h).length (mats h).numInstanceVariables (2 ^ (a + b)) (pk h))
    (hal : dbg = true → ∀ h, KeyAligned (2 ^ b) (pk h)) {gen1 : Bn254G1} {gen2 : Bn254G2} (h1 : gen1 ≠ 0) (h2 : gen2 ≠ 0)
    (rng : List O → Nat → Nat → Nat → Bn254Fr) (P : List O → Fin (2 ^ b) → Nat) (hinj : ∀ h, Function.Injective (P h))
    (hlt : ∀ h i, P h i < 4 * 2 ^ b) (hking : ∀ h i, P h i ≠ 0) (hzN : ∀ h, (z h).length ≤ N)
    (σ : List O → Holding Bn254Fr Bn254G1 Bn254G2 (2 ^ b) → Nat → Errors Bn254Fr Bn254G1 Bn254G2) (hσ : dbg = true → ∀ h v, Passes pp b (σ h v))
    (hcausal : ∀ h, Causal (σ h)) (f : List O → Option (Holding Bn254Fr Bn254G1 Bn254G2 (2 ^ b)) → O) (k : Nat) :
    Close (k * 2 ^ b / 2 ^ 251)
      (observed (fun h x => f h (gained (N := N) pp dbg b (mats h) (z h) (pk h) gen1 gen2 (rng h) (P h) (σ h) x)) k [])
      (observed (fun h x => f h (gained (N := N) pp dbg b (mats h) (z' h) (pk h) gen1 gen2 (rng h) (P h) (σ h) x)) k []) := by
  intro E
  refine (C111_sessions hpp (bn254_gen b) dbg a ha hcirc hcirc' hz pk hk hal gen1 gen2 (spans_of_card bn254G1_card h1) (spans_of_card C91_g2_card h2)
    rng P hinj hlt hking hN hzN σ hσ hcausal f k E).trans ?_
  have h3 : (k : ℚ) * (4 * 2 ^ b / Nat.card Bn254Fr) ≤ k * (4 * 2 ^ b / 2 ^ 253) := by
    have := bn254_large
    gcongr
  exact h3.trans (le_of_eq (by ring))

/-- **C111** And all but `l / 2^251` of the draws let such a session end. -/
theorem C111_ends {mats : ConstraintMatrices Bn254Fr} {z : List Bn254Fr} {dom dom2 : Domain Bn254Fr} (hcirc : Circuit a b mats z dom dom2)
    (pk : ProvingKey Bn254G1 Bn254G2) (hk : KeyFits z.length mats.numInstanceVariables (2 ^ (a + b)) pk) (hal : dbg = true → KeyAligned (2 ^ b) pk)
    (gen1 : Bn254G1) (gen2 : Bn254G2) (rng : Nat → Nat → Nat → Bn254Fr) (P : Fin (2 ^ b) → Nat) (hlt : ∀ i, P i < 4 * 2 ^ b) (hking : ∀ i, P i ≠ 0)
    (σ : Holding Bn254Fr Bn254G1 Bn254G2 (2 ^ b) → Nat → Errors Bn254Fr Bn254G1 Bn254G2) (hσ : dbg = true → ∀ v, Passes pp b (σ v))
    (hcausal : Causal σ) :
    prob (fun x => gained (N := N) pp dbg b mats z pk gen1 gen2 rng P σ x = none) ≤ 2 ^ b / 2 ^ 251 := by
  refine (C110_ends hpp (bn254_gen b) dbg a ha hcirc pk hk hal gen1 gen2 rng P hlt hking hN σ hσ hcausal).trans ?_
  have h3 : (4 * 2 ^ b / Nat.card Bn254Fr : ℚ) ≤ 4 * 2 ^ b / 2 ^ 253 := by
    have := bn254_large
    gcongr
  exact h3.trans (le_of_eq (by ring))

end

/-- Servers 3 and 6 add to the entry `c` of a message `c` plus the number of answers so far to server 6 that begin with a zero byte; in the sums they go by
their shares of `r` and by the number of answers so far. -/
def slyBn (g1 : Bn254G1) (g2 : Bn254G2) (v : Holding Bn254Fr Bn254G1 Bn254G2 (2 ^ 1)) (p : Nat) : Errors Bn254Fr Bn254G1 Bn254G2 :=
  if p = 3 ∨ p = 6 then
    ⟨fun j c => c + ((v.sent 1).take j).countP (fun m => m.2.head? = some 0), fun c => (v.dealt 1).ax.getD c 0 + ((v.sent 0).take 6).length,
      fun _ => ((v.dealt 0).r * ((v.sent 0).take 7).length) • g1, (v.dealt 1).s • g2⟩
  else ⟨0, 0, 0, 0⟩

theorem slyBn_causal (g1 : Bn254G1) (g2 : Bn254G2) : Causal (slyBn g1 g2) := by
  intro v v' hd j hj hs p
  have take : ∀ i m, m ≤ j → (v.sent i).take m = (v'.sent i).take m := fun i m hm => by
    have := congrArg (List.take m) (hs i)
    rwa [List.take_take, List.take_take, min_eq_left hm] at this
  unfold slyBn
  split_ifs
  · refine ⟨fun _ => ?_, fun h => ?_, fun h => ?_, fun h => ?_, fun h => ?_, fun h => ?_, fun h => ?_⟩ <;> dsimp only
    · simp only [hs]
    · simp only [hd, take 0 6 (by omega)]
    · simp only [hd, take 0 7 (by omega)]
    · simp only [hd, take 0 7 (by omega)]
    · simp only [hd]
    · simp only [hd, take 0 7 (by omega)]
    · simp only [hd, take 0 7 (by omega)]
  · exact ⟨fun _ => rfl, fun _ => rfl, fun _ => rfl, fun _ => rfl, fun _ => rfl, fun _ => rfl, fun _ => rfl⟩

/-- C111: eight servers prove the knowledge of a root over the curves, packed in pairs; servers 3 and 6 spoil their messages by the answers so far. In a
thousand sessions they do not learn whether the root is `x` or `-x`. -/
example (x : Bn254Fr) (rng : Nat → Nat → Nat → Bn254Fr) :
    ∃ (pp : PSS Bn254Fr) (pk : ProvingKey Bn254G1 Bn254G2) (g1 : Bn254G1) (g2 : Bn254G2), g1 ≠ 0 ∧
      prob (fun y => gained (N := 6) pp false 1 (squareMats Bn254Fr) [1, x * x, x] pk g1 g2 rng pair17 (slyBn g1 g2) y = none) ≤ 2 ^ 1 / 2 ^ 251 ∧
      Close (1000 * 2 ^ 1 / 2 ^ 251)
        (observed (fun _ => gained (N := 6) pp false 1 (squareMats Bn254Fr) [1, x * x, x] pk g1 g2 rng pair17 (slyBn g1 g2)) 1000 [])
        (observed (fun _ => gained (N := 6) pp false 1 (squareMats Bn254Fr) [1, x * x, -x] pk g1 g2 rng pair17 (slyBn g1 g2)) 1000 []) := by
  obtain ⟨pp, hpp⟩ := (C80_bn254_parameters.2.1 true 1).2 (by norm_num)
  obtain ⟨-, g1, -, ho1⟩ := C91_g1
  obtain ⟨-, -, -, g2, -, -, -, -, ho2⟩ := C91_g2
  have hg1 : g1 ≠ 0 := by
    rintro rfl
    rw [addOrderOf_zero] at ho1
    exact absurd ho1 (by decide +kernel)
  have hg2 : g2 ≠ 0 := by
    rintro rfl
    rw [addOrderOf_zero] at ho2
    exact absurd ho2 (by decide +kernel)
  obtain ⟨w, hm, hz, -, rfl, rfl⟩ := C103_instance 1 (squareMats Bn254Fr) [1, x * x, x] (square_r1cs x).1 (square_r1cs x).2
    (by show 1 + 2 ≤ 2 ^ 27; norm_num) (by show 2 ^ 1 < 2 * (1 + 2); norm_num) ⟨2, 3, 1, 1, 6⟩ one_ne_zero one_ne_zero g1 g2 6
    (by show 2 * (1 + 2) ≤ 6; norm_num) (by show 3 ≤ 6; norm_num)
  have hc := w.hcirc
  have hk := KeyFits.of_key w.hk
  rw [hz, hm] at hc hk
  have hc' : Circuit w.a 1 (squareMats Bn254Fr) [1, x * x, -x] w.dom w.dom2 :=
    ⟨hc.domain, hc.size, hc.double, hc.rowsA, hc.rowsB, hc.colsA, hc.colsB, hc.colsC, hc.inputs, hc.wires, rfl⟩
  refine ⟨pp, w.pk, w.g1, w.g2, hg1, ?_, ?_⟩
  · exact C111_ends hpp false w.ha w.hN hc w.pk hk (by simp) w.g1 w.g2 rng pair17 pair17_lt (by decide) _ (by simp) (slyBn_causal _ _)
  · exact_mod_cast C111_bn254 hpp false w.ha w.hN (fun _ => hc) (fun _ => hc') (fun _ => rfl) (fun _ => w.pk) (fun _ => hk) (by simp) hg1 hg2
      (fun _ => rng) (fun _ => pair17) (fun _ => pair17_inj) (fun _ => pair17_lt) (fun _ => by decide) (fun _ => by show 3 ≤ 6; norm_num) (fun _ => slyBn w.g1 w.g2)
      (by simp) (fun _ => slyBn_causal _ _) (fun _ o => o) 1000

end ZkSaas.Properties
