import Verif.Properties.Malicious
import Verif.Properties.RogueKing
import Verif.Spec.Opening
import Mathlib.LinearAlgebra.Prod

/-!
# C88: opening the proof

The client opens the servers' answers with `unpack2` (`groth16/examples/sha256.rs:366-377`) and looks at the first slot. That is one
weighted sum of the `4l` answers, in which no weight is zero. The debug build tests one linear equation for each of the three components; the
release build tests nothing. So in a release build every server, the king or not, moves each component of the opened proof by what it
likes, after the protocol is over; in a debug build two servers can, and one cannot (`C67_proof`).
-/

set_option linter.unusedSectionVars false

namespace ZkSaas.Properties

open Finset Polynomial Spec

variable {F : Type} [Field F] [DecidableEq F] [FftField F]

/-! ### One vector -/

section unpack
variable {T : Type} [AddCommGroup T] [Module F T] [DecidableEq T]

/-- Any values are on a polynomial, whose other values are weighted sums. -/
theorem shares_weighted {pp : PSS F} (hg : pp.Good) (hoff : pp.secret.offset ^ (4 * pp.l) ≠ 1) (z : Nat → T) :
    pp.Shares (4 * pp.l) ((List.range (4 * pp.l)).map z) ((List.range pp.l).map fun k =>
      ∑ i ∈ range (4 * pp.l), weight pp.share.groupGen (4 * pp.l) i (pp.secret.offset * (pp.share.groupGen ^ 2) ^ k) • z i) := by
  have hl := hg.lpos
  have hω : pp.share.groupGen ^ (4 * pp.l) = 1 := by
    have := hg.share_wf.prim.pow_eq_one
    rwa [hg.share_size] at this
  have hω0 : pp.share.groupGen ≠ 0 := hg.share_wf.prim.ne_zero hg.share_wf.pos.ne'
  refine ⟨by simp, by simp, fun j => (pp.share.ifft ((List.range (4 * pp.l)).map z)).getD j 0, fun i hi => ?_, fun k hk => ?_⟩
  · have := Domain.eval_ifft hg.share_wf ((List.range (4 * pp.l)).map z) (i := i) (by rw [hg.share_size]; exact hi)
    rw [← this, hg.share_size, pval]
    simp only [Domain.element, hg.share_off, one_mul]
  · rw [getD_map_range, if_pos hk]
    set x := pp.secret.offset * (pp.share.groupGen ^ 2) ^ k with hx
    have hxn : x ^ (4 * pp.l) ≠ 1 := by
      rw [hx, mul_pow, ← pow_mul, ← pow_mul, show 2 * (k * (4 * pp.l)) = (4 * pp.l) * (2 * k) by ring, pow_mul _ (4 * pp.l), hω, one_pow, mul_one]
      exact hoff
    have h1 : ∀ j ∈ range (4 * pp.l), x ^ j • (pp.share.ifft ((List.range (4 * pp.l)).map z)).getD j 0 =
        ∑ i ∈ range (4 * pp.l), (pp.share.sizeInv * (x * (pp.share.groupGen ^ i)⁻¹) ^ j) • z i := by
      intro j hj
      rw [Domain.ifft, getD_map_range, if_pos (by rw [hg.share_size]; exact mem_range.1 hj), evalAt_resize, smul_sum, smul_sum, hg.share_size]
      apply sum_congr rfl
      intro i hi
      rw [getD_map_range, if_pos (mem_range.1 hi), smul_smul, smul_smul, hg.share_wf.ginv, hg.share_wf.offinv, hg.share_off]
      congr 1
      rw [inv_one, one_pow, one_mul, mul_pow, ← inv_pow]
      ring
    rw [pval, sum_congr rfl h1, sum_comm]
    apply sum_congr rfl
    intro i hi
    rw [← sum_smul, ← mul_sum]
    congr 1
    have hωi : pp.share.groupGen ^ i ≠ 0 := pow_ne_zero _ hω0
    have hpi : (pp.share.groupGen ^ i) ^ (4 * pp.l) = 1 := by rw [← pow_mul, mul_comm, pow_mul, hω, one_pow]
    have hne : x - pp.share.groupGen ^ i ≠ 0 := fun h => hxn (by rw [sub_eq_zero.1 h, hpi])
    have hgs := geom_sum_mul (x * (pp.share.groupGen ^ i)⁻¹) (4 * pp.l)
    rw [mul_pow, inv_pow, hpi, inv_one, mul_one] at hgs
    have hsz : ((4 * pp.l : Nat) : F) ≠ 0 := by
      have := hg.share_wf.szne
      rwa [hg.share_size] at this
    rw [weight, hg.share_wf.sinv, hg.share_size, ← hgs]
    generalize ∑ j ∈ range (4 * pp.l), (x * (pp.share.groupGen ^ i)⁻¹) ^ j = S
    field_simp

/-- **C88** What `unpack2` makes of any `4l` values. In a release build slot `k` is the weighted sum of the values with the weights of
interpolation at the `k`-th secret point. A debug build gives the same if `∑ ω^i z_i = 0`, and panics otherwise. -/
theorem C88_unpack2 {dbg₀ : Bool} {b : Nat} {pp : PSS F} (hpp : PSS.new dbg₀ (2 ^ b) = .ok pp)
    (hgen : (FftField.GENERATOR : F) ^ (4 * 2 ^ b) ≠ 1) (z : Nat → T) :
    pp.unpack2 false ((List.range (4 * 2 ^ b)).map z) = .ok ((List.range (2 ^ b)).map fun k => ∑ i ∈ range (4 * 2 ^ b),
      weight pp.share.groupGen (4 * 2 ^ b) i (pp.secret.offset * (pp.share.groupGen ^ 2) ^ k) • z i) ∧
    pp.unpack2 true ((List.range (4 * 2 ^ b)).map z) = if ∑ i ∈ range (4 * 2 ^ b), pp.share.groupGen ^ i • z i = 0 then
      pp.unpack2 false ((List.range (4 * 2 ^ b)).map z) else panic' := by
  have hg := PSS.good_of_new hpp
  have hle := l_eq hpp
  have hoff := offset_ne hpp hgen
  rw [← hle]
  refine ⟨PSS.unpack2_release hg (shares_weighted hg hoff z), ?_⟩
  change _ = if pp.checksum z = 0 then _ else _
  unfold PSS.unpack2
  simp only
  rw [PSS.ifft_drop hg]
  by_cases h : pp.checksum z = 0
  · rw [if_pos h, h, smul_zero]
    simp [debugAssert]
  · rw [if_neg h]
    have hb : (decide (pp.share.sizeInv • pp.checksum z = 0)) = false := by
      rw [decide_eq_false_iff_not, smul_eq_zero, not_or]
      exact ⟨PSS.sizeInv_ne hg, h⟩
    simp only [List.all_cons, List.all_nil, hb]
    rfl

end unpack

/-! ### The proof -/

/-- The weight of server `i` in the opened proof. -/
def openWeight (pp : PSS F) (b i : Nat) : F := weight pp.share.groupGen (4 * 2 ^ b) i pp.secret.offset

theorem openWeight_eq {dbg₀ : Bool} {b : Nat} {pp : PSS F} (hpp : PSS.new dbg₀ (2 ^ b) = .ok pp)
    (hgen : (FftField.GENERATOR : F) ^ (4 * 2 ^ b) ≠ 1) : ∃ K : F, K ≠ 0 ∧ ∀ i, pp.secret.offset - pp.share.groupGen ^ i ≠ 0 ∧
      pp.share.groupGen ^ i ≠ 0 ∧ openWeight pp b i = K * pp.share.groupGen ^ i / (pp.secret.offset - pp.share.groupGen ^ i) := by
  have hg := PSS.good_of_new hpp
  have hle := l_eq hpp
  have hoff := offset_ne hpp hgen
  have hω : pp.share.groupGen ^ (4 * pp.l) = 1 := by
    have := hg.share_wf.prim.pow_eq_one
    rwa [hg.share_size] at this
  have hω0 : pp.share.groupGen ≠ 0 := hg.share_wf.prim.ne_zero hg.share_wf.pos.ne'
  have hsz : ((4 * pp.l : Nat) : F) ≠ 0 := by
    have := hg.share_wf.szne
    rwa [hg.share_size] at this
  refine ⟨(pp.secret.offset ^ (4 * pp.l) - 1) / ((4 * pp.l : Nat) : F), div_ne_zero (sub_ne_zero.2 hoff) hsz, fun i => ?_⟩
  have hpi : (pp.share.groupGen ^ i) ^ (4 * pp.l) = 1 := by rw [← pow_mul, mul_comm, pow_mul, hω, one_pow]
  have hne : pp.secret.offset - pp.share.groupGen ^ i ≠ 0 := fun h => hoff (by rw [sub_eq_zero.1 h, hpi])
  refine ⟨hne, pow_ne_zero _ hω0, ?_⟩
  rw [openWeight, weight, ← hle]
  field_simp

section proof
variable {G1 G2 : Type} [AddCommGroup G1] [Module F G1] [DecidableEq G1] [AddCommGroup G2] [Module F G2] [DecidableEq G2]

/-- **C88** The opened proof, for any answers. In a release build each component is the weighted sum of the servers' values, and every
server has a non-zero weight. A debug build opens the same proof exactly if each of the three components passes the test `∑ ω^i z_i = 0`, and
panics otherwise. -/
theorem C88_open {dbg₀ : Bool} {b : Nat} {pp : PSS F} (hpp : PSS.new dbg₀ (2 ^ b) = .ok pp)
    (hgen : (FftField.GENERATOR : F) ^ (4 * 2 ^ b) ≠ 1) (ans : Nat → G1 × G2 × G1) :
    (∀ i, openWeight pp b i ≠ 0) ∧
    pp.openProof false ((List.range (4 * 2 ^ b)).map ans) = .ok (∑ i ∈ range (4 * 2 ^ b), openWeight pp b i • (ans i).1,
      ∑ i ∈ range (4 * 2 ^ b), openWeight pp b i • (ans i).2.1, ∑ i ∈ range (4 * 2 ^ b), openWeight pp b i • (ans i).2.2) ∧
    pp.openProof true ((List.range (4 * 2 ^ b)).map ans) = if ∑ i ∈ range (4 * 2 ^ b), pp.share.groupGen ^ i • (ans i).1 = 0 ∧
      ∑ i ∈ range (4 * 2 ^ b), pp.share.groupGen ^ i • (ans i).2.1 = 0 ∧ ∑ i ∈ range (4 * 2 ^ b), pp.share.groupGen ^ i • (ans i).2.2 = 0 then
        pp.openProof false ((List.range (4 * 2 ^ b)).map ans) else panic' := by
  have hb0 : 0 < 2 ^ b := by positivity
  obtain ⟨K, hK, hw⟩ := openWeight_eq hpp hgen
  refine ⟨fun i => by obtain ⟨h1, h2, h3⟩ := hw i; rw [h3]; exact div_ne_zero (mul_ne_zero hK h2) h1, ?_⟩
  obtain ⟨a1, a2⟩ := C88_unpack2 hpp hgen fun i => (ans i).1
  obtain ⟨b1, b2⟩ := C88_unpack2 hpp hgen fun i => (ans i).2.1
  obtain ⟨c1, c2⟩ := C88_unpack2 hpp hgen fun i => (ans i).2.2
  unfold PSS.openProof
  simp only [List.map_map, Function.comp_def]
  rw [a2, b2, c2, a1, b1, c1]
  have hrd : ∀ {T : Type} [AddCommGroup T] [Module F T] (y : Nat → T), rd ((List.range (2 ^ b)).map fun k => ∑ i ∈ range (4 * 2 ^ b),
      weight pp.share.groupGen (4 * 2 ^ b) i (pp.secret.offset * (pp.share.groupGen ^ 2) ^ k) • y i) 0 = .ok (∑ i ∈ range (4 * 2 ^ b), openWeight pp b i • y i) := by
    intro T _ _ y
    rw [rd_getD 0 (by simp), getD_map_range, if_pos hb0, pow_zero, mul_one]
    rfl
  constructor
  · simp only [ok_bind, hrd]; rfl
  · have hor : ∀ {P Q R : Prop}, ¬ P ∨ ¬ Q ∨ ¬ R → ¬ (P ∧ Q ∧ R) := fun h h' => by tauto
    by_cases h1 : ∑ i ∈ range (4 * 2 ^ b), pp.share.groupGen ^ i • (ans i).1 = 0
    · by_cases h2 : ∑ i ∈ range (4 * 2 ^ b), pp.share.groupGen ^ i • (ans i).2.1 = 0
      · by_cases h3 : ∑ i ∈ range (4 * 2 ^ b), pp.share.groupGen ^ i • (ans i).2.2 = 0
        · rw [if_pos h1, if_pos h2, if_pos h3, if_pos ⟨h1, h2, h3⟩]
        · rw [if_pos h1, if_pos h2, if_neg h3, if_neg (hor (.inr (.inr h3)))]
          simp only [ok_bind, hrd]; rfl
      · rw [if_pos h1, if_neg h2, if_neg (hor (.inr (.inl h2)))]
        simp only [ok_bind, hrd]; rfl
    · rw [if_neg h1, if_neg (hor (.inl h1))]
      rfl

/-- **C88** In a release build any one server decides, with its own answer, by how much the three components of the opened proof are off. -/
theorem C88_one_server {dbg₀ : Bool} {b : Nat} {pp : PSS F} (hpp : PSS.new dbg₀ (2 ^ b) = .ok pp)
    (hgen : (FftField.GENERATOR : F) ^ (4 * 2 ^ b) ≠ 1) (ans : Nat → G1 × G2 × G1) {pA : G1} {pB : G2} {pC : G1}
    (hopen : pp.openProof false ((List.range (4 * 2 ^ b)).map ans) = .ok (pA, pB, pC)) (p : Nat) (hp : p < 4 * 2 ^ b) (dA : G1) (dB : G2) (dC : G1) :
    ∃ ans' : Nat → G1 × G2 × G1, (∀ i, i ≠ p → ans' i = ans i) ∧
      pp.openProof false ((List.range (4 * 2 ^ b)).map ans') = .ok (pA + dA, pB + dB, pC + dC) := by
  obtain ⟨hw, h, -⟩ := C88_open hpp hgen ans
  rw [hopen] at h
  injection h with h
  simp only [Prod.mk.injEq] at h
  obtain ⟨rfl, rfl, rfl⟩ := h
  refine ⟨fun i => if i = p then ans i + (openWeight pp b i)⁻¹ • (dA, dB, dC) else ans i, fun i hi => if_neg hi, ?_⟩
  rw [(C88_open hpp hgen _).2.1]
  have key : ∀ {T : Type} [AddCommGroup T] [Module F T] (y y' : Nat → T) (d : T), (∀ i, y' i = if i = p then y i + (openWeight pp b i)⁻¹ • d else y i) →
      ∑ i ∈ range (4 * 2 ^ b), openWeight pp b i • y' i = (∑ i ∈ range (4 * 2 ^ b), openWeight pp b i • y i) + d := by
    intro T _ _ y y' d hy
    have : ∀ i ∈ range (4 * 2 ^ b), openWeight pp b i • y' i = openWeight pp b i • y i + if i = p then d else 0 := by
      intro i _
      rw [hy i]
      split
      · rw [smul_add, smul_inv_smul₀ (hw i)]
      · rw [add_zero]
    rw [sum_congr rfl this, sum_add_distrib, sum_ite_eq' (range _) p, if_pos (mem_range.2 hp)]
  have hcomp : ∀ {T : Type} [AddCommGroup T] [Module F T] (f : G1 × G2 × G1 →ₗ[F] T), ∑ i ∈ range (4 * 2 ^ b), openWeight pp b i •
      f (if i = p then ans i + (openWeight pp b i)⁻¹ • (dA, dB, dC) else ans i) = (∑ i ∈ range (4 * 2 ^ b), openWeight pp b i • f (ans i)) +
        f (dA, dB, dC) := by
    intro T _ _ f
    refine key (fun i => f (ans i)) _ _ fun i => ?_
    split
    · rw [map_add, map_smul]
    · rfl
  have e1 := hcomp (LinearMap.fst F G1 (G2 × G1))
  have e2 := hcomp ((LinearMap.fst F G2 G1).comp (LinearMap.snd F G1 (G2 × G1)))
  have e3 := hcomp ((LinearMap.snd F G2 G1).comp (LinearMap.snd F G1 (G2 × G1)))
  simp only [LinearMap.fst_apply, LinearMap.snd_apply, LinearMap.comp_apply] at e1 e2 e3
  rw [e1, e2, e3]

/-- **C88** In every build any two servers can do the same without a panic. -/
theorem C88_two_servers {dbg₀ : Bool} {b : Nat} {pp : PSS F} (hpp : PSS.new dbg₀ (2 ^ b) = .ok pp)
    (hgen : (FftField.GENERATOR : F) ^ (4 * 2 ^ b) ≠ 1) (dbg : Bool) (ans : Nat → G1 × G2 × G1) {pA : G1} {pB : G2} {pC : G1}
    (hopen : pp.openProof dbg ((List.range (4 * 2 ^ b)).map ans) = .ok (pA, pB, pC)) (p q : Nat) (hp : p < 4 * 2 ^ b) (hq : q < 4 * 2 ^ b)
    (hpq : p ≠ q) (dA : G1) (dB : G2) (dC : G1) :
    ∃ ans' : Nat → G1 × G2 × G1, (∀ i, i ≠ p → i ≠ q → ans' i = ans i) ∧
      pp.openProof dbg ((List.range (4 * 2 ^ b)).map ans') = .ok (pA + dA, pB + dB, pC + dC) := by
  have hg := PSS.good_of_new hpp
  have hle := l_eq hpp
  obtain ⟨K, hK, hw⟩ := openWeight_eq hpp hgen
  obtain ⟨hp1, hp2, hp3⟩ := hw p
  obtain ⟨hq1, hq2, hq3⟩ := hw q
  have hdiff : pp.share.groupGen ^ p - pp.share.groupGen ^ q ≠ 0 := by
    intro h
    apply hpq
    have hprim := hg.share_wf.prim
    rw [hg.share_size, hle] at hprim
    exact hprim.pow_inj hp hq (sub_eq_zero.1 h)
  set u : F := (pp.secret.offset - pp.share.groupGen ^ p) * (pp.secret.offset - pp.share.groupGen ^ q) /
    (K * (pp.share.groupGen ^ p - pp.share.groupGen ^ q)) with hu
  set ε : Nat → F := fun i => if i = p then u / pp.share.groupGen ^ p else if i = q then -u / pp.share.groupGen ^ q else 0 with hε
  have hs : ∀ c : Nat → F, ∑ i ∈ range (4 * 2 ^ b), c i * ε i = c p * (u / pp.share.groupGen ^ p) + c q * (-u / pp.share.groupGen ^ q) := by
    intro c
    have : ∀ i ∈ range (4 * 2 ^ b), c i * ε i = (if i = p then c p * (u / pp.share.groupGen ^ p) else 0) +
        if i = q then c q * (-u / pp.share.groupGen ^ q) else 0 := by
      intro i _
      simp only [hε]
      by_cases h1 : i = p
      · subst h1; rw [if_pos rfl, if_pos rfl, if_neg hpq, add_zero]
      · rw [if_neg h1, if_neg h1, zero_add]
        split
        · rename_i h; rw [h]
        · rw [mul_zero]
    rw [sum_congr rfl this, sum_add_distrib, sum_ite_eq' (range _) p, if_pos (mem_range.2 hp), sum_ite_eq' (range _) q, if_pos (mem_range.2 hq)]
  have hs1 : ∑ i ∈ range (4 * 2 ^ b), pp.share.groupGen ^ i * ε i = 0 := by
    rw [hs]; field_simp; ring
  have hs2 : ∑ i ∈ range (4 * 2 ^ b), openWeight pp b i * ε i = 1 := by
    rw [hs, hp3, hq3, hu]; field_simp; ring
  have key : ∀ {T : Type} [AddCommGroup T] [Module F T] (c : Nat → F) (y : Nat → T) (d : T),
      ∑ i ∈ range (4 * 2 ^ b), c i • (y i + ε i • d) = (∑ i ∈ range (4 * 2 ^ b), c i • y i) + (∑ i ∈ range (4 * 2 ^ b), c i * ε i) • d := by
    intro T _ _ c y d
    simp only [smul_add, smul_smul, sum_add_distrib, sum_smul]
  refine ⟨fun i => ans i + ε i • (dA, dB, dC), fun i h1 h2 => by simp only [hε, if_neg h1, if_neg h2, zero_smul, add_zero], ?_⟩
  have hrel : ∀ {x y w}, pp.openProof false ((List.range (4 * 2 ^ b)).map ans) = .ok (x, y, w) →
      pp.openProof false ((List.range (4 * 2 ^ b)).map fun i => ans i + ε i • (dA, dB, dC)) = .ok (x + dA, y + dB, w + dC) := by
    intro x y w h
    rw [(C88_open hpp hgen ans).2.1] at h
    injection h with h
    simp only [Prod.mk.injEq] at h
    obtain ⟨rfl, rfl, rfl⟩ := h
    rw [(C88_open hpp hgen _).2.1]
    simp only [Prod.fst_add, Prod.snd_add, Prod.smul_fst, Prod.smul_snd]
    rw [key, key, key, hs2, one_smul, one_smul, one_smul]
  cases dbg with
  | false => exact hrel hopen
  | true =>
    rw [(C88_open hpp hgen ans).2.2] at hopen
    split_ifs at hopen with h
    · rw [(C88_open hpp hgen _).2.2, if_pos, hrel hopen]
      simp only [Prod.fst_add, Prod.snd_add, Prod.smul_fst, Prod.smul_snd]
      rw [key, key, key, hs1, zero_smul, zero_smul, zero_smul, add_zero, add_zero, add_zero]
      exact h
    · cases hopen

/-- **C88** The moved proof is accepted exactly if the pairing equation of the difference holds. So any two servers (in a release build: any
one) can have the client open, instead of an accepted proof, another accepted proof of the same statement, as well as a rejected one. -/
theorem C88_verifier {GT : Type} [AddCommGroup GT] [Module F GT] {dbg₀ : Bool} {b : Nat} {pp : PSS F} (hpp : PSS.new dbg₀ (2 ^ b) = .ok pp)
    (hgen : (FftField.GENERATOR : F) ^ (4 * 2 ^ b) ≠ 1) (dbg : Bool) (ans : Nat → G1 × G2 × G1) {pA : G1} {pB : G2} {pC : G1}
    (hopen : pp.openProof dbg ((List.range (4 * 2 ^ b)).map ans) = .ok (pA, pB, pC)) (p q : Nat) (hp : p < 4 * 2 ^ b) (hq : q < 4 * 2 ^ b)
    (hpq : p ≠ q ∨ dbg = false) {e : G1 →ₗ[F] G2 →ₗ[F] GT} {vk : VerifyingKey G1 G2} {pub : List F} (hv : Verifies e vk pub pA pB pC) :
    (∀ (dA : G1) (dB : G2) (dC : G1), ∃ ans' : Nat → G1 × G2 × G1, (∀ i, i ≠ p → i ≠ q → ans' i = ans i) ∧
      pp.openProof dbg ((List.range (4 * 2 ^ b)).map ans') = .ok (pA + dA, pB + dB, pC + dC) ∧
      (Verifies e vk pub (pA + dA) (pB + dB) (pC + dC) ↔ e pA dB + e dA pB + e dA dB = e dC vk.deltaG2)) ∧
    (∀ k : F, ∃ ans' : Nat → G1 × G2 × G1, (∀ i, i ≠ p → i ≠ q → ans' i = ans i) ∧
      pp.openProof dbg ((List.range (4 * 2 ^ b)).map ans') = .ok (pA, pB + k • vk.deltaG2, pC + k • pA) ∧
      Verifies e vk pub pA (pB + k • vk.deltaG2) (pC + k • pA)) ∧
    ∀ dC : G1, e dC vk.deltaG2 ≠ 0 → ∃ ans' : Nat → G1 × G2 × G1, (∀ i, i ≠ p → i ≠ q → ans' i = ans i) ∧
      pp.openProof dbg ((List.range (4 * 2 ^ b)).map ans') = .ok (pA, pB, pC + dC) ∧ ¬ Verifies e vk pub pA pB (pC + dC) := by
  have main : ∀ (dA : G1) (dB : G2) (dC : G1), ∃ ans' : Nat → G1 × G2 × G1, (∀ i, i ≠ p → i ≠ q → ans' i = ans i) ∧
      pp.openProof dbg ((List.range (4 * 2 ^ b)).map ans') = .ok (pA + dA, pB + dB, pC + dC) ∧
      (Verifies e vk pub (pA + dA) (pB + dB) (pC + dC) ↔ e pA dB + e dA pB + e dA dB = e dC vk.deltaG2) := by
    intro dA dB dC
    rcases hpq with hpq | rfl
    · obtain ⟨ans', h1, h2⟩ := C88_two_servers hpp hgen dbg ans hopen p q hp hq hpq dA dB dC
      exact ⟨ans', h1, h2, verifies_shift hv _ _ _⟩
    · obtain ⟨ans', h1, h2⟩ := C88_one_server hpp hgen ans hopen p hp dA dB dC
      exact ⟨ans', fun i hi _ => h1 i hi, h2, verifies_shift hv _ _ _⟩
  refine ⟨main, fun k => ?_, fun dC hd => ?_⟩
  · obtain ⟨ans', h1, h2, h3⟩ := main 0 (k • vk.deltaG2) (k • pA)
    rw [add_zero] at h2 h3
    exact ⟨ans', h1, h2, h3.2 (by simp)⟩
  · obtain ⟨ans', h1, h2, h3⟩ := main 0 0 dC
    rw [add_zero, add_zero] at h2 h3
    exact ⟨ans', h1, h2, fun h => hd (by simpa using (h3.1 h).symm)⟩

end proof

/-! ### A session -/

section session
variable [FixedWire F] {G1 G2 GT : Type} [AddCommGroup G1] [Module F G1] [DecidableEq G1] [FixedWire G1] [AddCommGroup G2] [Module F G2]
  [DecidableEq G2] [FixedWire G2] [AddCommGroup GT] [Module F GT]

/-- **C88** After a session in which everybody, the king too, has followed the protocol with a correct assignment: the client opens a proof that is
accepted and is the one of Groth16 for its `r` and `s`. But any two servers (in a release build any one, so also one that is not the king) can, by
what they hand to the client, have it open another accepted proof, which is not the one for `r` and `s`, or one that is rejected. -/
theorem C88_session {dbg₀ : Bool} {b : Nat} {pp : PSS F} (hpp : PSS.new dbg₀ (2 ^ b) = .ok pp)
    (hgen : (FftField.GENERATOR : F) ^ (4 * 2 ^ b) ≠ 1) (dbg : Bool) (a : Nat) (ha : a < 64)
    {mats : ConstraintMatrices F} {z : List F} {dom dom2 : Domain F} (hcirc : Circuit a b mats z dom dom2)
    (hsat : Satisfies mats.numConstraints mats.a mats.b mats.c z) {pa pb pc : Nat → F[X]}
    (hqap : IsQap mats z.length dom.groupGen (2 ^ (a + b)) pa pb pc) {t : Toxic F} {g1 : G1} {g2 : G2} {pk : ProvingKey G1 G2}
    (hk : IsCircomKey t g1 g2 z.length mats.numInstanceVariables (2 ^ (a + b)) dom2.groupGen pa pb pc pk) (hγ : t.gamma ≠ 0)
    (hδ : t.delta ≠ 0) (hal : dbg = true → KeyAligned (2 ^ b) pk) (gen1 : G1) (gen2 : G2) (r s : F) (tape : ClientTape F G1 G2)
    (hr0 : ∀ rs, pp.pack dbg (List.replicate (2 ^ b) r) tape.r = .ok rs → (∀ x ∈ rs, x ≠ 0) ∨ ∀ x ∈ rs, x = 0)
    (rng : Nat → Nat → Nat → F) (e : G1 →ₗ[F] G2 →ₗ[F] GT) (he : e g1 g2 ≠ 0) :
    ∃ (ins : Nat → ServerInput F G1 G2) (outs : Nat → G1 × G2 × G1) (pA : G1) (pB : G2) (pC : G1) (h : F),
      pp.deal dbg (2 ^ b) mats z pk gen1 gen2 r s tape = .ok ((List.range (4 * 2 ^ b)).map ins) ∧
      AlwaysYields (Net.init fun i : Fin (4 * 2 ^ b) => (ins i).run pp dbg (4 * 2 ^ b) i rng) (fun i => outs i) ∧
      pp.openProof dbg ((List.range (4 * 2 ^ b)).map outs) = .ok (pA, pB, pC) ∧
      Verifies e pk.vk ((z.take mats.numInstanceVariables).drop 1) pA pB pC ∧
      IsGroth16Proof t g1 g2 mats.numInstanceVariables pa pb pc z h r s pA pB pC ∧
      ∀ p q, p < 4 * 2 ^ b → q < 4 * 2 ^ b → p ≠ q ∨ dbg = false →
        (∃ ans : Nat → G1 × G2 × G1, (∀ i, i ≠ p → i ≠ q → ans i = outs i) ∧ ∃ pB' pC',
          pp.openProof dbg ((List.range (4 * 2 ^ b)).map ans) = .ok (pA, pB', pC') ∧
          Verifies e pk.vk ((z.take mats.numInstanceVariables).drop 1) pA pB' pC' ∧
          ¬ IsGroth16Proof t g1 g2 mats.numInstanceVariables pa pb pc z h r s pA pB' pC') ∧
        ∃ ans : Nat → G1 × G2 × G1, (∀ i, i ≠ p → i ≠ q → ans i = outs i) ∧ ∃ pC',
          pp.openProof dbg ((List.range (4 * 2 ^ b)).map ans) = .ok (pA, pB, pC') ∧
          ¬ Verifies e pk.vk ((z.take mats.numInstanceVariables).drop 1) pA pB pC' := by
  obtain ⟨rs, er, lr, hr⟩ := pack_holdsValue hpp dbg r tape.r
  obtain ⟨ss, es, ls, hs⟩ := pack_holdsValue hpp dbg s tape.s
  have hr0' : (∀ p < 4 * 2 ^ b, rs.getD p 0 ≠ 0) ∨ ∀ p < 4 * 2 ^ b, rs.getD p 0 = 0 := by
    refine (hr0 rs er).imp (fun h p hp => ?_) (fun h p hp => ?_) <;>
      exact h _ (by rw [List.getD_eq_getElem _ _ (by omega)]; exact List.getElem_mem _)
  obtain ⟨ins, outs, D, pA, pB, pC, h1, h2, -, -, h3, h4, h5, h6, -, h8, -, -, -, -, -, -⟩ := session_full (GT := GT) hpp dbg a ha hcirc hqap hk hγ hδ
    hal gen1 gen2 tape er es lr ls hr hs hr0' rng
  have hD : D = 0 := (errors_zero hcirc.prim hcirc.le h4).2 hsat
  have hver : Verifies e pk.vk ((z.take mats.numInstanceVariables).drop 1) pA pB pC :=
    ⟨h5, by rw [h6 e, hD, eval_zero, zero_smul, add_zero]⟩
  refine ⟨ins, outs, pA, pB, pC, _, h1, h2, h3, hver, h8, fun p q hp hq hpq => ?_⟩
  obtain ⟨-, k2, k3⟩ := C88_verifier hpp hgen dbg outs h3 p q hp hq hpq hver
  have hd2 : pk.vk.deltaG2 = t.delta • g2 := hk.deltaG2
  have hg2 : g2 ≠ 0 := fun h => he (by rw [h, map_zero])
  constructor
  · obtain ⟨ans, m1, m2, m3⟩ := k2 1
    refine ⟨ans, m1, _, _, m2, m3, fun h => ?_⟩
    have h9 := h.B
    rw [← h8.B, one_smul, hd2, add_eq_left, smul_eq_zero] at h9
    exact h9.elim hδ hg2
  · obtain ⟨ans, m1, m2, m3⟩ := k3 g1 (by
      rw [hd2, map_smul]
      exact smul_ne_zero hδ he)
    exact ⟨ans, m1, _, m2, m3⟩

end session

/-! ### Examples -/

/-- The weights of the eight servers over the field of 17 elements add up to one. -/
example : (∀ i < 8, openWeight pp17 1 i ≠ 0) ∧ ∑ i ∈ range 8, openWeight pp17 1 i = 1 := by
  decide +kernel

/-- Answers that open to one, of which that of server 3 is changed by hand: a debug build panics, a release build opens something else. -/
example : pp17.openProof true ((List.range 8).map fun _ => ((1, 1, 1) : ZMod 17 × ZMod 17 × ZMod 17)) = .ok (1, 1, 1) ∧
    pp17.openProof true ((List.range 8).map fun i => ((if i = 3 then 2 else 1, 1, 1) : ZMod 17 × ZMod 17 × ZMod 17)) = panic' ∧
    ∃ x, x ≠ 1 ∧ pp17.openProof false ((List.range 8).map fun i => ((if i = 3 then 2 else 1, 1, 1) : ZMod 17 × ZMod 17 × ZMod 17)) = .ok (x, 1, 1) := by
  refine ⟨by decide +kernel, by decide +kernel, 1 + openWeight pp17 1 3, by decide +kernel, by decide +kernel⟩

/-- Servers 2 and 5 of a debug build turn it into 4, 5 and 6. -/
example : ∃ ans : Nat → ZMod 17 × ZMod 17 × ZMod 17, (∀ i, i ≠ 2 → i ≠ 5 → ans i = (1, 1, 1)) ∧
    pp17.openProof true ((List.range (4 * 2 ^ 1)).map ans) = .ok (4, 5, 6) :=
  C88_two_servers (pp17_eq true) (by decide +kernel) true (fun _ => (1, 1, 1)) (pA := 1) (pB := 1) (pC := 1) (by decide +kernel) 2 5 (by norm_num) (by norm_num) (by norm_num) 3 4 5

/-- A session of debug builds after which servers 3 and 6 have the client open another accepted proof. -/
example (tape : ClientTape (ZMod 17) (ZMod 17) (ZMod 17)) (htape : tape.r = fun _ => 5) : ∃ (pk : ProvingKey (ZMod 17) (ZMod 17))
    (ins : Nat → ServerInput (ZMod 17) (ZMod 17) (ZMod 17)) (outs ans : Nat → ZMod 17 × ZMod 17 × ZMod 17) (π π' : ZMod 17 × ZMod 17 × ZMod 17),
    pp17.deal true 2 mats17e z17e pk 1 1 5 6 tape = .ok ((List.range 8).map ins) ∧
    AlwaysYields (Net.init fun i : Fin (4 * 2 ^ 1) => (ins i).run pp17 true (4 * 2 ^ 1) i fun _ i j => i + j) (fun i => outs i) ∧
    (∀ i, i ≠ 3 → i ≠ 6 → ans i = outs i) ∧
    pp17.openProof true ((List.range 8).map outs) = .ok π ∧ pp17.openProof true ((List.range 8).map ans) = .ok π' ∧ π ≠ π' ∧
    Verifies (LinearMap.mul (ZMod 17) (ZMod 17)) pk.vk [12, 5] π.1 π.2.1 π.2.2 ∧
    Verifies (LinearMap.mul (ZMod 17) (ZMod 17)) pk.vk [12, 5] π'.1 π'.2.1 π'.2.2 := by
  obtain ⟨pa, pb, pc, pk, h1, h2⟩ := C35_key_exists circuit17e (⟨2, 3, 4, 5, 6⟩ : Toxic (ZMod 17)) (1 : ZMod 17) (1 : ZMod 17)
  obtain ⟨ins, outs, pA, pB, pC, h, k1, k2, k3, k4, k5, k6⟩ := C88_session (pp17_eq true) (by decide +kernel) true 1 (by norm_num) circuit17e
    (fun i hi => by obtain rfl : i = 0 := by simpa [mats17e] using hi
                    decide +kernel) h1 h2
    (by decide) (by decide)
    (by unfold KeyAligned; rw [h2.aQuery, h2.hQuery, h2.lQuery, h2.bG1Query, h2.bG2Query]; simp only [List.length_map, List.length_range]; decide)
    1 1 5 6 tape (by
      intro rs hrs
      have : pp17.pack true (List.replicate (2 ^ 1) (5 : ZMod 17)) (fun _ => 5) = .ok (List.replicate 8 5) := by decide +kernel
      rw [htape, this] at hrs
      cases hrs
      left
      decide) (fun _ i j => i + j) (LinearMap.mul (ZMod 17) (ZMod 17)) (by decide)
  obtain ⟨⟨ans, m1, pB', pC', m2, m3, m4⟩, -⟩ := k6 3 6 (by norm_num) (by norm_num) (.inl (by norm_num))
  refine ⟨pk, ins, outs, ans, _, _, k1, k2, m1, k3, m2, fun heq => m4 ?_, k4, m3⟩
  simp only [Prod.mk.injEq, true_and] at heq
  rw [← heq.1, ← heq.2]
  exact k5

end ZkSaas.Properties
