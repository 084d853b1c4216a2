import Verif.Model.Fields
import Verif.Spec.Rows
import Verif.Properties.Frame
import Verif.Properties.Proof
import Mathlib.SetTheory.Cardinal.Finite
import Mathlib.Data.Fintype.Pi

/-!
# C36, C80: how rare zero shares are, and the fields of the curves in use
-/

set_option linter.unusedSectionVars false

namespace ZkSaas.Properties

open Finset Spec Polynomial

section general
variable {F : Type} [Field F] [DecidableEq F] [FftField F]

/-! ### C36: how rare zero shares are -/

/-- **C36** Every share is uniformly distributed: each value `y` is the share of party `p` for one in `|F|` of the choices of the
dealer's `l` random values. -/
theorem C36_share_uniform [Finite F] {dbg₀ : Bool} {b : Nat} {pp : PSS F} (hpp : PSS.new dbg₀ (2 ^ b) = .ok pp)
    (hgen : (FftField.GENERATOR : F) ^ (4 * 2 ^ b) ≠ 1) (dbg : Bool) (secrets : List F) (hl : secrets.length = 2 ^ b) (p : Nat)
    (hp : p < 4 * 2 ^ b) (y : F) :
    Nat.card F * Nat.card {τ : Fin (2 ^ b) → F // shareOf pp dbg secrets τ p = some y} = Nat.card (Fin (2 ^ b) → F) := by
  have hb : 0 < 2 ^ b := by positivity
  -- the coalition p, p+1, … (mod n)
  have hinj : Function.Injective fun i : Fin (2 ^ b) => (p + i.val) % (4 * 2 ^ b) := by
    intro i j h
    have h := Nat.ModEq.add_left_cancel' _ (show Nat.ModEq _ _ _ from h)
    have := Nat.ModEq.eq_of_lt_of_lt h (by omega) (by omega)
    exact Fin.ext this
  have hex := C07_privacy hpp hgen dbg secrets hl _ hinj (fun i => Nat.mod_lt _ (by omega))
  choose tape htape huniq using hex
  have htape : ∀ v i, shareOf pp dbg secrets (tape v) ((p + i.val) % (4 * 2 ^ b)) = some (v i) := fun v i => htape v i
  have hinj' : Function.Injective tape := fun v w h => funext fun i => by
    have h1 := htape v i
    rw [h, htape w i] at h1
    exact (Option.some.inj h1).symm
  -- every tape is the tape of its view
  have hview : Function.Surjective tape := Finite.surjective_of_injective hinj'
  let z : Fin (2 ^ b) := ⟨0, hb⟩
  have hz : ∀ v, shareOf pp dbg secrets (tape v) p = some (v z) := fun v => by
    have := htape v z
    rwa [show (p + z.val) % (4 * 2 ^ b) = p by simp [z, Nat.mod_eq_of_lt hp]] at this
  have e : {v : Fin (2 ^ b) → F // v z = y} ≃ {τ : Fin (2 ^ b) → F // shareOf pp dbg secrets τ p = some y} := by
    refine Equiv.ofBijective (fun v => ⟨tape v.1, by rw [hz, v.2]⟩) ⟨fun v w h => Subtype.ext (hinj' (congrArg Subtype.val h)), ?_⟩
    rintro ⟨τ, hτ⟩
    obtain ⟨v, rfl⟩ := hview τ
    rw [hz] at hτ
    exact ⟨⟨v, Option.some.inj hτ⟩, rfl⟩
  rw [← Nat.card_congr e, ← Nat.card_prod]
  refine Nat.card_congr ⟨fun q => Function.update q.2.1 z q.1, fun v => (v z, ⟨Function.update v z y, by simp⟩), ?_, ?_⟩
  · rintro ⟨x, v, hv⟩
    simp only [Function.update_self, Function.update_idem, Prod.mk.injEq, true_and]
    refine Subtype.ext ?_
    show Function.update v z y = v
    rw [← hv, Function.update_eq_self]
  · intro v
    simp

/-- **C36** The fault of `BInG1` is rare: at most `4l` in `|F|` choices of the dealer's random values give any party a zero share. -/
theorem C36_zero_share_rare [Finite F] {dbg₀ : Bool} {b : Nat} {pp : PSS F} (hpp : PSS.new dbg₀ (2 ^ b) = .ok pp)
    (hgen : (FftField.GENERATOR : F) ^ (4 * 2 ^ b) ≠ 1) (dbg : Bool) (secrets : List F) (hl : secrets.length = 2 ^ b) :
    Nat.card F * Nat.card {τ : Fin (2 ^ b) → F // ∃ p < 4 * 2 ^ b, shareOf pp dbg secrets τ p = some 0} ≤
      4 * 2 ^ b * Nat.card (Fin (2 ^ b) → F) := by
  have h1 : Nat.card {τ : Fin (2 ^ b) → F // ∃ p < 4 * 2 ^ b, shareOf pp dbg secrets τ p = some 0} ≤
      Nat.card (Σ p : Fin (4 * 2 ^ b), {τ : Fin (2 ^ b) → F // shareOf pp dbg secrets τ p = some 0}) := by
    refine Nat.card_le_card_of_surjective (fun q => ⟨q.2.1, q.1.val, q.1.2, q.2.2⟩) ?_
    rintro ⟨τ, p, hp, h⟩
    exact ⟨⟨⟨p, hp⟩, τ, h⟩, rfl⟩
  rw [Nat.card_sigma] at h1
  refine le_trans (Nat.mul_le_mul_left _ h1) ?_
  rw [Finset.mul_sum, Finset.sum_congr rfl fun p _ => C36_share_uniform hpp hgen dbg secrets hl p.val p.2 0]
  simp

/-! ### C80: circuits of every size up to the limit of the field -/

/-- A constraint system of at most half the size of the largest domain has the domains the prover needs. -/
theorem circuit_of_size {b : Nat} {mats : ConstraintMatrices F} {z : List F} (h : IsR1cs mats z)
    (hsize : mats.numConstraints + mats.numInstanceVariables ≤ 2 ^ (FftField.TWO_ADICITY F - 1)) (hta : 1 ≤ FftField.TWO_ADICITY F)
    (hta' : FftField.TWO_ADICITY F ≤ 64) (hbig : 2 ^ b < 2 * (mats.numConstraints + mats.numInstanceVariables)) :
    ∃ (a : Nat) (dom dom2 : Domain F), Circuit a b mats z dom dom2 ∧ a < 64 ∧
      a + b = Nat.clog 2 (mats.numConstraints + mats.numInstanceVariables) := by
  have h1 : Nat.clog 2 (mats.numConstraints + mats.numInstanceVariables) ≤ FftField.TWO_ADICITY F - 1 :=
    Nat.clog_le_of_le_pow hsize
  have h2 : b ≤ Nat.clog 2 (mats.numConstraints + mats.numInstanceVariables) := by
    rcases Nat.eq_zero_or_pos b with rfl | hb
    · exact Nat.zero_le _
    · have : b - 1 < Nat.clog 2 (mats.numConstraints + mats.numInstanceVariables) := by
        rw [Nat.lt_clog_iff_pow_lt (by norm_num)]
        have : 2 ^ b = 2 * 2 ^ (b - 1) := by rw [← pow_succ', Nat.sub_add_cancel hb]
        omega
      omega
  obtain ⟨a, ha⟩ := Nat.exists_eq_add_of_le' h2
  refine ⟨a, _, _, ⟨Domain.new_eq ha (by omega), rfl, Domain.new_eq (clog_two_pow _) (by omega), h.rowsA, h.rowsB, h.colsA, h.colsB,
    h.colsC, h.inputs, h.wires, h.one⟩, by omega, ha.symm⟩

/-- What `pack` draws. -/
theorem pack_tape (pp : PSS F) {b : Nat} (ht : pp.t = 2 ^ b) (dbg : Bool) (secrets : List F) (rng : Nat → F) (shares : List F)
    (h : pp.pack dbg secrets rng = .ok shares) (p : Nat) (hp : p < shares.length) :
    shareOf pp dbg secrets (fun i : Fin (2 ^ b) => rng i) p = some (shares.getD p 0) := by
  have e : pp.pack dbg secrets (fun i => if h : i < 2 ^ b then rng i else 0) = pp.pack dbg secrets rng := by
    unfold PSS.pack
    rw [List.map_congr_left (g := rng) fun i hi => dif_pos (ht ▸ List.mem_range.1 hi)]
  rw [shareOf, e, h]
  simp [List.getD, hp]

end general

section session
variable {F : Type} [Field F] [DecidableEq F] [FftField F] [FixedWire F]
variable {G1 G2 GT : Type} [AddCommGroup G1] [Module F G1] [DecidableEq G1] [FixedWire G1] [AddCommGroup G2] [Module F G2]
  [DecidableEq G2] [FixedWire G2] [AddCommGroup GT] [Module F GT]

/-- The trusted set-up and the servers of the example on a satisfied constraint system, in one statement. `copies` of `r` and `s` are
packed. -/
def ProvesAll (G1 G2 GT : Type) [AddCommGroup G1] [Module F G1] [DecidableEq G1] [FixedWire G1] [AddCommGroup G2] [Module F G2]
    [DecidableEq G2] [FixedWire G2] [AddCommGroup GT] [Module F GT] (pp : PSS F) (n copies : Nat) (mats : ConstraintMatrices F)
    (z : List F) (good : F → (Nat → F) → Prop) : Prop :=
  ∃ (m : Nat) (ω w : F), mats.numConstraints + mats.numInstanceVariables ≤ m ∧
    m < 2 * (mats.numConstraints + mats.numInstanceVariables) ∧ IsPrimitiveRoot ω m ∧ IsPrimitiveRoot w (2 * m) ∧ w ^ 2 = ω ∧
    ∀ (t : Toxic F) (g1 : G1) (g2 : G2), t.gamma ≠ 0 → t.delta ≠ 0 →
      ∃ (pa pb pc : Nat → F[X]) (pk : ProvingKey G1 G2), IsQap mats z.length ω m pa pb pc ∧
        IsCircomKey t g1 g2 z.length mats.numInstanceVariables m w pa pb pc pk ∧
        ∀ (gen1 : G1) (gen2 : G2) (r s : F) (tape : ClientTape F G1 G2) (rng : Nat → Nat → Nat → F), good r tape.r →
          ∃ (ins : Nat → ServerInput F G1 G2) (outs : Nat → G1 × G2 × G1) (pA : G1) (pB : G2) (pC : G1),
            pp.deal false copies mats z pk gen1 gen2 r s tape = .ok ((List.range n).map ins) ∧
            AlwaysYields (Net.init fun i : Fin n => (ins i).run pp false n i rng) (fun i => outs i) ∧
            pp.openProof false ((List.range n).map outs) = .ok (pA, pB, pC) ∧
            ∀ e : G1 →ₗ[F] G2 →ₗ[F] GT, Verifies e pk.vk ((z.take mats.numInstanceVariables).drop 1) pA pB pC

theorem proves_all {dbg₀ : Bool} {b : Nat} {pp : PSS F} (hpp : PSS.new dbg₀ (2 ^ b) = .ok pp) {mats : ConstraintMatrices F} {z : List F}
    (h : IsR1cs mats z) (hsat : Satisfies mats.numConstraints mats.a mats.b mats.c z)
    (hsize : mats.numConstraints + mats.numInstanceVariables ≤ 2 ^ (FftField.TWO_ADICITY F - 1)) (hta : 1 ≤ FftField.TWO_ADICITY F)
    (hta' : FftField.TWO_ADICITY F ≤ 64) (hbig : 2 ^ b < 2 * (mats.numConstraints + mats.numInstanceVariables)) :
    ProvesAll G1 G2 GT pp (4 * 2 ^ b) (4 * 2 ^ b) mats z (fun _ _ => True) ∧
    ProvesAll G1 G2 GT pp (4 * 2 ^ b) (2 ^ b) mats z (fun r rng => ∀ p < 4 * 2 ^ b,
      shareOf pp false (List.replicate (2 ^ b) r) (fun i : Fin (2 ^ b) => rng i) p ≠ some 0) := by
  obtain ⟨a, dom, dom2, hc, ha, hab⟩ := circuit_of_size (b := b) h hsize hta hta' hbig
  have hm1 : mats.numConstraints + mats.numInstanceVariables ≤ 2 ^ (a + b) := by rw [hab]; exact Nat.le_pow_clog (by norm_num) _
  have hm2 : 2 ^ (a + b) < 2 * (mats.numConstraints + mats.numInstanceVariables) := by
    have := h.inputs
    rcases Nat.eq_zero_or_pos (a + b) with h0 | h0
    · rw [h0]; omega
    · have hlt : a + b - 1 < Nat.clog 2 (mats.numConstraints + mats.numInstanceVariables) := by omega
      rw [Nat.lt_clog_iff_pow_lt (by norm_num)] at hlt
      have : 2 ^ (a + b) = 2 * 2 ^ (a + b - 1) := by rw [← pow_succ', Nat.sub_add_cancel h0]
      omega
  have hp2 : IsPrimitiveRoot dom2.groupGen (2 * 2 ^ (a + b)) := by
    have h2 := Domain.new_pow2 hc.double
    have := h2.1.prim
    rwa [h2.2.2.2, pow_succ'] at this
  have hw : dom2.groupGen ^ 2 = dom.groupGen := by
    have hd := Domain.new_size hc.domain
    rw [hc.size] at hd
    exact Domain.new_double hd hc.double
  have hle := l_eq hpp
  have hg := PSS.good_of_new hpp
  refine ⟨⟨2 ^ (a + b), dom.groupGen, dom2.groupGen, hm1, hm2, hc.prim, hp2, hw, fun t g1 g2 hγ hδ => ?_⟩,
    ⟨2 ^ (a + b), dom.groupGen, dom2.groupGen, hm1, hm2, hc.prim, hp2, hw, fun t g1 g2 hγ hδ => ?_⟩⟩
  · obtain ⟨pa, pb, pc, pk, hq, hk⟩ := C35_key_exists (G1 := G1) (G2 := G2) hc t g1 g2
    refine ⟨pa, pb, pc, pk, hq, hk, fun gen1 gen2 r s tape rng _ => ?_⟩
    have hn : pp.n = 4 * 2 ^ b := by rw [← hle]; exact hg.n_eq
    rw [← hn]
    have := C35_example_release (GT := GT) hpp a ha hc hsat hq hk hγ hδ gen1 gen2 r s tape rng
    rw [← hn] at this
    exact this
  · obtain ⟨pa, pb, pc, pk, hq, hk⟩ := C35_key_exists (G1 := G1) (G2 := G2) hc t g1 g2
    refine ⟨pa, pb, pc, pk, hq, hk, fun gen1 gen2 r s tape rng hgood => ?_⟩
    refine C35_proof_verifies (GT := GT) hpp false a ha hc hsat hq hk hγ hδ (by simp) gen1 gen2 r s tape (fun rs hrs => Or.inl ?_) rng
    intro x hx h0
    obtain ⟨p, hp, rfl⟩ := List.getElem_of_mem hx
    obtain ⟨sh, e, hl, -⟩ := pack_holdsValue hpp false r tape.r
    rw [hrs] at e
    cases e
    refine hgood p (by omega) ?_
    rw [pack_tape pp (by rw [← hle]; exact hg.t_eq) false _ _ _ hrs p hp]
    simp [List.getD, hp, h0]

end session

/-! ### C80: BN254 and BLS12-377 -/

/-- Powers of two are never exponents of the whole multiplicative group: it has elements of order three. -/
theorem pow_two_pow_ne_one {p : Nat} {g : ZMod p} (h : IsPrimitiveRoot g (p - 1)) (h3 : 3 ∣ p - 1) (k : Nat) : g ^ 2 ^ k ≠ 1 := by
  intro h1
  have h2 : 3 ∣ 2 ^ k := h3.trans (h.dvd_of_pow_eq_one _ h1)
  have := Nat.prime_three.dvd_of_dvd_pow h2
  omega

/-- **C80** BN254: the modulus is a prime; packing factors up to `2^26` are accepted and no others; domains exist up to `2^28` points; the
offset is outside every subgroup of two-power order, as privacy and the divisions by the vanishing polynomial need. -/
theorem C80_bn254_parameters :
    Nat.Prime bn254 ∧ (∀ (dbg : Bool) (b : Nat), (∃ pp : PSS Bn254Fr, PSS.new dbg (2 ^ b) = .ok pp) ↔ b ≤ 26) ∧
    (∀ k : Nat, (∃ dom : Domain Bn254Fr, Domain.new (2 ^ k) = some dom) ↔ k ≤ 28) ∧
    ∀ k : Nat, (FftField.GENERATOR : Bn254Fr) ^ 2 ^ k ≠ 1 := by
  refine ⟨bn254_spec.1, fun dbg b => ⟨fun ⟨pp, h⟩ => ?_, fun h => ?_⟩, fun k => ⟨fun ⟨dom, h⟩ => ?_, fun h => ?_⟩,
    fun k => pow_two_pow_ne_one bn254_spec.2 (by decide +kernel) k⟩
  · by_contra hb
    rw [C08_new_too_large dbg (2 ^ b) (by
      show 2 ^ 28 < 4 * 2 ^ b
      have := Nat.pow_le_pow_right (n := 2) (by norm_num) (show 27 ≤ b by omega)
      omega)] at h
    cases h
  · obtain ⟨pp, h, -⟩ := C08_new_ok (F := Bn254Fr) dbg b (show b + 2 ≤ 28 by omega)
    exact ⟨pp, h⟩
  · by_contra hk
    rw [Domain.new_none (show 28 < Nat.clog 2 (2 ^ k) by rw [clog_two_pow]; omega)] at h
    cases h
  · exact ⟨_, Domain.new_eq (clog_two_pow k) h⟩

/-- **C80** BLS12-377: the modulus is a prime; packing factors up to `2^45` are accepted and no others; domains exist up to `2^47` points; the
offset is outside every subgroup of two-power order, as privacy and the divisions by the vanishing polynomial need. -/
theorem C80_bls377_parameters :
    Nat.Prime bls377 ∧ (∀ (dbg : Bool) (b : Nat), (∃ pp : PSS Bls377Fr, PSS.new dbg (2 ^ b) = .ok pp) ↔ b ≤ 45) ∧
    (∀ k : Nat, (∃ dom : Domain Bls377Fr, Domain.new (2 ^ k) = some dom) ↔ k ≤ 47) ∧
    ∀ k : Nat, (FftField.GENERATOR : Bls377Fr) ^ 2 ^ k ≠ 1 := by
  refine ⟨bls377_spec.1, fun dbg b => ⟨fun ⟨pp, h⟩ => ?_, fun h => ?_⟩, fun k => ⟨fun ⟨dom, h⟩ => ?_, fun h => ?_⟩,
    fun k => pow_two_pow_ne_one bls377_spec.2 (by decide +kernel) k⟩
  · by_contra hb
    rw [C08_new_too_large dbg (2 ^ b) (by
      show 2 ^ 47 < 4 * 2 ^ b
      have := Nat.pow_le_pow_right (n := 2) (by norm_num) (show 46 ≤ b by omega)
      omega)] at h
    cases h
  · obtain ⟨pp, h, -⟩ := C08_new_ok (F := Bls377Fr) dbg b (show b + 2 ≤ 47 by omega)
    exact ⟨pp, h⟩
  · by_contra hk
    rw [Domain.new_none (show 47 < Nat.clog 2 (2 ^ k) by rw [clog_two_pow]; omega)] at h
    cases h
  · exact ⟨_, Domain.new_eq (clog_two_pow k) h⟩

/-- **C80** BN254: for every packing factor `l = 2^b`, `b ≤ 26`, every constraint system of at most `2^27` rows (constraints and public
inputs) and not so small that one share holds all of it, every satisfying assignment, set-up and groups over the field: the release build of the
example as written ends with a proof that verifies. With `l` copies of `r` the same, unless a share of `r` is zero, which
happens for at most `4l` in `|F|` of the dealer's choices. -/
theorem C80_bn254_proofs {G1 G2 GT : Type} [AddCommGroup G1] [Module Bn254Fr G1] [DecidableEq G1] [FixedWire G1] [AddCommGroup G2]
    [Module Bn254Fr G2] [DecidableEq G2] [FixedWire G2] [AddCommGroup GT] [Module Bn254Fr GT] (dbg : Bool) (b : Nat) (hb : b ≤ 26)
    (mats : ConstraintMatrices Bn254Fr) (z : List Bn254Fr) (h : IsR1cs mats z)
    (hsat : Satisfies mats.numConstraints mats.a mats.b mats.c z)
    (hsize : mats.numConstraints + mats.numInstanceVariables ≤ 2 ^ 27)
    (hbig : 2 ^ b < 2 * (mats.numConstraints + mats.numInstanceVariables)) :
    ∃ pp : PSS Bn254Fr, PSS.new dbg (2 ^ b) = .ok pp ∧
      ProvesAll G1 G2 GT pp (4 * 2 ^ b) (4 * 2 ^ b) mats z (fun _ _ => True) ∧
      ProvesAll G1 G2 GT pp (4 * 2 ^ b) (2 ^ b) mats z (fun r rng => ∀ p < 4 * 2 ^ b,
        shareOf pp false (List.replicate (2 ^ b) r) (fun i : Fin (2 ^ b) => rng i) p ≠ some 0) ∧
      ∀ r : Bn254Fr, bn254 * Nat.card {τ : Fin (2 ^ b) → Bn254Fr // ¬ ∀ p < 4 * 2 ^ b,
        shareOf pp false (List.replicate (2 ^ b) r) τ p ≠ some 0} ≤ 4 * 2 ^ b * bn254 ^ 2 ^ b := by
  obtain ⟨pp, hpp⟩ := (C80_bn254_parameters.2.1 dbg b).2 hb
  have hp := proves_all (G1 := G1) (G2 := G2) (GT := GT) hpp h hsat hsize (by decide) (by decide) hbig
  refine ⟨pp, hpp, hp.1, hp.2, fun r => ?_⟩
  have hgen : (FftField.GENERATOR : Bn254Fr) ^ (4 * 2 ^ b) ≠ 1 := by
    rw [show 4 * 2 ^ b = 2 ^ (b + 2) by rw [pow_add]; ring]
    exact C80_bn254_parameters.2.2.2 _
  have := C36_zero_share_rare hpp hgen false (List.replicate (2 ^ b) r) (by simp)
  rw [Nat.card_zmod, Nat.card_fun, Nat.card_zmod, Nat.card_fin] at this
  simpa only [not_forall, not_not, exists_prop, ne_eq] using this

/-- **C80** BLS12-377: for every packing factor `l = 2^b`, `b ≤ 45`, every constraint system of at most `2^46` rows (constraints and public
inputs) and not so small that one share holds all of it, every satisfying assignment, set-up and groups over the field: the release build of the
example as written ends with a proof that verifies. With `l` copies of `r` the same, unless a share of `r` is zero, which
happens for at most `4l` in `|F|` of the dealer's choices. -/
theorem C80_bls377_proofs {G1 G2 GT : Type} [AddCommGroup G1] [Module Bls377Fr G1] [DecidableEq G1] [FixedWire G1] [AddCommGroup G2]
    [Module Bls377Fr G2] [DecidableEq G2] [FixedWire G2] [AddCommGroup GT] [Module Bls377Fr GT] (dbg : Bool) (b : Nat) (hb : b ≤ 45)
    (mats : ConstraintMatrices Bls377Fr) (z : List Bls377Fr) (h : IsR1cs mats z)
    (hsat : Satisfies mats.numConstraints mats.a mats.b mats.c z)
    (hsize : mats.numConstraints + mats.numInstanceVariables ≤ 2 ^ 46)
    (hbig : 2 ^ b < 2 * (mats.numConstraints + mats.numInstanceVariables)) :
    ∃ pp : PSS Bls377Fr, PSS.new dbg (2 ^ b) = .ok pp ∧
      ProvesAll G1 G2 GT pp (4 * 2 ^ b) (4 * 2 ^ b) mats z (fun _ _ => True) ∧
      ProvesAll G1 G2 GT pp (4 * 2 ^ b) (2 ^ b) mats z (fun r rng => ∀ p < 4 * 2 ^ b,
        shareOf pp false (List.replicate (2 ^ b) r) (fun i : Fin (2 ^ b) => rng i) p ≠ some 0) ∧
      ∀ r : Bls377Fr, bls377 * Nat.card {τ : Fin (2 ^ b) → Bls377Fr // ¬ ∀ p < 4 * 2 ^ b,
        shareOf pp false (List.replicate (2 ^ b) r) τ p ≠ some 0} ≤ 4 * 2 ^ b * bls377 ^ 2 ^ b := by
  obtain ⟨pp, hpp⟩ := (C80_bls377_parameters.2.1 dbg b).2 hb
  have hp := proves_all (G1 := G1) (G2 := G2) (GT := GT) hpp h hsat hsize (by decide) (by decide) hbig
  refine ⟨pp, hpp, hp.1, hp.2, fun r => ?_⟩
  have hgen : (FftField.GENERATOR : Bls377Fr) ^ (4 * 2 ^ b) ≠ 1 := by
    rw [show 4 * 2 ^ b = 2 ^ (b + 2) by rw [pow_add]; ring]
    exact C80_bls377_parameters.2.2.2 _
  have := C36_zero_share_rare hpp hgen false (List.replicate (2 ^ b) r) (by simp)
  rw [Nat.card_zmod, Nat.card_fun, Nat.card_zmod, Nat.card_fin] at this
  simpa only [not_forall, not_not, exists_prop, ne_eq] using this

/-- **C80** BN254: the frames of the local network carry a session of the example exactly when the domain has at most `2^17·l` points; beyond
that no client ever finishes. -/
theorem C80_bn254_frames {G1 G2 GT : Type} [AddCommGroup G1] [Module Bn254Fr G1] [DecidableEq G1] [FixedWire G1] [AddCommGroup G2]
    [Module Bn254Fr G2] [DecidableEq G2] [FixedWire G2] [AddCommGroup GT] [Module Bn254Fr GT]
    (hw1 : FixedWire.width G1 ≤ 1024) (hw2 : FixedWire.width G2 ≤ 1024) {dbg₀ : Bool} {b : Nat} {pp : PSS Bn254Fr}
    (hpp : PSS.new dbg₀ (2 ^ b) = .ok pp) (a : Nat) {mats : ConstraintMatrices Bn254Fr} {z : List Bn254Fr}
    {dom dom2 : Domain Bn254Fr} (hcirc : Circuit a b mats z dom dom2)
    (hsat : Satisfies mats.numConstraints mats.a mats.b mats.c z) {pa pb pc : Nat → Bn254Fr[X]}
    (hqap : IsQap mats z.length dom.groupGen (2 ^ (a + b)) pa pb pc) {t : Toxic Bn254Fr} {g1 : G1} {g2 : G2} {pk : ProvingKey G1 G2}
    (hk : IsCircomKey t g1 g2 z.length mats.numInstanceVariables (2 ^ (a + b)) dom2.groupGen pa pb pc pk) (hγ : t.gamma ≠ 0)
    (hδ : t.delta ≠ 0) (gen1 : G1) (gen2 : G2) (r s : Bn254Fr) (tape : ClientTape Bn254Fr G1 G2) (rng : Nat → Nat → Nat → Bn254Fr) :
    ∃ ins : Nat → ServerInput Bn254Fr G1 G2,
      pp.deal false pp.n mats z pk gen1 gen2 r s tape = .ok ((List.range (4 * 2 ^ b)).map ins) ∧
      let c := Net.init fun i : Fin (4 * 2 ^ b) => (ins i).run pp false (4 * 2 ^ b) i rng
      (a ≤ 17 → ∃ (outs : Nat → G1 × G2 × G1) (pA : G1) (pB : G2) (pC : G1),
          AlwaysYieldsWithin (8 * 1024 * 1024) c (fun i => outs i) ∧
          pp.openProof false ((List.range (4 * 2 ^ b)).map outs) = .ok (pA, pB, pC) ∧
          ∀ e : G1 →ₗ[Bn254Fr] G2 →ₗ[Bn254Fr] GT, Verifies e pk.vk ((z.take mats.numInstanceVariables).drop 1) pA pB pC) ∧
      (17 < a → ∀ i : Fin (4 * 2 ^ b), i.val ≠ 0 → NeverFinishes (8 * 1024 * 1024) c i) := by
  have ha : a + b + 1 ≤ 28 := by
    by_contra hk
    have := hcirc.double
    rw [Domain.new_none (show 28 < Nat.clog 2 (2 ^ (a + b + 1)) by rw [clog_two_pow]; omega)] at this
    cases this
  obtain ⟨ins, h1, h2, h3⟩ := C53_example (GT := GT) hpp a (by omega) hcirc hsat hqap hk hγ hδ gen1 gen2 r s tape rng (8 * 1024 * 1024)
  have hw : FixedWire.width Bn254Fr = 32 := rfl
  rw [hw] at h2 h3
  have hiff := (C53_elements_of_32_bytes a).1
  exact ⟨ins, h1, fun h => h2 (hiff.2 h) (by omega) (by omega), fun h => h3 (by have := mt hiff.1; omega)⟩

/-! ### Examples -/

/-- Examples for C36: in `F17` with `l = 2` and `n = 8` one choice in 17 makes the share of party 3 zero. -/
example : 17 * Nat.card {τ : Fin (2 ^ 1) → ZMod 17 // shareOf pp17 true [5, 5] τ 3 = some 0} = Nat.card (Fin (2 ^ 1) → ZMod 17) := by
  have h := C36_share_uniform (pp17_eq true) (by decide) true [5, 5] rfl 3 (by norm_num) 0
  rwa [Nat.card_zmod] at h

example : 17 * Nat.card {τ : Fin (2 ^ 1) → ZMod 17 // ∃ p < 4 * 2 ^ 1, shareOf pp17 true [5, 5] τ p = some 0} ≤
    4 * 2 ^ 1 * Nat.card (Fin (2 ^ 1) → ZMod 17) := by
  have h := C36_zero_share_rare (pp17_eq true) (by decide) true [5, 5] rfl
  rwa [Nat.card_zmod] at h

/-- The circuit `x·x = y` over a field; the assignment is `1, y, x`. -/
def squareMats (F : Type) [Field F] : ConstraintMatrices F :=
  { numInstanceVariables := 2, numConstraints := 1, a := [[(1, 2)]], b := [[(1, 2)]], c := [[(1, 1)]] }

theorem square_r1cs {F : Type} [Field F] (x : F) : IsR1cs (squareMats F) [1, x * x, x] ∧
    Satisfies (squareMats F).numConstraints (squareMats F).a (squareMats F).b (squareMats F).c [1, x * x, x] := by
  refine ⟨⟨rfl, rfl, ?_, ?_, ?_, by simp [squareMats], by simp [squareMats], rfl⟩, ?_⟩
  · intro row hr t ht; simp [squareMats] at hr; subst hr; simp at ht; subst ht; simp
  · intro row hr t ht; simp [squareMats] at hr; subst hr; simp at ht; subst ht; simp
  · intro row hr t ht; simp [squareMats] at hr; subst hr; simp at ht; subst ht; simp
  · intro i hi
    obtain rfl : i = 0 := by simpa [squareMats] using hi
    simp [squareMats, dot]

/-- Example for C80: eight servers prove the knowledge of a root over BN254, for every root; both groups are the field itself. -/
example (x : Bn254Fr) : ∃ pp : PSS Bn254Fr, PSS.new true (2 ^ 1) = .ok pp ∧
    ProvesAll Bn254Fr Bn254Fr Bn254Fr pp (4 * 2 ^ 1) (4 * 2 ^ 1) (squareMats Bn254Fr) [1, x * x, x] (fun _ _ => True) := by
  obtain ⟨pp, h1, h2, -⟩ := C80_bn254_proofs (G1 := Bn254Fr) (G2 := Bn254Fr) (GT := Bn254Fr) true 1 (by norm_num) (squareMats Bn254Fr)
    [1, x * x, x] (square_r1cs x).1 (square_r1cs x).2 (by show 1 + 2 ≤ 2 ^ 27; norm_num) (by show 2 ^ 1 < 2 * (1 + 2); norm_num)
  exact ⟨pp, h1, h2⟩

example (x : Bls377Fr) : ∃ pp : PSS Bls377Fr, PSS.new true (2 ^ 1) = .ok pp ∧
    ProvesAll Bls377Fr Bls377Fr Bls377Fr pp (4 * 2 ^ 1) (4 * 2 ^ 1) (squareMats Bls377Fr) [1, x * x, x] (fun _ _ => True) := by
  obtain ⟨pp, h1, h2, -⟩ := C80_bls377_proofs (G1 := Bls377Fr) (G2 := Bls377Fr) (GT := Bls377Fr) true 1 (by norm_num) (squareMats Bls377Fr)
    [1, x * x, x] (square_r1cs x).1 (square_r1cs x).2 (by show 1 + 2 ≤ 2 ^ 46; norm_num) (by show 2 ^ 1 < 2 * (1 + 2); norm_num)
  exact ⟨pp, h1, h2⟩

/-- Example for C80: the frames carry this session. -/
example (x : Bn254Fr) (tape : ClientTape Bn254Fr Bn254Fr Bn254Fr) :
    ∃ (pp : PSS Bn254Fr) (pk : ProvingKey Bn254Fr Bn254Fr) (ins : Nat → ServerInput Bn254Fr Bn254Fr Bn254Fr)
      (outs : Nat → Bn254Fr × Bn254Fr × Bn254Fr),
      pp.deal false pp.n (squareMats Bn254Fr) [1, x * x, x] pk 1 1 5 6 tape = .ok ((List.range (4 * 2 ^ 1)).map ins) ∧
      AlwaysYieldsWithin (8 * 1024 * 1024)
        (Net.init fun i : Fin (4 * 2 ^ 1) => (ins i).run pp false (4 * 2 ^ 1) i fun _ i j => i + j) (fun i => outs i) := by
  obtain ⟨pp, hpp⟩ := (C80_bn254_parameters.2.1 true 1).2 (by norm_num)
  obtain ⟨a, dom, dom2, hc, -, hab⟩ := circuit_of_size (b := 1) (square_r1cs x).1 (by show 1 + 2 ≤ 2 ^ 27; norm_num) (by decide) (by decide)
    (by show 2 ^ 1 < 2 * (1 + 2); norm_num)
  have ha : a + 1 = 2 := by rw [hab]; show Nat.clog 2 3 = 2; decide +kernel
  obtain ⟨pa, pb, pc, pk, h1, h2⟩ := C35_key_exists hc (⟨2, 3, 1, 1, 6⟩ : Toxic Bn254Fr) (1 : Bn254Fr) (1 : Bn254Fr)
  obtain ⟨ins, h3, h4, -⟩ := C80_bn254_frames (GT := Bn254Fr) (by decide) (by decide) hpp a hc (square_r1cs x).2 h1 h2 one_ne_zero one_ne_zero
    1 1 5 6 tape fun _ i j => i + j
  obtain ⟨outs, -, -, -, h5, -⟩ := h4 (by omega)
  exact ⟨pp, pk, ins, outs, h3, h5⟩

end ZkSaas.Properties
