import Verif.Model.Curves
import Verif.Properties.Fields
import Verif.Properties.Volume
import Mathlib.LinearAlgebra.Dual.Lemmas

/-!
# C91: the groups of BN254
-/

namespace ZkSaas.Properties

open Finset Spec Polynomial WeierstrassCurve

/-! ### The groups -/

section group
variable {K : Type} [Field K] [DecidableEq K] {b : K} {r : Nat}

/-- **C91** The scalars of the model act as multiples: `s` times a point is the point added to itself `s` times. -/
theorem C91_scalar (s : ZMod r) [NeZero r] (P : CurveGroup b r) : s • P = s.val • P := by
  conv_lhs => rw [← ZMod.natCast_zmod_val s]
  exact Nat.cast_smul_eq_nsmul (ZMod r) s.val P

/-- **C91** Every point of the group except the one at infinity has order `r`, if `r` is a prime. -/
theorem C91_order (hr : r.Prime) (P : CurveGroup b r) (hP : P ≠ 0) : addOrderOf P = r :=
  (Nat.dvd_prime hr).1 (addOrderOf_dvd_of_nsmul_eq_zero (AddSubgroup.torsionBy.nsmul P)) |>.resolve_left
    fun h => hP (AddMonoid.addOrderOf_eq_one_iff.1 h)

/-- At most two points for every `x`, and the one at infinity. -/
theorem points_le (b : K) (c : PointCodec K) [Finite K] :
    Finite (shortCurve b).Point ∧ Nat.card (shortCurve b).Point ≤ Nat.card K * 2 + 1 := by
  let f : (shortCurve b).Point → Option (K × Bool) := fun
    | .zero => none
    | .some x y _ => some (x, c.big y)
  have hf : Function.Injective f := by
    rintro (_ | ⟨x, y, hy⟩) (_ | ⟨x', z, hz⟩) h
    · rfl
    · cases h
    · cases h
    · simp only [f, Option.some.injEq, Prod.mk.injEq] at h
      obtain ⟨rfl, h⟩ := h
      have : y = z := by
        rcases Affine.Y_eq_of_X_eq hy.1 hz.1 rfl with h' | h'
        · exact h'
        · have hn : y = -z := by simpa [Affine.negY] using h'
          by_contra hne
          have hb := c.big_neg z (by rw [← hn]; exact fun h => hne h.symm)
          rw [← hn, h] at hb
          cases h : c.big z <;> rw [h] at hb <;> cases hb
      subst this
      rfl
  have hfin : Finite (shortCurve b).Point := Finite.of_injective f hf
  refine ⟨hfin, ?_⟩
  have := Nat.card_le_card_of_injective f hf
  rwa [Finite.card_option, Nat.card_prod, Nat.card_eq_fintype_card (α := Bool), Fintype.card_bool] at this

end group

/-- **C91** `G1` is not trivial: the generator `(1, 2)` of arkworks is on the curve and of order `r`, the modulus of `Fr`. -/
theorem C91_g1 : ∃ (h : (shortCurve (3 : Bn254Fq)).Nonsingular 1 2) (g : Bn254G1), g.1 = .some 1 2 h ∧ addOrderOf g = bn254 := by
  have h1 : fqImpl.val 1 = 1 := Nat.cast_one
  have h2 : fqImpl.val 2 = 2 := Nat.cast_ofNat
  have h3 : fqImpl.val 3 = 3 := Nat.cast_ofNat
  obtain ⟨hn, hc⟩ := FieldImpl.nonsingular (I := fqImpl) (x := 1) (y := 2) (c := 3) (show 1 < bn254q by decide +kernel)
    (show 2 < bn254q by decide +kernel) (by decide +kernel) (by decide +kernel)
  have h0 := hc.nsmul_eq_zero (f := 254) (n := bn254) (by decide +kernel) (by decide +kernel)
  revert hn hc h0
  rw [h1, h2, h3]
  intro hn hc h0
  refine ⟨hn, ⟨_, AddSubgroup.torsionBy.nsmul_iff.2 h0⟩, rfl, C91_order bn254_spec.1 _ ?_⟩
  intro h
  exact Affine.Point.some_ne_zero hn (congrArg Subtype.val h)

/-- **C91** The generator of `G2` of ark-bn254 0.4. -/
theorem C91_g2 : ∃ (x y : Bn254Fq2) (h : (shortCurve bn254TwistB).Nonsingular x y) (g : Bn254G2),
    x = ⟨(10857046999023057135944570762232829481370756359578518086990519993285655852781 : Nat),
      (11559732032986387107991004021392285783925812861821192530917403151452391805634 : Nat)⟩ ∧
    y = ⟨(8495653923123431417604973247489272438418190587263600148770280649306958101930 : Nat),
      (4082367875863433681332203403145435568316851327593401208105741076214120093531 : Nat)⟩ ∧
    bn254TwistB * ⟨9, 1⟩ = 3 ∧ g.1 = .some x y h ∧ addOrderOf g = bn254 := by
  obtain ⟨hn, hc⟩ := FieldImpl.nonsingular (I := fq2Impl)
    (x := (10857046999023057135944570762232829481370756359578518086990519993285655852781,
      11559732032986387107991004021392285783925812861821192530917403151452391805634))
    (y := (8495653923123431417604973247489272438418190587263600148770280649306958101930,
      4082367875863433681332203403145435568316851327593401208105741076214120093531))
    (c := (19485874751759354771024239261021720505790618469301721065564631296452457478373,
      266929791119991161246907387137283842545076965332900288569378510910307636690))
    (show _ < bn254q ∧ _ < bn254q by decide +kernel) (show _ < bn254q ∧ _ < bn254q by decide +kernel) (by decide +kernel) (by decide +kernel)
  have h0 := hc.nsmul_eq_zero (f := 254) (n := bn254) (by decide +kernel) (by decide +kernel)
  refine ⟨_, _, hn, ⟨_, AddSubgroup.torsionBy.nsmul_iff.2 h0⟩, rfl, rfl, ?_, rfl, C91_order bn254_spec.1 _ ?_⟩
  · have h : fq2Impl.mul (19485874751759354771024239261021720505790618469301721065564631296452457478373,
        266929791119991161246907387137283842545076965332900288569378510910307636690) (9, 1) = (3, 0) := by decide +kernel
    have := congrArg fq2Impl.val h
    rw [fq2Impl.val_mul] at this
    have e9 : fq2Impl.val (9, 1) = ⟨9, 1⟩ := QuadraticAlgebra.ext Nat.cast_ofNat Nat.cast_one
    have e3 : fq2Impl.val (3, 0) = 3 := QuadraticAlgebra.ext Nat.cast_ofNat Nat.cast_zero
    rwa [e9, e3] at this
  · intro h
    exact Affine.Point.some_ne_zero hn (congrArg Subtype.val h)

/-- **C91** `y² = x³ + 3` has exactly as many points over `Fq` as `Fr` has elements, and every one of them is in `G1`: nothing is lost by not
testing the order of a point that was read. -/
theorem C91_g1_all : Nat.card (shortCurve (3 : Bn254Fq)).Point = bn254 ∧
    ∀ P : (shortCurve (3 : Bn254Fq)).Point, ∃ g : Bn254G1, g.1 = P := by
  have hcard : Nat.card (shortCurve (3 : Bn254Fq)).Point = bn254 := by
    obtain ⟨_, hle⟩ := points_le (3 : Bn254Fq) fqCodec
    rw [Nat.card_zmod] at hle
    -- a multiple of the order of the generator
    obtain ⟨_, g, -, hg⟩ := C91_g1
    have hdvd : bn254 ∣ Nat.card (shortCurve (3 : Bn254Fq)).Point := by
      rw [← hg, ← AddSubgroup.addOrderOf_coe]
      exact addOrderOf_dvd_natCard _
    -- and odd
    have hodd : ¬ 2 ∣ Nat.card (shortCurve (3 : Bn254Fq)).Point := by
      intro h2
      obtain ⟨P, hP⟩ := exists_prime_addOrderOf_dvd_card' 2 h2
      have hP0 : P ≠ 0 := by rintro rfl; rw [addOrderOf_zero] at hP; cases hP
      have hneg : P = -P := by
        have : 2 • P = 0 := addOrderOf_dvd_iff_nsmul_eq_zero.1 hP.dvd
        rw [two_nsmul] at this
        exact eq_neg_of_add_eq_zero_left this
      obtain _ | ⟨x, y, hy⟩ := P
      · exact hP0 rfl
      · have he : y = -y := by
          rw [Affine.Point.neg_some] at hneg
          have := (Affine.Point.some.injEq ..).mp hneg
          simpa [Affine.negY] using this.2
        have hy0 : y = 0 := by
          have : (2 : Bn254Fq) * y = 0 := by linear_combination he
          rcases mul_eq_zero.1 this with h | h
          · exact absurd h (by decide +kernel)
          · exact h
        have hx : x ^ 3 = -3 := by
          have := (Affine.equation_iff ..).1 hy.1
          rw [hy0] at this
          linear_combination -this
        have hx0 : x ≠ 0 := by
          rintro rfl
          exact absurd hx (by decide +kernel)
        have h1 := ZMod.pow_card_sub_one_eq_one hx0
        have h3 : bn254q - 1 = 3 * ((bn254q - 1) / 3) := by decide +kernel
        rw [h3, pow_mul, hx] at h1
        have h4 := congrArg ZMod.val h1
        have e : (-3 : Bn254Fq) = ((bn254q - 3 : Nat) : Bn254Fq) := by
          rw [Nat.cast_sub (by decide +kernel)]; simp
        rw [e, ← Nat.cast_pow, ZMod.val_natCast, ← powMod_eq bn254q 256 _ _ (by decide +kernel)] at h4
        revert h4
        decide +kernel
    obtain ⟨k, hk⟩ := hdvd
    have hpos : 0 < Nat.card (shortCurve (3 : Bn254Fq)).Point := Nat.card_pos
    rw [hk] at hle hpos hodd ⊢
    have hk3 : k < 3 := by
      by_contra h
      have : bn254 * 3 ≤ bn254 * k := Nat.mul_le_mul_left _ (by omega)
      have : bn254q * 2 + 1 < bn254 * 3 := by decide +kernel
      omega
    have : k ≠ 0 := by rintro rfl; simp at hpos
    have : k ≠ 2 := by rintro rfl; exact hodd ⟨bn254, Nat.mul_comm ..⟩
    obtain rfl : k = 1 := by omega
    exact Nat.mul_one _
  refine ⟨hcard, fun P => ⟨⟨P, AddSubgroup.torsionBy.nsmul_iff.2 ?_⟩, rfl⟩⟩
  rw [← hcard]
  exact card_nsmul_eq_zero'

/-- **C91** `G2` has as many elements as `Fr`: there are no points of order `r` over `Fq2` but the multiples of the generator. -/
theorem C91_g2_card : Nat.card Bn254G2 = bn254 := by
  have : Finite Bn254Fq2 := Finite.of_injective (fun x : Bn254Fq2 => (x.re, x.im)) fun x y h => by
    simp only [Prod.mk.injEq] at h
    exact QuadraticAlgebra.ext h.1 h.2
  obtain ⟨_, hle⟩ := points_le bn254TwistB fq2Codec
  have hK : Nat.card Bn254Fq2 = bn254q ^ 2 := by
    rw [Nat.card_congr (QuadraticAlgebra.equivProd (-1 : Bn254Fq) 0), Nat.card_prod, Nat.card_zmod, pow_two]
  rw [hK] at hle
  -- a power of `r` …
  have hpow : Nat.card Bn254G2 = bn254 ^ Module.finrank Bn254Fr Bn254G2 := by
    rw [Module.natCard_eq_pow_finrank (K := Bn254Fr), Nat.card_zmod]
  obtain ⟨_, _, _, g, -, -, -, -, hg⟩ := C91_g2
  have h0 : Module.finrank Bn254Fr Bn254G2 ≠ 0 := by
    intro h
    rw [h, pow_zero] at hpow
    have h1 := addOrderOf_dvd_natCard g
    rw [hpow, hg] at h1
    exact absurd h1 (by decide +kernel)
  -- … less than the square, as there is also a point of order 10069
  obtain ⟨hn, hc⟩ := FieldImpl.nonsingular (I := fq2Impl)
    (x := (17104313122165765134751071573954397998910742057160586741504431865092530247148,
      6803298140907275052193374279696798829244532018046680484422159498316181153049))
    (y := (20929228109215085641673534002875667749781168108789068628040984026599887111329,
      717535573572059415844575060885625982841398457036564749994433381333260146759))
    (c := (19485874751759354771024239261021720505790618469301721065564631296452457478373,
      266929791119991161246907387137283842545076965332900288569378510910307636690))
    (show _ < bn254q ∧ _ < bn254q by decide +kernel) (show _ < bn254q ∧ _ < bn254q by decide +kernel) (by decide +kernel) (by decide +kernel)
  have h10069 : 10069 • _ = _ := hc.nsmul_eq_zero (f := 14) (n := 10069) (by decide +kernel) (by decide +kernel)
  have hord := addOrderOf_eq_prime h10069 (Affine.Point.some_ne_zero hn) (hp := ⟨by norm_num⟩)
  have hd1 : 10069 ∣ Nat.card (shortCurve bn254TwistB).Point := by
    rw [← hord]; exact addOrderOf_dvd_natCard _
  have hd2 : bn254 ^ Module.finrank Bn254Fr Bn254G2 ∣ Nat.card (shortCurve bn254TwistB).Point := by
    rw [← hpow]; exact AddSubgroup.card_addSubgroup_dvd_card _
  have hco : Nat.Coprime 10069 (bn254 ^ Module.finrank Bn254Fr Bn254G2) := Nat.Coprime.pow_right _ (by decide +kernel)
  have hd := Nat.le_of_dvd Nat.card_pos (hco.mul_dvd_of_dvd_of_dvd hd1 hd2)
  have h2 : Module.finrank Bn254Fr Bn254G2 < 2 := by
    by_contra h
    have h3 : bn254 ^ 2 ≤ bn254 ^ Module.finrank Bn254Fr Bn254G2 := Nat.pow_le_pow_right (by decide +kernel) (by omega)
    have h4 : bn254q ^ 2 * 2 + 1 < 10069 * bn254 ^ 2 := by decide +kernel
    have h5 := Nat.mul_le_mul_left 10069 h3
    omega
  rw [hpow, show Module.finrank Bn254Fr Bn254G2 = 1 by omega, pow_one]

/-- **C91** The quantifier over bilinear maps in `Verifies` is not empty of pairings: there is one that sends no two points to zero unless one of them
is at infinity. -/
theorem C91_pairing_exists : ∃ e : Bn254G1 →ₗ[Bn254Fr] Bn254G2 →ₗ[Bn254Fr] Bn254Fr, ∀ P Q, e P Q = 0 → P = 0 ∨ Q = 0 := by
  have hone : ∀ {V : Type} [AddCommGroup V] [Module Bn254Fr V], Nat.card V = bn254 → Nonempty (V ≃ₗ[Bn254Fr] Bn254Fr) := by
    intro V _ _ h
    have : Finite V := Nat.finite_of_card_ne_zero (by rw [h]; decide +kernel)
    have hp : Nat.card V = bn254 ^ Module.finrank Bn254Fr V := by
      rw [Module.natCard_eq_pow_finrank (K := Bn254Fr), Nat.card_zmod]
    rw [h] at hp
    have h1 : Module.finrank Bn254Fr V = 1 := (Nat.pow_right_injective (show 2 ≤ bn254 by decide +kernel) ((pow_one _).trans hp)).symm
    exact ⟨LinearEquiv.ofFinrankEq _ _ (h1.trans (Module.finrank_self _).symm)⟩
  have hc1 : Nat.card Bn254G1 = bn254 := by
    rw [← C91_g1_all.1]
    exact Nat.card_eq_of_bijective (fun g : Bn254G1 => g.1) ⟨fun a b h => Subtype.ext h, C91_g1_all.2⟩
  obtain ⟨f⟩ := hone hc1
  obtain ⟨g⟩ := hone C91_g2_card
  refine ⟨(LinearMap.mul Bn254Fr Bn254Fr).compl₁₂ f.toLinearMap g.toLinearMap, fun P Q h => ?_⟩
  have h : f P * g Q = 0 := h
  rcases mul_eq_zero.1 h with h | h
  · exact .inl (f.map_eq_zero_iff.1 h)
  · exact .inr (g.map_eq_zero_iff.1 h)

/-- **C91** Points on the wire: 32 and 64 bytes, and what was written is read again, whatever follows it. -/
theorem C91_wire : (∀ P : Bn254G1, (Wire.enc P).length = 32) ∧ (∀ P : Bn254G2, (Wire.enc P).length = 64) ∧
    (∀ (P : Bn254G1) rest, Wire.read (Wire.enc P ++ rest) = some (P, rest)) ∧
    (∀ (P : Bn254G2) rest, Wire.read (Wire.enc P ++ rest) = some (P, rest)) ∧
    (∀ P Q : Bn254G1, Wire.enc P = Wire.enc Q → P = Q) ∧ (∀ P Q : Bn254G2, Wire.enc P = Wire.enc Q → P = Q) := by
  have inj : ∀ {T : Type} [FixedWire T] (P Q : T), Wire.enc P = Wire.enc Q → P = Q := by
    intro T _ P Q h
    have h1 := FixedWire.read_enc P []
    rw [h, FixedWire.read_enc] at h1
    exact (congrArg Prod.fst (Option.some.inj h1)).symm
  exact ⟨fun P => FixedWire.enc_length P, fun P => FixedWire.enc_length P, fun P => FixedWire.read_enc P, fun P => FixedWire.read_enc P,
    inj, inj⟩

/-- **C91** The packed multi-scalar multiplication over `G1`: for every packing factor `l = 2^b`, `b ≤ 26`, and any bases and scalars, all servers
end with a share of the sum of the bases, each added to itself as often as its scalar says. -/
theorem C91_d_msm (dbg : Bool) (b : Nat) (hb : b ≤ 26) {N : Nat} (hN : 0 < N) (bases : List Bn254G1) (scalars : List Bn254Fr)
    (hbl : bases.length = N * 2 ^ b) (hsl : scalars.length = N * 2 ^ b) (sid : Sid) (rngb : Nat → Nat → Bn254G1)
    (rngs : Nat → Nat → Bn254Fr) :
    ∃ (pp : PSS Bn254Fr) (sb : List (List Bn254G1)) (ss : List (List Bn254Fr)) (outs : Nat → Bn254G1),
      PSS.new dbg (2 ^ b) = .ok pp ∧
      (do let rows ← pp.packVec dbg bases rngb; transpose rows) = .ok sb ∧
      (do let rows ← pp.packVec dbg scalars rngs; transpose rows) = .ok ss ∧
      AlwaysYields (Net.init fun i : Fin (4 * 2 ^ b) =>
        pp.dMsm dbg (4 * 2 ^ b) i (sb.getD i []) (ss.getD i []) MsmMask.zero sid) (fun i => outs i) ∧
      pp.unpack2 dbg ((List.range (4 * 2 ^ b)).map outs) =
        .ok (List.replicate (2 ^ b) (∑ i ∈ range (N * 2 ^ b), (scalars.getD i 0).val • bases.getD i 0)) := by
  obtain ⟨pp, hpp⟩ := (C80_bn254_parameters.2.1 dbg b).2 hb
  obtain ⟨sb, ss, outs, h1, h2, h3, -, -, h4⟩ := C25_d_msm hpp dbg hN bases scalars hbl hsl (fun _ => MsmMask.zero) (.inr fun _ => rfl) sid
    rngb rngs
  refine ⟨pp, sb, ss, outs, hpp, h1, h2, h3, ?_⟩
  rw [h4]
  simp only [C91_scalar]

/-- **C91** C80 with the groups of the curve. -/
theorem C91_proofs {GT : Type} [AddCommGroup GT] [Module Bn254Fr GT] (dbg : Bool) (b : Nat) (hb : b ≤ 26)
    (mats : ConstraintMatrices Bn254Fr) (z : List Bn254Fr) (h : IsR1cs mats z)
    (hsat : Satisfies mats.numConstraints mats.a mats.b mats.c z)
    (hsize : mats.numConstraints + mats.numInstanceVariables ≤ 2 ^ 27)
    (hbig : 2 ^ b < 2 * (mats.numConstraints + mats.numInstanceVariables)) :
    ∃ pp : PSS Bn254Fr, PSS.new dbg (2 ^ b) = .ok pp ∧
      ProvesAll Bn254G1 Bn254G2 GT pp (4 * 2 ^ b) (4 * 2 ^ b) mats z (fun _ _ => True) := by
  obtain ⟨pp, h1, h2, -⟩ := C80_bn254_proofs (G1 := Bn254G1) (G2 := Bn254G2) (GT := GT) dbg b hb mats z h hsat hsize hbig
  exact ⟨pp, h1, h2⟩

/-- **C91** A session of the example over BN254 on a domain of `2^(a+b)` points: every server but the king sends and receives
`7·(8 + 32·2^a) + 32·k + 64` bytes, where `k` is 4, or 3 if `r` is zero; the frames of the local network carry this exactly when `a ≤ 17`. -/
theorem C91_session {GT : Type} [AddCommGroup GT] [Module Bn254Fr GT] {dbg₀ : Bool} {b : Nat} {pp : PSS Bn254Fr}
    (hpp : PSS.new dbg₀ (2 ^ b) = .ok pp) (a : Nat) {mats : ConstraintMatrices Bn254Fr} {z : List Bn254Fr}
    {dom dom2 : Domain Bn254Fr} (hcirc : Circuit a b mats z dom dom2)
    (hsat : Satisfies mats.numConstraints mats.a mats.b mats.c z) {pa pb pc : Nat → Bn254Fr[X]}
    (hqap : IsQap mats z.length dom.groupGen (2 ^ (a + b)) pa pb pc) {t : Toxic Bn254Fr} {g1 : Bn254G1} {g2 : Bn254G2}
    {pk : ProvingKey Bn254G1 Bn254G2}
    (hk : IsCircomKey t g1 g2 z.length mats.numInstanceVariables (2 ^ (a + b)) dom2.groupGen pa pb pc pk) (hγ : t.gamma ≠ 0)
    (hδ : t.delta ≠ 0) (gen1 : Bn254G1) (gen2 : Bn254G2) (r s : Bn254Fr) (tape : ClientTape Bn254Fr Bn254G1 Bn254G2)
    (rng : Nat → Nat → Nat → Bn254Fr) :
    ∃ ins : Nat → ServerInput Bn254Fr Bn254G1 Bn254G2,
      pp.deal false pp.n mats z pk gen1 gen2 r s tape = .ok ((List.range (4 * 2 ^ b)).map ins) ∧
      let c := Net.init fun i : Fin (4 * 2 ^ b) => (ins i).run pp false (4 * 2 ^ b) i rng
      Exchanges c (7 * (8 + 32 * 2 ^ a) + (if r = 0 then 3 else 4) * 32 + 64) (7 * (8 + 32 * 2 ^ a) + (if r = 0 then 3 else 4) * 32 + 64) ∧
      (a ≤ 17 → ∃ (outs : Nat → Bn254G1 × Bn254G2 × Bn254G1) (pA : Bn254G1) (pB : Bn254G2) (pC : Bn254G1),
          AlwaysYieldsWithin (8 * 1024 * 1024) c (fun i => outs i) ∧
          pp.openProof false ((List.range (4 * 2 ^ b)).map outs) = .ok (pA, pB, pC) ∧
          ∀ e : Bn254G1 →ₗ[Bn254Fr] Bn254G2 →ₗ[Bn254Fr] GT,
            Verifies e pk.vk ((z.take mats.numInstanceVariables).drop 1) pA pB pC) ∧
      (17 < a → ∀ i : Fin (4 * 2 ^ b), i.val ≠ 0 → NeverFinishes (8 * 1024 * 1024) c i) := by
  have ha : a < 64 := by
    by_contra hk
    have := hcirc.double
    rw [Domain.new_none (show 28 < Nat.clog 2 (2 ^ (a + b + 1)) by rw [clog_two_pow]; omega)] at this
    cases this
  have hw1 : FixedWire.width Bn254G1 = 32 := rfl
  have hw2 : FixedWire.width Bn254G2 = 64 := rfl
  have hw : FixedWire.width Bn254Fr = 32 := rfl
  obtain ⟨ins, h1, h2, h3⟩ := C80_bn254_frames (GT := GT) (by rw [hw1]; norm_num) (by rw [hw2]; norm_num) hpp a hcirc hsat hqap hk hγ hδ gen1
    gen2 r s tape rng
  obtain ⟨ins', h1', h4⟩ := C84_example_release hpp a ha hcirc hqap hk hγ hδ gen1 gen2 r s tape rng
  rw [h1] at h1'
  have he : ∀ i < 4 * 2 ^ b, ins' i = ins i := fun i hi => by
    have := congrArg (fun l => l[i]?) (Except.ok.inj h1')
    simpa [hi] using this.symm
  refine ⟨ins, h1, ?_, h2, h3⟩
  rw [hw, hw1, hw2, Nat.mul_comm (2 ^ a)] at h4
  simpa only [he _ (Fin.isLt _)] using h4

/-! ### Examples -/

/-- Example for C91: the generator on the wire, and its negative. -/
example : ∃ g : Bn254G1, Wire.enc g = 1 :: List.replicate 31 0 ∧ Wire.enc (-g) = 1 :: List.replicate 30 0 ++ [128] ∧
    Wire.enc (0 : Bn254G1) = List.replicate 31 0 ++ [64] := by
  obtain ⟨h, g, hg, -⟩ := C91_g1
  refine ⟨g, ?_, ?_, ?_⟩
  · show encPoint fqCodec g = _
    unfold encPoint
    rw [hg]
    show fqCodec.encX 1 (if fqCodec.big 2 then 2 else 0) = _
    decide +kernel
  · show encPoint fqCodec (-g) = _
    unfold encPoint
    rw [AddSubgroup.coe_neg, hg, Affine.Point.neg_some]
    simp only [Affine.negY]
    decide +kernel
  · show encPoint fqCodec 0 = _
    unfold encPoint
    decide +kernel

/-- Example for C91: five times the generator, and its order. -/
example : ∃ g : Bn254G1, (5 : Bn254Fr) • g = g + g + g + g + g ∧ addOrderOf g = bn254 := by
  obtain ⟨h, g, hg, ho⟩ := C91_g1
  refine ⟨g, ?_, C91_order bn254_spec.1 g ?_⟩
  · rw [C91_scalar, show (5 : Bn254Fr).val = 5 by decide +kernel]
    abel
  · rintro rfl
    rw [addOrderOf_zero] at ho
    exact absurd ho (by decide +kernel)

/-- Example for C91: eight servers multiply two bases by the scalars 3 and 5. -/
example : ∃ (g : Bn254G1) (pp : PSS Bn254Fr) (outs : Nat → Bn254G1), g ≠ 0 ∧
    pp.unpack2 true ((List.range (4 * 2 ^ 1)).map outs) = .ok (List.replicate (2 ^ 1) (3 • g + 5 • (g + g))) := by
  obtain ⟨h, g, hg, ho⟩ := C91_g1
  obtain ⟨pp, -, -, outs, -, -, -, -, h⟩ := C91_d_msm true 1 (by norm_num) (N := 1) (by norm_num) [g, g + g] [3, 5] rfl rfl .zero
    (fun _ _ => 0) (fun i j => i + j)
  refine ⟨g, pp, outs, ?_, ?_⟩
  · rintro rfl
    rw [addOrderOf_zero] at ho
    exact absurd ho (by decide +kernel)
  · rw [h, show 1 * 2 ^ 1 = 2 from rfl, sum_range_succ, sum_range_one]
    simp only [List.getD_cons_zero, List.getD_cons_succ, show (5 : Bn254Fr).val = 5 by decide +kernel,
      show (3 : Bn254Fr).val = 3 by decide +kernel]

/-- Example for C91: eight servers prove the knowledge of a root, over the curve. -/
example (x : Bn254Fr) : ∃ pp : PSS Bn254Fr, PSS.new true (2 ^ 1) = .ok pp ∧
    ProvesAll Bn254G1 Bn254G2 Bn254Fr pp (4 * 2 ^ 1) (4 * 2 ^ 1) (squareMats Bn254Fr) [1, x * x, x] (fun _ _ => True) :=
  C91_proofs true 1 (by norm_num) (squareMats Bn254Fr) [1, x * x, x] (square_r1cs x).1 (square_r1cs x).2
    (by show 1 + 2 ≤ 2 ^ 27; norm_num) (by show 2 ^ 1 < 2 * (1 + 2); norm_num)

/-- Example for C91: and exchange `7·72 + 4·32 + 64 = 696` bytes in each direction. -/
example (x : Bn254Fr) (g1 : Bn254G1) (g2 : Bn254G2) (tape : ClientTape Bn254Fr Bn254G1 Bn254G2) :
    ∃ (pp : PSS Bn254Fr) (pk : ProvingKey Bn254G1 Bn254G2) (ins : Nat → ServerInput Bn254Fr Bn254G1 Bn254G2),
      pp.deal false pp.n (squareMats Bn254Fr) [1, x * x, x] pk g1 g2 5 6 tape = .ok ((List.range (4 * 2 ^ 1)).map ins) ∧
      Exchanges (Net.init fun i : Fin (4 * 2 ^ 1) => (ins i).run pp false (4 * 2 ^ 1) i fun _ i j => i + j) 696 696 := by
  obtain ⟨pp, hpp⟩ := (C80_bn254_parameters.2.1 true 1).2 (by norm_num)
  obtain ⟨a, dom, dom2, hc, -, hab⟩ := circuit_of_size (b := 1) (square_r1cs x).1 (by show 1 + 2 ≤ 2 ^ 27; norm_num) (by decide) (by decide)
    (by show 2 ^ 1 < 2 * (1 + 2); norm_num)
  obtain rfl : a = 1 := by
    have : a + 1 = 2 := by rw [hab]; show Nat.clog 2 3 = 2; decide +kernel
    omega
  obtain ⟨pa, pb, pc, pk, h1, h2⟩ := C35_key_exists hc (⟨2, 3, 1, 1, 6⟩ : Toxic Bn254Fr) g1 g2
  obtain ⟨ins, h3, h4, -⟩ := C91_session (GT := Bn254Fr) hpp 1 hc (square_r1cs x).2 h1 h2 one_ne_zero one_ne_zero g1 g2 5 6 tape
    fun _ i j => i + j
  refine ⟨pp, pk, ins, h3, ?_⟩
  rw [if_neg (by decide +kernel)] at h4
  exact h4

end ZkSaas.Properties
