import Verif.Properties.Curves
import Verif.Properties.Checks
import Verif.Properties.MsmBench

/-!
# C93: the groups of BLS12-377
-/

namespace ZkSaas.Properties

open Finset Spec Polynomial WeierstrassCurve

/-- **C93** The generator of `G1` of ark-bls12-377 0.4 is on `y² = x³ + 1` and of order `r`, the modulus of `Fr`. -/
theorem C93_g1 : ∃ (x y : Bls377Fq) (h : (shortCurve (1 : Bls377Fq)).Nonsingular x y) (g : Bls377G1),
    x = (81937999373150964239938255573465948239988671502647976594219695644855304257327692006745978603320413799295628339695 : Nat) ∧
    y = (241266749859715473739788878240585681733927191168601896383759122102112907357779751001206799952863815012735208165030 : Nat) ∧
    g.1 = .some x y h ∧ addOrderOf g = bls377 := by
  have h1 : fqImpl377.val 1 = 1 := Nat.cast_one
  obtain ⟨hn, hc⟩ := FieldImpl.nonsingular (I := fqImpl377)
    (x := 81937999373150964239938255573465948239988671502647976594219695644855304257327692006745978603320413799295628339695)
    (y := 241266749859715473739788878240585681733927191168601896383759122102112907357779751001206799952863815012735208165030) (c := 1)
    (show _ < bls377q by decide +kernel) (show _ < bls377q by decide +kernel) (by decide +kernel) (by decide +kernel)
  have h0 := hc.nsmul_eq_zero (f := 253) (n := bls377) (by decide +kernel) (by decide +kernel)
  revert hn hc h0
  rw [h1]
  intro hn hc h0
  refine ⟨_, _, hn, ⟨_, AddSubgroup.torsionBy.nsmul_iff.2 h0⟩, rfl, rfl, rfl, C91_order bls377_spec.1 _ ?_⟩
  intro h
  exact Affine.Point.some_ne_zero hn (congrArg Subtype.val h)

/-- **C93** `G1` has as many elements as `Fr`: the points of order `r` over `Fq` are the multiples of the generator. -/
theorem C93_g1_card : Nat.card Bls377G1 = bls377 := by
  obtain ⟨_, hle⟩ := points_le (1 : Bls377Fq) fqCodec377
  rw [Nat.card_zmod] at hle
  have hpow : Nat.card Bls377G1 = bls377 ^ Module.finrank Bls377Fr Bls377G1 := by
    rw [Module.natCard_eq_pow_finrank (K := Bls377Fr), Nat.card_zmod]
  obtain ⟨_, _, _, g, -, -, -, hg⟩ := C93_g1
  have h0 : Module.finrank Bls377Fr Bls377G1 ≠ 0 := by
    intro h
    rw [h, pow_zero] at hpow
    have h1 := addOrderOf_dvd_natCard g
    rw [hpow, hg] at h1
    exact absurd h1 (by decide +kernel)
  have hd : bls377 ^ Module.finrank Bls377Fr Bls377G1 ≤ Nat.card (shortCurve (1 : Bls377Fq)).Point := by
    rw [← hpow]; exact Nat.card_le_card_of_injective (fun g : Bls377G1 => g.1) Subtype.val_injective
  have h2 : Module.finrank Bls377Fr Bls377G1 < 2 := by
    by_contra h
    have h3 : bls377 ^ 2 ≤ bls377 ^ Module.finrank Bls377Fr Bls377G1 := Nat.pow_le_pow_right (by decide +kernel) (by omega)
    have h4 : bls377q * 2 + 1 < bls377 ^ 2 := by decide +kernel
    omega
  rw [hpow, show Module.finrank Bls377Fr Bls377G1 = 1 by omega, pow_one]

/-- **C93** The generator of `G2` of ark-bls12-377 0.4; the coefficient of the twist is `1/u`. -/
theorem C93_g2 : ∃ (x y : Bls377Fq2) (h : (shortCurve bls377TwistB).Nonsingular x y) (g : Bls377G2),
    x = ⟨(233578398248691099356572568220835526895379068987715365179118596935057653620464273615301663571204657964920925606294 : Nat),
      (140913150380207355837477652521042157274541796891053068589147167627541651775299824604154852141315666357241556069118 : Nat)⟩ ∧
    y = ⟨(63160294768292073209381361943935198908131692476676907196754037919244929611450776219210369229519898517858833747423 : Nat),
      (149157405641012693445398062341192467754805999074082136895788947234480009303640899064710353187729182149407503257491 : Nat)⟩ ∧
    bls377TwistB * ⟨0, 1⟩ = 1 ∧ g.1 = .some x y h ∧ addOrderOf g = bls377 := by
  have hB : fq2Impl377.val (0,
      155198655607781456406391640216936120121836107652948796323930557600032281009004493664981332883744016074664192874906) = bls377TwistB :=
    QuadraticAlgebra.ext Nat.cast_zero rfl
  obtain ⟨hn, hc⟩ := FieldImpl.nonsingular (I := fq2Impl377)
    (x := (233578398248691099356572568220835526895379068987715365179118596935057653620464273615301663571204657964920925606294,
      140913150380207355837477652521042157274541796891053068589147167627541651775299824604154852141315666357241556069118))
    (y := (63160294768292073209381361943935198908131692476676907196754037919244929611450776219210369229519898517858833747423,
      149157405641012693445398062341192467754805999074082136895788947234480009303640899064710353187729182149407503257491))
    (c := (0, 155198655607781456406391640216936120121836107652948796323930557600032281009004493664981332883744016074664192874906))
    (show _ < bls377q ∧ _ < bls377q by decide +kernel) (show _ < bls377q ∧ _ < bls377q by decide +kernel) (by decide +kernel)
    (by decide +kernel)
  have h0 := hc.nsmul_eq_zero (f := 253) (n := bls377) (by decide +kernel) (by decide +kernel)
  have hu : bls377TwistB * ⟨0, 1⟩ = 1 := by
    have h : fq2Impl377.mul (0,
        155198655607781456406391640216936120121836107652948796323930557600032281009004493664981332883744016074664192874906) (0, 1) =
        (1, 0) := by decide +kernel
    have := congrArg fq2Impl377.val h
    rw [fq2Impl377.val_mul, hB] at this
    have e9 : fq2Impl377.val (0, 1) = ⟨0, 1⟩ := QuadraticAlgebra.ext Nat.cast_zero Nat.cast_one
    have e3 : fq2Impl377.val (1, 0) = 1 := QuadraticAlgebra.ext Nat.cast_one Nat.cast_zero
    rwa [e9, e3] at this
  revert hn hc h0
  rw [hB]
  intro hn hc h0
  refine ⟨_, _, hn, ⟨_, AddSubgroup.torsionBy.nsmul_iff.2 h0⟩, rfl, rfl, hu, rfl, C91_order bls377_spec.1 _ ?_⟩
  intro h
  exact Affine.Point.some_ne_zero hn (congrArg Subtype.val h)

/-- **C93** Unlike on BN254 the curve has points outside `G1`: `(0, 1)` is of order three. Its encoding, 48 zero bytes, is refused by the reader of
`G1`, which without the test of the order would have taken it. -/
theorem C93_outside : ∃ P : (shortCurve (1 : Bls377Fq)).Point, addOrderOf P = 3 ∧ (∀ g : Bls377G1, g.1 ≠ P) ∧
    (∃ h, P = .some 0 1 h ∧ ∀ rest, fqCodec377.readX (List.replicate 48 0 ++ rest) = some (0, 0, rest) ∧ fqCodec377.big 1 = false) ∧
    ∀ rest, Wire.read (T := Bls377G1) (List.replicate 48 0 ++ rest) = none := by
  have h1 : fqImpl377.val 1 = 1 := Nat.cast_one
  have h0 : fqImpl377.val 0 = 0 := Nat.cast_zero
  obtain ⟨hn, hc⟩ := FieldImpl.nonsingular (I := fqImpl377) (x := 0) (y := 1) (c := 1) (show _ < bls377q by decide +kernel)
    (show _ < bls377q by decide +kernel) (by decide +kernel) (by decide +kernel)
  have h3 := hc.nsmul_eq_zero (f := 2) (n := 3) (by decide) (by decide +kernel)
  revert hn hc h3
  rw [h1, h0]
  intro hn hc h3
  have hord : addOrderOf (Affine.Point.some 0 1 hn) = 3 := addOrderOf_eq_prime h3 (Affine.Point.some_ne_zero hn) (hp := ⟨by norm_num⟩)
  have hout : ∀ g : Bls377G1, g.1 ≠ Affine.Point.some 0 1 hn := by
    intro g hg
    have hg0 : g ≠ 0 := by
      rintro rfl
      exact Affine.Point.some_ne_zero hn hg.symm
    have := C91_order bls377_spec.1 g hg0
    rw [← AddSubgroup.addOrderOf_coe, hg, hord] at this
    exact absurd this (by decide +kernel)
  have hread : ∀ rest, fqCodec377.readX (List.replicate 48 0 ++ rest) = some (0, 0, rest) := by
    intro rest
    have := fqCodec377.readX_encX 0 0 rest (by norm_num)
    rwa [show fqCodec377.encX 0 0 = List.replicate 48 0 by decide +kernel] at this
  have hbig : fqCodec377.big 1 = false := by decide +kernel
  refine ⟨_, hord, hout, ⟨hn, rfl, fun rest => ⟨hread rest, hbig⟩⟩, fun rest => ?_⟩
  show readPoint fqCodec377 _ = none
  unfold readPoint
  rw [hread]
  simp only
  rw [if_neg (by norm_num), dif_neg]
  rintro ⟨-, g, y, hy, hg, hb⟩
  have hy1 : y = 1 := by
    rcases Affine.Y_eq_of_X_eq hy.1 hn.1 rfl with h | h
    · exact h
    · exfalso
      have hy' : y = -1 := by simpa [Affine.negY] using h
      have : fqCodec377.big y = true := by rw [hy']; decide +kernel
      exact absurd (hb.1 this) (by norm_num)
  subst hy1
  exact hout g hg

/-- **C93** The quantifier over bilinear maps in `Verifies` is not empty of useful ones: for any two points except those at infinity one is not zero
at them. -/
theorem C93_pairing_exists (P : Bls377G1) (Q : Bls377G2) (hP : P ≠ 0) (hQ : Q ≠ 0) :
    ∃ e : Bls377G1 →ₗ[Bls377Fr] Bls377G2 →ₗ[Bls377Fr] Bls377Fr, e P Q ≠ 0 := by
  obtain ⟨f, hf⟩ := Module.Projective.exists_dual_ne_zero Bls377Fr hP
  obtain ⟨g, hg⟩ := Module.Projective.exists_dual_ne_zero Bls377Fr hQ
  exact ⟨(LinearMap.mul Bls377Fr Bls377Fr).compl₁₂ f g, mul_ne_zero hf hg⟩

/-- **C93** Points on the wire: 48 and 96 bytes, and what was written is read again, whatever follows it. -/
theorem C93_wire : (∀ P : Bls377G1, (Wire.enc P).length = 48) ∧ (∀ P : Bls377G2, (Wire.enc P).length = 96) ∧
    (∀ (P : Bls377G1) rest, Wire.read (Wire.enc P ++ rest) = some (P, rest)) ∧
    (∀ (P : Bls377G2) rest, Wire.read (Wire.enc P ++ rest) = some (P, rest)) ∧
    (∀ P Q : Bls377G1, Wire.enc P = Wire.enc Q → P = Q) ∧ (∀ P Q : Bls377G2, Wire.enc P = Wire.enc Q → P = Q) := by
  have inj : ∀ {T : Type} [FixedWire T] (P Q : T), Wire.enc P = Wire.enc Q → P = Q := by
    intro T _ P Q h
    have h1 := FixedWire.read_enc P []
    rw [h, FixedWire.read_enc] at h1
    exact (congrArg Prod.fst (Option.some.inj h1)).symm
  exact ⟨fun P => FixedWire.enc_length P, fun P => FixedWire.enc_length P, fun P => FixedWire.read_enc P, fun P => FixedWire.read_enc P,
    inj, inj⟩

/-- **C93** The packed multi-scalar multiplication over `G1`: for every packing factor `l = 2^b`, `b ≤ 45`, any bases, scalars and
masks as dealt, all servers end with a share of the sum of the bases, each added to itself as often as its scalar says; and the assertion of
`d_msm_test` in the example `dmsm_test` holds. -/
theorem C93_d_msm (dbg : Bool) (b : Nat) (hb : b ≤ 45) {N : Nat} (hN : 0 < N) (bases : List Bls377G1) (scalars : List Bls377Fr)
    (hbl : bases.length = N * 2 ^ b) (hsl : scalars.length = N * 2 ^ b) (sid : Sid) (rngb : Nat → Nat → Bls377G1)
    (rngs : Nat → Nat → Bls377Fr) :
    ∃ pp : PSS Bls377Fr, PSS.new dbg (2 ^ b) = .ok pp ∧
      ∀ masks : Nat → MsmMask Bls377G1, IsMsmMasks pp masks →
        ∃ (sb : List (List Bls377G1)) (ss : List (List Bls377Fr)) (outs : Nat → Bls377G1),
          (do let rows ← pp.packVec dbg bases rngb; transpose rows) = .ok sb ∧
          (do let rows ← pp.packVec dbg scalars rngs; transpose rows) = .ok ss ∧
          AlwaysYields (Net.init fun i : Fin (4 * 2 ^ b) =>
            pp.dMsm dbg (4 * 2 ^ b) i (sb.getD i []) (ss.getD i []) (masks i) sid) (fun i => outs i) ∧
          pp.unpack2 dbg ((List.range (4 * 2 ^ b)).map outs) =
            .ok (List.replicate (2 ^ b) (∑ i ∈ range (N * 2 ^ b), (scalars.getD i 0).val • bases.getD i 0)) ∧
          AlwaysYields (Net.init fun i : Fin (4 * 2 ^ b) =>
            pp.dMsmTest dbg (4 * 2 ^ b) i bases scalars (sb.getD i []) (ss.getD i []) (masks i)) (fun _ => ()) := by
  obtain ⟨pp, hpp⟩ := (C80_bls377_parameters.2.1 dbg b).2 hb
  refine ⟨pp, hpp, fun masks hm => ?_⟩
  obtain ⟨sb, ss, outs, h1, h2, h3, -, -, h4⟩ := C25_d_msm hpp dbg hN bases scalars hbl hsl masks hm sid rngb rngs
  obtain ⟨sb', ss', h1', h2', h5⟩ := C64_d_msm_test hpp dbg hN bases scalars hbl hsl masks hm rngb rngs
  obtain rfl : sb = sb' := Except.ok.inj (h1.symm.trans h1')
  obtain rfl : ss = ss' := Except.ok.inj (h2.symm.trans h2')
  refine ⟨sb, ss, outs, h1, h2, h3, ?_, h5⟩
  rw [h4]
  simp only [C91_scalar]

/-- **C93** The benchmarks `dmsm_bench` and `msm_bench` on BLS12-377: every party ends each size with `l` times the sum, resp. the sum. -/
theorem C93_benches (dbg : Bool) (b : Nat) (hb : b ≤ 45) (exps : List Nat) (hexps : ∀ e ∈ exps, e ≤ 47) (y : Nat → Bls377Fr)
    (x : Nat → Bls377G1) :
    AlwaysYields (Net.init fun i : Fin (4 * 2 ^ b) => dMsmBench dbg (2 ^ b) (4 * 2 ^ b) i exps y x)
      (fun _ => exps.map fun e => 2 ^ b • ∑ c ∈ range (2 ^ e), (y c).val • x c) ∧
    msmBench exps y x = .ok (exps.map fun e => ∑ c ∈ range (2 ^ e), (y c).val • x c) := by
  obtain ⟨pp, hpp⟩ := (C80_bls377_parameters.2.1 dbg b).2 hb
  have h1 := C73_dmsm_bench hpp exps hexps y x
  have h2 := C73_msm_bench exps hexps y x
  simp only [C91_scalar] at h1 h2
  exact ⟨h1, h2⟩

/-- **C93** C80 with the groups of the curve. -/
theorem C93_proofs {GT : Type} [AddCommGroup GT] [Module Bls377Fr GT] (dbg : Bool) (b : Nat) (hb : b ≤ 45)
    (mats : ConstraintMatrices Bls377Fr) (z : List Bls377Fr) (h : IsR1cs mats z)
    (hsat : Satisfies mats.numConstraints mats.a mats.b mats.c z)
    (hsize : mats.numConstraints + mats.numInstanceVariables ≤ 2 ^ 46)
    (hbig : 2 ^ b < 2 * (mats.numConstraints + mats.numInstanceVariables)) :
    ∃ pp : PSS Bls377Fr, PSS.new dbg (2 ^ b) = .ok pp ∧
      ProvesAll Bls377G1 Bls377G2 GT pp (4 * 2 ^ b) (4 * 2 ^ b) mats z (fun _ _ => True) := by
  obtain ⟨pp, h1, h2, -⟩ := C80_bls377_proofs (G1 := Bls377G1) (G2 := Bls377G2) (GT := GT) dbg b hb mats z h hsat hsize hbig
  exact ⟨pp, h1, h2⟩

/-! ### Examples -/

/-- Example for C93: points that are not at infinity, and a bilinear map that is not zero at them. -/
example : ∃ (P : Bls377G1) (Q : Bls377G2) (e : Bls377G1 →ₗ[Bls377Fr] Bls377G2 →ₗ[Bls377Fr] Bls377Fr), e P Q ≠ 0 := by
  obtain ⟨_, _, _, P, -, -, -, hP⟩ := C93_g1
  obtain ⟨_, _, _, Q, -, -, -, -, hQ⟩ := C93_g2
  have h1 : bls377 ≠ 1 := by decide +kernel
  exact ⟨P, Q, C93_pairing_exists P Q (by rintro rfl; rw [addOrderOf_zero] at hP; exact h1 hP.symm)
    (by rintro rfl; rw [addOrderOf_zero] at hQ; exact h1 hQ.symm)⟩

/-- Example for C93: eight servers multiply two bases by the scalars 3 and 5. -/
example : ∃ (g : Bls377G1) (pp : PSS Bls377Fr) (outs : Nat → Bls377G1), g ≠ 0 ∧
    pp.unpack2 true ((List.range (4 * 2 ^ 1)).map outs) = .ok (List.replicate (2 ^ 1) (3 • g + 5 • (g + g))) := by
  obtain ⟨_, _, h, g, -, -, hg, ho⟩ := C93_g1
  obtain ⟨pp, -, hm⟩ := C93_d_msm true 1 (by norm_num) (N := 1) (by norm_num) [g, g + g] [3, 5] rfl rfl .zero
    (fun _ _ => 0) (fun i j => i + j)
  obtain ⟨-, -, outs, -, -, -, h, -⟩ := hm (fun _ => MsmMask.zero) (.inr fun _ => rfl)
  refine ⟨g, pp, outs, ?_, ?_⟩
  · rintro rfl
    rw [addOrderOf_zero] at ho
    exact absurd ho (by decide +kernel)
  · rw [h, show 1 * 2 ^ 1 = 2 from rfl, sum_range_succ, sum_range_one]
    simp only [List.getD_cons_zero, List.getD_cons_succ, show (5 : Bls377Fr).val = 5 by decide +kernel,
      show (3 : Bls377Fr).val = 3 by decide +kernel]

/-- Example for C93: two sizes of the benchmark between eight parties, with all bases equal and the scalar 1. -/
example (dbg : Bool) (g : Bls377G1) : AlwaysYields (Net.init fun i : Fin (4 * 2 ^ 1) =>
    dMsmBench dbg (2 ^ 1) (4 * 2 ^ 1) i [1, 2] (fun _ => (1 : Bls377Fr)) fun _ => g) (fun _ => [4 • g, 8 • g]) := by
  have := (C93_benches dbg 1 (by norm_num) [1, 2] (by decide) (fun _ => 1) fun _ => g).1
  simp only [show (1 : Bls377Fr).val = 1 by decide +kernel, sum_const, card_range, one_smul, List.map, smul_smul] at this
  exact this

/-- Example for C93: eight servers prove the knowledge of a root, over the curve. -/
example (x : Bls377Fr) : ∃ pp : PSS Bls377Fr, PSS.new true (2 ^ 1) = .ok pp ∧
    ProvesAll Bls377G1 Bls377G2 Bls377Fr pp (4 * 2 ^ 1) (4 * 2 ^ 1) (squareMats Bls377Fr) [1, x * x, x] (fun _ _ => True) :=
  C93_proofs true 1 (by norm_num) (squareMats Bls377Fr) [1, x * x, x] (square_r1cs x).1 (square_r1cs x).2
    (by show 1 + 2 ≤ 2 ^ 46; norm_num) (by show 2 ^ 1 < 2 * (1 + 2); norm_num)

end ZkSaas.Properties
