import Verif.Model.Fields
import Verif.Lemmas.Curve
import Mathlib.Algebra.Module.Torsion.Basic

/-!
# The groups of the curves in use

`groth16/examples/sha256.rs:1` takes `G1Projective` and `G2Projective` of `ark_bn254`. Here they are the points of order dividing the
modulus of `Fr` on `y² = x³ + 3` over `Fq` and on `y² = x³ + 3/(9+u)` over `Fq2 = Fq[u]/(u²+1)`, with the group law of Mathlib; the
constants are those of ark-bn254 0.4. The tests and the other examples take BLS12-377 (`dist-primitives/src/dmsm/mod.rs:114-115`,
`groth16/examples/local_groth_bench.rs:9`): `y² = x³ + 1` over `Fq` and `y² = x³ + 1/u` over `Fq[u]/(u²+5)`, from
ark-bls12-377 0.4. Projective coordinates are not modelled: equality and serialisation of arkworks do not depend on them.
-/

namespace ZkSaas

open WeierstrassCurve

/-! ### Compressed points -/

/-- What the compressed encoding of ark-ec's short Weierstrass points needs of the field of the coordinates. -/
structure PointCodec (K : Type) [Field K] where
  /-- `serialize_with_flags`: the flags are `0` (`YIsPositive`), `1` (`PointAtInfinity`) or `2` (`YIsNegative`), the two upper bits. -/
  encX : K → Nat → Bytes
  /-- `deserialize_with_flags`. -/
  readX : Bytes → Option (K × Nat × Bytes)
  width : Nat
  /-- `y > -y` in the order of the field. -/
  big : K → Bool
  encX_length : ∀ x f, (encX x f).length = width
  readX_encX : ∀ x f rest, f < 3 → readX (encX x f ++ rest) = some (x, f, rest)
  readX_short : ∀ b, b.length < width → readX b = none
  big_neg : ∀ y : K, y ≠ -y → big (-y) = !big y

section codec
variable {K : Type} [Field K] [DecidableEq K] {b : K} {r : Nat}

/-- The points of order dividing `r` on `y² = x³ + b`. -/
abbrev CurveGroup (b : K) (r : Nat) : Type := AddSubgroup.torsionBy (shortCurve b).Point (r : ℤ)

/-- The scalar multiplication of arkworks: `s` times the point, `s` taken as a number (`scalar_eq`). -/
instance : Module (ZMod r) (CurveGroup b r) := AddSubgroup.torsionBy.zmodModule

/-- ark-ec `SWCurveConfig::serialize_with_mode` with `Compress::Yes`: `x` and whether `y` is the greater of `y` and `-y`. -/
def encPoint (c : PointCodec K) (P : CurveGroup b r) : Bytes :=
  match P.1 with
  | .zero => c.encX 0 1
  | .some x y _ => c.encX x (if c.big y then 2 else 0)

open Classical in
/-- ark-ec `SWCurveConfig::deserialize_with_mode` with `Compress::Yes` and `Validate::Yes`. `get_point_from_x_unchecked` takes a
square root, and the result is checked to be in the group; here by the contract of these: the point of the group with this `x` and this
flag, if there is one. -/
noncomputable def readPoint (c : PointCodec K) (bytes : Bytes) : Option (CurveGroup b r × Bytes) :=
  match c.readX bytes with
  | none => none
  | some (x, f, rest) =>
    if f = 1 then some (0, rest)
    else if h : (f = 0 ∨ f = 2) ∧ ∃ P : CurveGroup b r, ∃ y hy, P.1 = .some x y hy ∧ (c.big y = true ↔ f = 2) then some (h.2.choose, rest)
    else none

theorem point_unique (c : PointCodec K) {x : K} {f : Nat} {P Q : CurveGroup b r} {y z : K} {hy hz} (hP : P.1 = .some x y hy)
    (hQ : Q.1 = .some x z hz) (h1 : c.big y = true ↔ f = 2) (h2 : c.big z = true ↔ f = 2) : P = Q := by
  apply Subtype.ext
  rw [hP, hQ]
  have : y = z := by
    rcases Affine.Y_eq_of_X_eq hy.1 hz.1 rfl with h | h
    · exact h
    · have hn : y = -z := by simpa [Affine.negY] using h
      by_contra hne
      have hb := c.big_neg z (by rw [← hn]; exact fun h => hne h.symm)
      rw [← hn] at hb
      have e : c.big y = c.big z := by
        rw [Bool.eq_iff_iff, h1, h2]
      rw [e] at hb
      cases h : c.big z <;> rw [h] at hb <;> cases hb
  subst this
  rfl

/-- Points on the wire. -/
@[reducible] noncomputable def pointWire (c : PointCodec K) : FixedWire (CurveGroup b r) where
  enc := encPoint c
  read := readPoint c
  width := c.width
  enc_length P := by unfold encPoint; split <;> exact c.encX_length _ _
  read_enc P rest := by
    unfold encPoint
    split
    · next h =>
      unfold readPoint
      rw [c.readX_encX _ _ _ (by norm_num)]
      have : P = 0 := Subtype.ext h
      simp [this]
    · next x y hy h =>
      have hf : (if c.big y then 2 else 0) < 3 := by split <;> norm_num
      unfold readPoint
      rw [c.readX_encX _ _ _ hf]
      have hb : c.big y = true ↔ (if c.big y then 2 else 0) = 2 := by cases c.big y <;> simp
      have h1 : (if c.big y then 2 else 0) ≠ 1 := by cases c.big y <;> simp
      have hex : ((if c.big y then 2 else 0) = 0 ∨ (if c.big y then 2 else 0) = 2) ∧
          ∃ P : CurveGroup b r, ∃ z hz, P.1 = .some x z hz ∧ (c.big z = true ↔ (if c.big y then 2 else 0) = 2) :=
        ⟨by cases c.big y <;> simp, P, y, hy, h, hb⟩
      simp only [h1, if_false]
      rw [dif_pos hex]
      obtain ⟨z, hz, h2, h3⟩ := hex.2.choose_spec
      rw [point_unique c h2 h h3 hb]
  read_short bytes h := by unfold readPoint; rw [c.readX_short _ h]

end codec

/-! ### Coordinates on the wire -/

section coordinates
variable (q w : Nat) [Fact q.Prime]

/-- ark-ff `Fp::serialize_with_flags` and `deserialize_with_flags` with two flag bits, for a modulus that leaves two bits of `w` bytes free:
`w` bytes, little endian, the flags in the upper bits of the last byte. `SWFlags::from_u8` refuses both bits. -/
def primeCodec (hq : q * 4 < 256 ^ w) : PointCodec (ZMod q) where
  encX x f := leBytes w (x.val + f * (256 ^ w / 4))
  readX b :=
    if b.length < w then none
    else
      let v := ofLeBytes (b.take w)
      if v % (256 ^ w / 4) < q ∧ v / (256 ^ w / 4) < 3 then some ((v % (256 ^ w / 4) : Nat), v / (256 ^ w / 4), b.drop w) else none
  width := w
  big y := decide ((-y).val < y.val)
  encX_length x f := leBytes_length w _
  readX_encX x f rest hf := by
    have hl : (leBytes w (x.val + f * (256 ^ w / 4))).length = w := leBytes_length w _
    have hx : x.val < q := ZMod.val_lt x
    have hS : x.val < 256 ^ w / 4 := by omega
    have h4 : 4 * (256 ^ w / 4) ≤ 256 ^ w := Nat.mul_div_le _ _
    generalize hG : 256 ^ w / 4 = S at *
    have h1 : (x.val + f * S) % S = x.val := by rw [Nat.add_mul_mod_self_right, Nat.mod_eq_of_lt hS]
    have h2 : (x.val + f * S) / S = f := by rw [Nat.add_mul_div_right _ _ (by omega), Nat.div_eq_of_lt hS, zero_add]
    have h3 : f * S ≤ 2 * S := Nat.mul_le_mul_right _ (by omega)
    simp only
    rw [List.take_left' hl, List.drop_left' hl, if_neg (by rw [List.length_append, hl]; omega), ofLeBytes_leBytes w _ (by omega), h1, h2,
      if_pos ⟨hx, hf⟩, ZMod.natCast_zmod_val]
  readX_short b h := if_pos h
  big_neg y hy := by
    rw [neg_neg, Bool.eq_not, ne_eq, decide_eq_decide]
    have : y.val ≠ (-y).val := fun h => hy (ZMod.val_injective _ h)
    omega

/-- The same for a quadratic extension: `c0` without flags, then `c1` with the flags; the order looks at `c1` first. -/
def quadCodec (d : ZMod q) [Fact (∀ r : ZMod q, r ^ 2 ≠ d + 0 * r)] (hq : q * 4 < 256 ^ w) : PointCodec (QuadraticAlgebra (ZMod q) d 0) where
  encX x f := leBytes w x.re.val ++ leBytes w (x.im.val + f * (256 ^ w / 4))
  readX b :=
    if b.length < 2 * w then none
    else
      let u := ofLeBytes (b.take w)
      let v := ofLeBytes ((b.drop w).take w)
      if u < q ∧ v % (256 ^ w / 4) < q ∧ v / (256 ^ w / 4) < 3 then
        some (⟨(u : Nat), (v % (256 ^ w / 4) : Nat)⟩, v / (256 ^ w / 4), b.drop (2 * w))
      else none
  width := 2 * w
  big y := decide ((-y.im).val < y.im.val ∨ y.im.val = (-y.im).val ∧ (-y.re).val < y.re.val)
  encX_length x f := by rw [List.length_append, leBytes_length, leBytes_length, two_mul]
  readX_encX x f rest hf := by
    have hl : ∀ v, (leBytes w v).length = w := leBytes_length w
    have hx : x.re.val < q := ZMod.val_lt _
    have hy : x.im.val < q := ZMod.val_lt _
    have hS : x.im.val < 256 ^ w / 4 := by omega
    have h4 : 4 * (256 ^ w / 4) ≤ 256 ^ w := Nat.mul_div_le _ _
    generalize hG : 256 ^ w / 4 = S at *
    have h1 : (x.im.val + f * S) % S = x.im.val := by rw [Nat.add_mul_mod_self_right, Nat.mod_eq_of_lt hS]
    have h2 : (x.im.val + f * S) / S = f := by rw [Nat.add_mul_div_right _ _ (by omega), Nat.div_eq_of_lt hS, zero_add]
    have h3 : f * S ≤ 2 * S := Nat.mul_le_mul_right _ (by omega)
    simp only
    rw [List.append_assoc, List.take_left' (hl _), List.drop_left' (hl _), List.take_left' (hl _),
      if_neg (by simp only [List.length_append, hl]; omega), ofLeBytes_leBytes w _ (by omega), ofLeBytes_leBytes w _ (by omega), h1, h2,
      if_pos ⟨hx, hy, hf⟩, ZMod.natCast_zmod_val, ZMod.natCast_zmod_val, ← List.append_assoc,
      List.drop_left' (by rw [List.length_append, hl, hl, two_mul])]
  readX_short b h := if_pos h
  big_neg y hy := by
    simp only [QuadraticAlgebra.im_neg, QuadraticAlgebra.re_neg, neg_neg]
    rw [Bool.eq_not, ne_eq, decide_eq_decide]
    have : ¬ (y.im.val = (-y.im).val ∧ y.re.val = (-y.re).val) := fun h =>
      hy (QuadraticAlgebra.ext (ZMod.val_injective _ h.2) (ZMod.val_injective _ h.1))
    omega

end coordinates

/-! ### BN254 -/

theorem prime_1263766531 : Nat.Prime 1263766531 :=
  prime_of_pratt 10 [(2, 1), (3, 1), (5, 1), (13, 1), (911, 1), (3557, 1)] (by decide +kernel) (by norm_num)

theorem prime_35385462869 : Nat.Prime 35385462869 :=
  prime_of_pratt 2 [(2, 2), (7, 1), (1263766531, 1)] (by decide +kernel) (by
    simp only [List.forall_mem_cons, List.not_mem_nil, false_imp_iff, implies_true, and_true]
    exact ⟨by norm_num, by norm_num, prime_1263766531⟩)

theorem prime_2480874801745591 : Nat.Prime 2480874801745591 :=
  prime_of_pratt 6 [(2, 1), (3, 2), (5, 1), (19, 1), (41, 1), (35385462869, 1)] (by decide +kernel) (by
    simp only [List.forall_mem_cons, List.not_mem_nil, false_imp_iff, implies_true, and_true]
    exact ⟨by norm_num, by norm_num, by norm_num, by norm_num, by norm_num, prime_35385462869⟩)

theorem prime_13427688667394608761327070753331941386769 : Nat.Prime 13427688667394608761327070753331941386769 :=
  prime_of_pratt 17 [(2, 4), (3, 1), (7, 1), (11, 1), (1853641, 1), (4562087, 1), (173171039, 1), (2480874801745591, 1)]
    (by decide +kernel) (by
    simp only [List.forall_mem_cons, List.not_mem_nil, false_imp_iff, implies_true, and_true]
    exact ⟨by norm_num, by norm_num, by norm_num, by norm_num, by norm_num, by norm_num, by norm_num, prime_2480874801745591⟩)

theorem prime_11465965001 : Nat.Prime 11465965001 :=
  prime_of_pratt 3 [(2, 3), (5, 4), (7, 1), (327599, 1)] (by decide +kernel) (by norm_num)

/-- The modulus of `ark_bn254::Fq`. -/
def bn254q : Nat := 21888242871839275222246405745257275088696311157297823662689037894645226208583

theorem bn254q_prime : Nat.Prime bn254q :=
  prime_of_pratt 3 [(2, 1), (3, 2), (13, 1), (29, 1), (67, 1), (229, 1), (311, 1), (983, 1), (11003, 1), (405928799, 1),
    (11465965001, 1), (13427688667394608761327070753331941386769, 1)] (by decide +kernel) (by
    simp only [List.forall_mem_cons, List.not_mem_nil, false_imp_iff, implies_true, and_true]
    exact ⟨by norm_num, by norm_num, by norm_num, by norm_num, by norm_num, by norm_num, by norm_num, by norm_num, by norm_num,
      prime_405928799, prime_11465965001, prime_13427688667394608761327070753331941386769⟩)

instance factBn254q : Fact (Nat.Prime bn254q) := ⟨bn254q_prime⟩

/-- `ark_bn254::Fq`. -/
abbrev Bn254Fq := ZMod bn254q

/-- `-1` is not a square modulo `q`. -/
instance factBn254q2 : Fact (∀ r : Bn254Fq, r ^ 2 ≠ -1 + 0 * r) := ⟨by
  intro r h
  rw [zero_mul, add_zero] at h
  have := (ZMod.exists_sq_eq_neg_one_iff (p := bn254q)).1 ⟨r, by rw [← h, pow_two]⟩
  exact this (by decide +kernel)⟩

/-- `ark_bn254::Fq2`: `c0 + c1·u` with `u² = -1`. -/
abbrev Bn254Fq2 := QuadraticAlgebra Bn254Fq (-1) 0

/-- The modulus has 254 bits, hence 32 bytes with the flags. -/
def fqCodec : PointCodec Bn254Fq := primeCodec bn254q 32 (by decide +kernel)

@[inherit_doc fqCodec] def fq2Codec : PointCodec Bn254Fq2 := quadCodec bn254q 32 (-1) (by decide +kernel)

/-- `ark_bn254::G1Projective` (`groth16/examples/sha256.rs:1`): the curve `y² = x³ + 3` has as many points over `Fq` as the modulus of `Fr`,
so that arkworks does not test the order of a point. -/
abbrev Bn254G1 := CurveGroup (3 : Bn254Fq) bn254

/-- The coefficient `3/(9+u)` of the twist. -/
def bn254TwistB : Bn254Fq2 :=
  ⟨(19485874751759354771024239261021720505790618469301721065564631296452457478373 : Nat),
    (266929791119991161246907387137283842545076965332900288569378510910307636690 : Nat)⟩

/-- `ark_bn254::G2Projective` (`groth16/examples/sha256.rs:1`). -/
abbrev Bn254G2 := CurveGroup bn254TwistB bn254

noncomputable instance wireBn254G1 : FixedWire Bn254G1 := pointWire fqCodec
noncomputable instance wireBn254G2 : FixedWire Bn254G2 := pointWire fq2Codec

/-- Arithmetic of `Fq` and `Fq2` on numbers. -/
def fqImpl : FieldImpl Nat Bn254Fq := primeImpl 256 bn254q (by decide +kernel) (by decide +kernel)

@[inherit_doc fqImpl] def fq2Impl : FieldImpl (Nat × Nat) Bn254Fq2 :=
  quadImpl 256 bn254q (-1) 1 (by rw [Nat.cast_one, neg_neg]) (by decide +kernel) (by decide +kernel)

/-! ### BLS12-377 -/

theorem prime_6633514200929891813 : Nat.Prime 6633514200929891813 :=
  prime_of_pratt 2 [(2, 2), (19, 1), (25537, 1), (47521, 1), (71924131, 1)] (by decide +kernel) (by norm_num)

theorem prime_76872275827 : Nat.Prime 76872275827 :=
  prime_of_pratt 2 [(2, 1), (3, 1), (17, 2), (19, 1), (23, 1), (229, 1), (443, 1)] (by decide +kernel) (by norm_num)

theorem prime_1844934619849 :
    Nat.Prime 1844934619849 :=
  prime_of_pratt 14 [(2, 3), (3, 1), (76872275827, 1)]
    (by decide +kernel) (by
    simp only [List.forall_mem_cons, List.not_mem_nil, false_imp_iff, implies_true, and_true]
    exact ⟨by norm_num, by norm_num, prime_76872275827⟩)

theorem prime_111286271775829695101 :
    Nat.Prime 111286271775829695101 :=
  prime_of_pratt 2 [(2, 2), (5, 2), (73, 1), (8263, 1), (1844934619849, 1)]
    (by decide +kernel) (by
    simp only [List.forall_mem_cons, List.not_mem_nil, false_imp_iff, implies_true, and_true]
    exact ⟨by norm_num, by norm_num, by norm_num, by norm_num, prime_1844934619849⟩)

theorem prime_222572543551659390203 :
    Nat.Prime 222572543551659390203 :=
  prime_of_pratt 2 [(2, 1), (111286271775829695101, 1)]
    (by decide +kernel) (by
    simp only [List.forall_mem_cons, List.not_mem_nil, false_imp_iff, implies_true, and_true]
    exact ⟨by norm_num, prime_111286271775829695101⟩)

theorem prime_97931919162730131689321 :
    Nat.Prime 97931919162730131689321 :=
  prime_of_pratt 3 [(2, 3), (5, 1), (11, 1), (222572543551659390203, 1)]
    (by decide +kernel) (by
    simp only [List.forall_mem_cons, List.not_mem_nil, false_imp_iff, implies_true, and_true]
    exact ⟨by norm_num, by norm_num, by norm_num, prime_222572543551659390203⟩)

theorem prime_3721412928183745004194199 :
    Nat.Prime 3721412928183745004194199 :=
  prime_of_pratt 13 [(2, 1), (19, 1), (97931919162730131689321, 1)]
    (by decide +kernel) (by
    simp only [List.forall_mem_cons, List.not_mem_nil, false_imp_iff, implies_true, and_true]
    exact ⟨by norm_num, by norm_num, prime_97931919162730131689321⟩)

theorem prime_4777599223 : Nat.Prime 4777599223 :=
  prime_of_pratt 3 [(2, 1), (3, 2), (11, 1), (59, 1), (408971, 1)] (by decide +kernel) (by norm_num)

theorem prime_5187222954756607 : Nat.Prime 5187222954756607 :=
  prime_of_pratt 3 [(2, 1), (3, 1), (19, 1), (5301089, 1), (8583511, 1)] (by decide +kernel) (by norm_num)

theorem prime_7880826209898991662826602799 :
    Nat.Prime 7880826209898991662826602799 :=
  prime_of_pratt 21 [(2, 1), (3, 1), (53, 1), (4777599223, 1), (5187222954756607, 1)]
    (by decide +kernel) (by
    simp only [List.forall_mem_cons, List.not_mem_nil, false_imp_iff, implies_true, and_true]
    exact ⟨by norm_num, by norm_num, by norm_num, prime_4777599223, prime_5187222954756607⟩)

theorem prime_494527005853 : Nat.Prime 494527005853 :=
  prime_of_pratt 5 [(2, 2), (3, 1), (11, 1), (167, 1), (22433633, 1)] (by decide +kernel) (by norm_num)

theorem prime_73387170334035996766247648424745786170238574695861388454532790956181 :
    Nat.Prime 73387170334035996766247648424745786170238574695861388454532790956181 :=
  prime_of_pratt 3 [(2, 2), (5, 1), (11, 1), (23, 1), (494527005853, 1), (3721412928183745004194199, 1), (7880826209898991662826602799, 1)]
    (by decide +kernel) (by
    simp only [List.forall_mem_cons, List.not_mem_nil, false_imp_iff, implies_true, and_true]
    exact ⟨by norm_num, by norm_num, by norm_num, by norm_num, prime_494527005853, prime_3721412928183745004194199, prime_7880826209898991662826602799⟩)

/-- The modulus of `ark_bls12_377::Fq`. -/
def bls377q : Nat :=
  258664426012969094010652733694893533536393512754914660539884262666720468348340822774968888139573360124440321458177

theorem bls377q_spec : Nat.Prime bls377q ∧ IsPrimitiveRoot ((15 : Nat) : ZMod bls377q) (bls377q - 1) :=
  prattOf_spec (f := 377) (fs := [(2, 46), (3, 1), (7, 1), (13, 1), (499, 1), (53, 1), (409, 1), (2557, 1), (6633514200929891813, 1), (73387170334035996766247648424745786170238574695861388454532790956181, 1)])
    (by decide +kernel) (by
    simp only [List.forall_mem_cons, List.not_mem_nil, false_imp_iff, implies_true, and_true]
    exact ⟨by norm_num, by norm_num, by norm_num, by norm_num, by norm_num, by norm_num, by norm_num, by norm_num, prime_6633514200929891813, prime_73387170334035996766247648424745786170238574695861388454532790956181⟩)

instance factBls377q : Fact (Nat.Prime bls377q) := ⟨bls377q_spec.1⟩

/-- `ark_bls12_377::Fq`. -/
abbrev Bls377Fq := ZMod bls377q

/-- `-5` is not a square modulo `q`. -/
instance factBls377q2 : Fact (∀ r : Bls377Fq, r ^ 2 ≠ -5 + 0 * r) := ⟨by
  intro r h
  rw [zero_mul, add_zero] at h
  have h0 : r ≠ 0 := by
    rintro rfl
    exact absurd h (by decide +kernel)
  have h1 := ZMod.pow_card_sub_one_eq_one h0
  have h2 : bls377q - 1 = 2 * ((bls377q - 1) / 2) := by decide +kernel
  rw [h2, pow_mul, h] at h1
  have h3 := congrArg ZMod.val h1
  have e : (-5 : Bls377Fq) = ((bls377q - 5 : Nat) : Bls377Fq) := by
    rw [Nat.cast_sub (by decide +kernel)]; simp
  rw [e, ← Nat.cast_pow, ZMod.val_natCast, ← powMod_eq bls377q 377 _ _ (by decide +kernel)] at h3
  revert h3
  decide +kernel⟩

/-- `ark_bls12_377::Fq2`: `c0 + c1·u` with `u² = -5`. -/
abbrev Bls377Fq2 := QuadraticAlgebra Bls377Fq (-5) 0

/-- The modulus has 377 bits, hence 48 bytes with the flags. -/
def fqCodec377 : PointCodec Bls377Fq := primeCodec bls377q 48 (by decide +kernel)

@[inherit_doc fqCodec377] def fq2Codec377 : PointCodec Bls377Fq2 := quadCodec bls377q 48 (-5) (by decide +kernel)

/-- `ark_bls12_377::G1Projective` (`dist-primitives/src/dmsm/mod.rs:115`, `dist-primitives/examples/dmsm_test.rs:2`): here not all points of the
curve, and the order is tested when a point is read. -/
abbrev Bls377G1 := CurveGroup (1 : Bls377Fq) bls377

/-- The coefficient `1/u` of the twist. -/
def bls377TwistB : Bls377Fq2 :=
  ⟨0, (155198655607781456406391640216936120121836107652948796323930557600032281009004493664981332883744016074664192874906 : Nat)⟩

/-- `G2` of `Bls12<ark_bls12_377::Config>` (`groth16/examples/local_groth_bench.rs:9`). -/
abbrev Bls377G2 := CurveGroup bls377TwistB bls377

noncomputable instance wireBls377G1 : FixedWire Bls377G1 := pointWire fqCodec377
noncomputable instance wireBls377G2 : FixedWire Bls377G2 := pointWire fq2Codec377

/-- Arithmetic of `Fq` and `Fq2` on numbers. -/
def fqImpl377 : FieldImpl Nat Bls377Fq := primeImpl 377 bls377q (by decide +kernel) (by decide +kernel)

@[inherit_doc fqImpl377] def fq2Impl377 : FieldImpl (Nat × Nat) Bls377Fq2 :=
  quadImpl 377 bls377q (-5) 5 (by rw [Nat.cast_ofNat, neg_neg]) (by decide +kernel) (by decide +kernel)

end ZkSaas
