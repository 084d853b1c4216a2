import Verif.Model.SerNet
import Verif.Model.Ark
import Verif.Lemmas.Pratt
import Verif.Lemmas.SerNet

/-!
# The scalar fields of the curves in use

`ark_bn254::Fr` is the field of `groth16/examples/sha256.rs:1` and of the tests of `groth16`; `ark_bls12_377::Fr` that of the tests and
examples of `secret-sharing` and `dist-primitives` and of `groth16/examples/local_groth_bench.rs:9-10`. Both moduli are primes, shown
here with Pratt certificates, and the constants are those of ark-bn254 0.4 and ark-bls12-377 0.4.
-/

namespace ZkSaas

/-! ### Primes used in the certificates -/

theorem prime_1832756501 : Nat.Prime 1832756501 :=
  prime_of_pratt 2 [(2, 2), (5, 3), (29, 1), (126397, 1)] (by decide +kernel) (by norm_num)

theorem prime_49484425527001 : Nat.Prime 49484425527001 :=
  prime_of_pratt 14 [(2, 3), (3, 3), (5, 3), (1832756501, 1)] (by decide +kernel) (by
    simp only [List.forall_mem_cons, List.not_mem_nil, false_imp_iff, implies_true, and_true]
    exact ⟨by norm_num, by norm_num, by norm_num, prime_1832756501⟩)

theorem prime_958612291309063373 : Nat.Prime 958612291309063373 :=
  prime_of_pratt 2 [(2, 2), (29, 1), (167, 1), (49484425527001, 1)] (by decide +kernel) (by
    simp only [List.forall_mem_cons, List.not_mem_nil, false_imp_iff, implies_true, and_true]
    exact ⟨by norm_num, by norm_num, by norm_num, prime_49484425527001⟩)

theorem prime_9586122913090633729 : Nat.Prime 9586122913090633729 :=
  prime_of_pratt 11 [(2, 46), (3, 1), (7, 1), (13, 1), (499, 1)] (by decide +kernel) (by norm_num)

theorem prime_405928799 : Nat.Prime 405928799 :=
  prime_of_pratt 22 [(2, 1), (11, 1), (3691, 1), (4999, 1)] (by decide +kernel) (by norm_num)

theorem prime_12048837557 : Nat.Prime 12048837557 :=
  prime_of_pratt 2 [(2, 2), (7, 2), (661, 1), (93001, 1)] (by decide +kernel) (by norm_num)

theorem prime_5156902474397 : Nat.Prime 5156902474397 :=
  prime_of_pratt 2 [(2, 2), (107, 1), (12048837557, 1)] (by decide +kernel) (by
    simp only [List.forall_mem_cons, List.not_mem_nil, false_imp_iff, implies_true, and_true]
    exact ⟨by norm_num, by norm_num, prime_12048837557⟩)

theorem prime_1670836401704629 : Nat.Prime 1670836401704629 :=
  prime_of_pratt 2 [(2, 2), (3, 4), (5156902474397, 1)] (by decide +kernel) (by
    simp only [List.forall_mem_cons, List.not_mem_nil, false_imp_iff, implies_true, and_true]
    exact ⟨by norm_num, by norm_num, prime_5156902474397⟩)

theorem prime_639533339 : Nat.Prime 639533339 :=
  prime_of_pratt 2 [(2, 1), (229, 1), (853, 1), (1637, 1)] (by decide +kernel) (by norm_num)

theorem prime_65865678001877903 : Nat.Prime 65865678001877903 :=
  prime_of_pratt 5 [(2, 1), (83, 1), (379, 1), (1637, 1), (639533339, 1)] (by decide +kernel) (by
    simp only [List.forall_mem_cons, List.not_mem_nil, false_imp_iff, implies_true, and_true]
    exact ⟨by norm_num, by norm_num, by norm_num, by norm_num, prime_639533339⟩)

theorem prime_13818364434197438864469338081 : Nat.Prime 13818364434197438864469338081 :=
  prime_of_pratt 3 [(2, 5), (5, 1), (823, 1), (1593227, 1), (65865678001877903, 1)] (by decide +kernel) (by
    simp only [List.forall_mem_cons, List.not_mem_nil, false_imp_iff, implies_true, and_true]
    exact ⟨by norm_num, by norm_num, by norm_num, by norm_num, prime_65865678001877903⟩)

/-! ### BN254 -/

/-- The modulus of `ark_bn254::Fr`. -/
def bn254 : Nat := 21888242871839275222246405745257275088548364400416034343698204186575808495617

/-- `ark_bn254::Fr` (`groth16/examples/sha256.rs:1`, `groth16/src/ext_wit.rs:185-186`). -/
abbrev Bn254Fr := ZMod bn254

theorem bn254_spec : Nat.Prime bn254 ∧ IsPrimitiveRoot ((5 : Nat) : Bn254Fr) (bn254 - 1) :=
  pratt_spec (fs := [(2, 28), (3, 2), (13, 1), (29, 1), (983, 1), (11003, 1), (237073, 1), (405928799, 1), (1670836401704629, 1),
    (13818364434197438864469338081, 1)]) (by decide +kernel) (by
    simp only [List.forall_mem_cons, List.not_mem_nil, false_imp_iff, implies_true, and_true]
    exact ⟨by norm_num, by norm_num, by norm_num, by norm_num, by norm_num, by norm_num, by norm_num, prime_405928799,
      prime_1670836401704629, prime_13818364434197438864469338081⟩)

instance factBn254 : Fact (Nat.Prime bn254) := ⟨bn254_spec.1⟩

/-- The constants of `ark_bn254::Fr`. -/
instance fftBn254 : FftField Bn254Fr where
  TWO_ADICITY := 28
  ROOT := ((19103219067921713944291392827692070036145651957329286315305642004821462161904 : Nat) : Bn254Fr)
  GENERATOR := ((5 : Nat) : Bn254Fr)
  root_primitive := by
    have h : ((19103219067921713944291392827692070036145651957329286315305642004821462161904 : Nat) : Bn254Fr) =
        ((5 : Nat) : Bn254Fr) ^ ((bn254 - 1) / 2 ^ 28) := by
      rw [← Nat.cast_pow, ZMod.natCast_eq_natCast_iff', ← powMod_eq bn254 256 5 _ (by decide +kernel)]
      decide +kernel
    rw [h]
    exact bn254_spec.2.pow (by decide +kernel) (by decide +kernel)
  generator_ne_zero := by
    have h := bn254_spec.2.ne_zero (by decide +kernel)
    exact h
  generator_generates := generates_of_primitive bn254_spec.2

/-! ### BLS12-377 -/

/-- The modulus of `ark_bls12_377::Fr`. -/
def bls377 : Nat := 8444461749428370424248824938781546531375899335154063827935233455917409239041

/-- `ark_bls12_377::Fr` (`secret-sharing/src/pss.rs:230`, `dist-primitives/src/dfft/tests.rs:2`). -/
abbrev Bls377Fr := ZMod bls377

theorem bls377_spec : Nat.Prime bls377 ∧ IsPrimitiveRoot ((22 : Nat) : Bls377Fr) (bls377 - 1) :=
  pratt_spec (fs := [(2, 47), (3, 1), (5, 1), (7, 1), (13, 1), (499, 1), (958612291309063373, 1), (9586122913090633729, 2)])
    (by decide +kernel) (by
    simp only [List.forall_mem_cons, List.not_mem_nil, false_imp_iff, implies_true, and_true]
    exact ⟨by norm_num, by norm_num, by norm_num, by norm_num, by norm_num, by norm_num, prime_958612291309063373,
      prime_9586122913090633729⟩)

instance factBls377 : Fact (Nat.Prime bls377) := ⟨bls377_spec.1⟩

/-- The constants of `ark_bls12_377::Fr`. -/
instance fftBls377 : FftField Bls377Fr where
  TWO_ADICITY := 47
  ROOT := ((8065159656716812877374967518403273466521432693661810619979959746626482506078 : Nat) : Bls377Fr)
  GENERATOR := ((22 : Nat) : Bls377Fr)
  root_primitive := by
    have h : ((8065159656716812877374967518403273466521432693661810619979959746626482506078 : Nat) : Bls377Fr) =
        ((22 : Nat) : Bls377Fr) ^ ((bls377 - 1) / 2 ^ 47) := by
      rw [← Nat.cast_pow, ZMod.natCast_eq_natCast_iff', ← powMod_eq bls377 256 22 _ (by decide +kernel)]
      decide +kernel
    rw [h]
    exact bls377_spec.2.pow (by decide +kernel) (by decide +kernel)
  generator_ne_zero := by
    have h := bls377_spec.2.ne_zero (by decide +kernel)
    exact h
  generator_generates := generates_of_primitive bls377_spec.2

/-! ### Encodings -/

/-- ark-ff `Fp::serialize_with_mode` and `deserialize_with_mode` for a modulus of at most 254 bits: 32 bytes, little endian; numbers from
the modulus on are rejected. -/
@[reducible] def fixedWire32 (p : Nat) [NeZero p] (hp : p < 256 ^ 32) : FixedWire (ZMod p) where
  enc x := leBytes 32 x.val
  read b :=
    if b.length < 32 then none
    else if ofLeBytes (b.take 32) < p then some ((ofLeBytes (b.take 32) : Nat), b.drop 32) else none
  width := 32
  enc_length x := leBytes_length 32 x.val
  read_enc x rest := by
    have hl : (leBytes 32 x.val).length = 32 := leBytes_length 32 _
    have hx : x.val < p := ZMod.val_lt x
    show (if (leBytes 32 x.val ++ rest).length < 32 then none else
      if ofLeBytes ((leBytes 32 x.val ++ rest).take 32) < p then
        some (((ofLeBytes ((leBytes 32 x.val ++ rest).take 32) : Nat) : ZMod p), (leBytes 32 x.val ++ rest).drop 32) else none) =
      some (x, rest)
    rw [List.take_left' hl, List.drop_left' hl, if_neg (by rw [List.length_append, hl]; omega),
      ofLeBytes_leBytes 32 _ (lt_trans hx hp), if_pos hx, ZMod.natCast_zmod_val]
  read_short b h := by
    show (if b.length < 32 then none else _) = none
    rw [if_pos h]

instance wireBn254 : FixedWire Bn254Fr := fixedWire32 bn254 (by decide +kernel)

instance wireBls377 : FixedWire Bls377Fr := fixedWire32 bls377 (by decide +kernel)

end ZkSaas
