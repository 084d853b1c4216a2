import Mathlib.NumberTheory.LucasPrimality
import Mathlib.RingTheory.RootsOfUnity.PrimitiveRoots
import Mathlib.FieldTheory.Finite.Basic
import Mathlib.Tactic.NormNum.Prime

/-!
# Primes and primitive roots from Pratt certificates

A certificate of a prime `p` is a number `a` and the factorisation of `p - 1`; the kernel computes the powers.
-/

namespace ZkSaas

/-- `a ^ e % m` for `e < 2 ^ f`, by squaring. -/
def powMod (m : Nat) : Nat → Nat → Nat → Nat
  | 0, _, _ => 1 % m
  | f + 1, a, e =>
    if e % 2 = 1 then a * powMod m f (a * a % m) (e / 2) % m else powMod m f (a * a % m) (e / 2)

theorem powMod_eq (m : Nat) : ∀ (f a e : Nat), e < 2 ^ f → powMod m f a e = a ^ e % m
  | 0, a, e, h => by
    have : e = 0 := by simpa using h
    simp [powMod, this]
  | f + 1, a, e, h => by
    have he : e / 2 < 2 ^ f := by rw [Nat.pow_succ] at h; omega
    rw [powMod, powMod_eq m f _ _ he]
    have h2 : (a * a % m) ^ (e / 2) % m = (a ^ (2 * (e / 2))) % m := by
      rw [Nat.pow_mod, Nat.mod_mod, ← Nat.pow_mod, ← pow_two, ← pow_mul]
    split
    · next h1 =>
      rw [h2, Nat.mul_mod, Nat.mod_mod, ← Nat.mul_mod, ← pow_succ']
      congr 2
      omega
    · next h1 =>
      rw [h2]
      congr 2
      omega

/-- The certificate that `a` is a primitive root of `p < 2 ^ f`; `fs` is the factorisation of `p - 1`. -/
def prattOf (f p a : Nat) (fs : List (Nat × Nat)) : Bool :=
  decide (1 < p) && decide (p < 2 ^ f) && decide ((fs.map fun q => q.1 ^ q.2).prod = p - 1) &&
    decide (powMod p f a (p - 1) = 1) && fs.all fun q => decide (powMod p f a ((p - 1) / q.1) ≠ 1)

/-- The same for numbers of at most 256 bits. -/
def pratt (p a : Nat) (fs : List (Nat × Nat)) : Bool := prattOf 256 p a fs

theorem prattOf_spec {f p a : Nat} {fs : List (Nat × Nat)} (h : prattOf f p a fs = true) (hfs : ∀ q ∈ fs, q.1.Prime) :
    p.Prime ∧ IsPrimitiveRoot (a : ZMod p) (p - 1) := by
  simp only [prattOf, Bool.and_eq_true, decide_eq_true_eq, List.all_eq_true] at h
  obtain ⟨⟨⟨⟨h1, h2⟩, h3⟩, h4⟩, h5⟩ := h
  have hmod : 1 % p = 1 := Nat.mod_eq_of_lt h1
  have hpow : ∀ e, e < 2 ^ f → (powMod p f a e = 1 ↔ (a : ZMod p) ^ e = 1) := by
    intro e he
    rw [powMod_eq p f a e he, ← Nat.cast_pow, ← Nat.cast_one (R := ZMod p), ZMod.natCast_eq_natCast_iff', hmod]
  have h4' : (a : ZMod p) ^ (p - 1) = 1 := (hpow _ (by omega)).1 h4
  have h5' : ∀ q : Nat, q.Prime → q ∣ p - 1 → (a : ZMod p) ^ ((p - 1) / q) ≠ 1 := by
    intro q hq hdvd
    rw [← h3] at hdvd
    obtain ⟨x, hx, hqx⟩ := hq.prime.dvd_prod_iff.1 hdvd
    obtain ⟨y, hy, rfl⟩ := List.mem_map.1 hx
    have hqy : q = y.1 := (Nat.prime_dvd_prime_iff_eq hq (hfs y hy)).1 (hq.dvd_of_dvd_pow hqx)
    have := h5 y hy
    rw [← hqy] at this
    intro h0
    exact this ((hpow _ (lt_of_le_of_lt (Nat.div_le_self _ _) (by omega))).2 h0)
  refine ⟨lucas_primality p a h4' h5', ?_⟩
  have := orderOf_eq_of_pow_and_pow_div_prime (Nat.sub_pos_of_lt h1) h4' h5'
  rw [← this]
  exact IsPrimitiveRoot.orderOf _

theorem pratt_spec {p a : Nat} {fs : List (Nat × Nat)} (h : pratt p a fs = true) (hfs : ∀ q ∈ fs, q.1.Prime) :
    p.Prime ∧ IsPrimitiveRoot (a : ZMod p) (p - 1) := prattOf_spec h hfs

/-- A certificate of a prime. -/
theorem prime_of_pratt {p : Nat} (a : Nat) (fs : List (Nat × Nat)) (h : pratt p a fs = true) (hfs : ∀ q ∈ fs, q.1.Prime) : p.Prime :=
  (pratt_spec h hfs).1

/-- A primitive root of a prime field generates its multiplicative group. -/
theorem generates_of_primitive {p : Nat} [Fact p.Prime] {a : ZMod p} (h : IsPrimitiveRoot a (p - 1)) (x : ZMod p) (hx : x ≠ 0) :
    ∃ k : Nat, a ^ k = x := by
  have : NeZero (p - 1) := ⟨(Nat.sub_pos_of_lt (Fact.out (p := p.Prime)).one_lt).ne'⟩
  obtain ⟨i, -, hi⟩ := h.eq_pow_of_pow_eq_one (ZMod.pow_card_sub_one_eq_one hx)
  exact ⟨i, hi⟩

end ZkSaas
