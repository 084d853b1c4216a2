import Mathlib.AlgebraicGeometry.EllipticCurve.Affine.Point
import Mathlib.Algebra.QuadraticAlgebra.Basic
import Mathlib.Tactic.LinearCombination
import Mathlib.Tactic.FieldSimp
import Mathlib.NumberTheory.LegendreSymbol.Basic
import Verif.Lemmas.Pratt

/-!
# Multiples of points on curves `y² = x³ + b`, computed with numbers
-/

namespace ZkSaas

open WeierstrassCurve

/-- The curve `y² = x³ + b`. -/
abbrev shortCurve {K : Type} [Field K] (b : K) : Affine K := ⟨0, 0, 0, 0, b⟩

/-- Arithmetic of a field on codes of its elements. -/
structure FieldImpl (C K : Type) [DecidableEq C] [Field K] where
  val : C → K
  ok : C → Prop
  inj : ∀ {a b : C}, ok a → ok b → val a = val b → a = b
  zero : C
  add : C → C → C
  sub : C → C → C
  mul : C → C → C
  inv : C → C
  zero_ok : ok zero
  val_zero : val zero = 0
  add_ok : ∀ a b, ok (add a b)
  val_add : ∀ a b, val (add a b) = val a + val b
  sub_ok : ∀ a b, ok (sub a b)
  val_sub : ∀ a b, val (sub a b) = val a - val b
  val_mul : ∀ a b, val (mul a b) = val a * val b
  val_inv : ∀ a, val (inv a) = (val a)⁻¹

namespace FieldImpl

variable {C K : Type} [DecidableEq C] [Field K] (I : FieldImpl C K)

/-- The third point on the line of slope `t` through a point with coordinates `x₁, y₁` and one with `x₂`, reflected. -/
def third (x₁ y₁ x₂ t : C) : C × C :=
  let x := I.sub (I.sub (I.mul t t) x₁) x₂
  (x, I.sub (I.mul t (I.sub x₁ x)) y₁)

/-- The sum of two points; `none` is the point at infinity. -/
def addP : Option (C × C) → Option (C × C) → Option (C × C)
  | none, q => q
  | p, none => p
  | some (x₁, y₁), some (x₂, y₂) =>
    if x₁ = x₂ then
      if I.add y₁ y₂ = I.zero then none
      else some (I.third x₁ y₁ x₂ (I.mul (I.add (I.add (I.mul x₁ x₁) (I.mul x₁ x₁)) (I.mul x₁ x₁)) (I.inv (I.add y₁ y₁))))
    else some (I.third x₁ y₁ x₂ (I.mul (I.sub y₁ y₂) (I.inv (I.sub x₁ x₂))))

/-- `n` times a point, for `n < 2 ^ f`. -/
def mulP : Nat → Nat → Option (C × C) → Option (C × C)
  | 0, _, _ => none
  | f + 1, n, p => if n % 2 = 1 then I.addP p (mulP f (n / 2) (I.addP p p)) else mulP f (n / 2) (I.addP p p)

/-- `p` is the code of the point `P`. -/
def Codes {b : K} (p : Option (C × C)) (P : (shortCurve b).Point) : Prop :=
  match p with
  | none => P = 0
  | some (x, y) => I.ok x ∧ I.ok y ∧ ∃ h, P = .some (I.val x) (I.val y) h

variable {I} [DecidableEq K] {b : K}

theorem Codes.third {x₁ y₁ x₂ y₂ t : C} {h₁ : (shortCurve b).Nonsingular (I.val x₁) (I.val y₁)}
    {h₂ : (shortCurve b).Nonsingular (I.val x₂) (I.val y₂)}
    (hxy : ¬ (I.val x₁ = I.val x₂ ∧ I.val y₁ = (shortCurve b).negY (I.val x₂) (I.val y₂)))
    (ht : I.val t = (shortCurve b).slope (I.val x₁) (I.val x₂) (I.val y₁) (I.val y₂)) :
    I.Codes (some (I.third x₁ y₁ x₂ t)) (Affine.Point.some _ _ h₁ + Affine.Point.some _ _ h₂) := by
  rw [Affine.Point.add_some hxy]
  have hx : I.val (I.third x₁ y₁ x₂ t).1 = (shortCurve b).addX (I.val x₁) (I.val x₂)
      ((shortCurve b).slope (I.val x₁) (I.val x₂) (I.val y₁) (I.val y₂)) := by
    simp only [FieldImpl.third, I.val_sub, I.val_mul, ht, Affine.addX]
    ring
  have hy : I.val (I.third x₁ y₁ x₂ t).2 = (shortCurve b).addY (I.val x₁) (I.val x₂) (I.val y₁)
      ((shortCurve b).slope (I.val x₁) (I.val x₂) (I.val y₁) (I.val y₂)) := by
    rw [Affine.addY, Affine.negAddY, Affine.negY, ← hx]
    simp only [FieldImpl.third, I.val_sub, I.val_mul, ht]
    ring
  have key : ∀ (x y x' y' : K) (h : (shortCurve b).Nonsingular x' y'), x = x' → y = y' →
      ∃ h', Affine.Point.some x' y' h = .some x y h' := by
    rintro _ _ _ _ h rfl rfl
    exact ⟨h, rfl⟩
  exact ⟨I.sub_ok _ _, I.sub_ok _ _, key _ _ _ _ _ hx hy⟩

theorem Codes.add {p q : Option (C × C)} {P Q : (shortCurve b).Point} (hp : I.Codes p P) (hq : I.Codes q Q) :
    I.Codes (I.addP p q) (P + Q) := by
  match p, q with
  | none, q =>
    obtain rfl : P = 0 := hp
    rw [zero_add]
    exact hq
  | some (x, y), none =>
    obtain rfl : Q = 0 := hq
    rw [add_zero]
    exact hp
  | some (x₁, y₁), some (x₂, y₂) =>
    obtain ⟨ox₁, oy₁, h₁, rfl⟩ := hp
    obtain ⟨ox₂, oy₂, h₂, rfl⟩ := hq
    have hn : ∀ x y : K, (shortCurve b).negY x y = -y := fun x y => by simp [Affine.negY]
    simp only [addP]
    split_ifs with hx hy
    · subst hx
      have : I.val y₁ = (shortCurve b).negY (I.val x₁) (I.val y₂) := by
        rw [hn]
        have := congrArg I.val hy
        rw [I.val_add, I.val_zero] at this
        linear_combination this
      exact Affine.Point.add_of_Y_eq rfl this
    · subst hx
      have hne : I.val y₁ ≠ (shortCurve b).negY (I.val x₁) (I.val y₂) := by
        rw [hn]
        intro h
        exact hy (I.inj (I.add_ok _ _) I.zero_ok (by rw [I.val_add, I.val_zero, h]; ring))
      have hye : I.val y₁ = I.val y₂ := by
        have := Affine.Y_eq_of_X_eq h₁.1 h₂.1 rfl
        exact this.resolve_right hne
      refine Codes.third (fun h => hne h.2) ?_
      rw [Affine.slope_of_Y_ne rfl hne, hn]
      simp only [I.val_mul, I.val_add, I.val_inv, div_eq_mul_inv]
      ring_nf
    · have hne : I.val x₁ ≠ I.val x₂ := fun h => hx (I.inj ox₁ ox₂ h)
      refine Codes.third (fun h => hne h.1) ?_
      rw [Affine.slope_of_X_ne hne]
      simp only [I.val_mul, I.val_sub, I.val_inv, div_eq_mul_inv]

theorem Codes.mul : ∀ (f n : Nat) {p : Option (C × C)} {P : (shortCurve b).Point}, n < 2 ^ f → I.Codes p P → I.Codes (I.mulP f n p) (n • P)
  | 0, n, p, P, hn, _ => by
    obtain rfl : n = 0 := by simpa using hn
    exact zero_nsmul P
  | f + 1, n, p, P, hn, hp => by
    have h := Codes.mul f (n / 2) (p := I.addP p p) (P := P + P) (by rw [pow_succ] at hn; omega) (hp.add hp)
    rw [← two_nsmul, ← mul_nsmul] at h
    rw [mulP]
    split
    · next h1 =>
      have e : n • P = P + (2 * (n / 2)) • P := by rw [← succ_nsmul']; congr 1; omega
      rw [e]
      exact hp.add h
    · next h1 => rwa [show 2 * (n / 2) = n by omega] at h

/-- The computation reaches the point at infinity: the order of the point divides `n`. -/
theorem Codes.nsmul_eq_zero {f n : Nat} {p : Option (C × C)} {P : (shortCurve b).Point} (hp : I.Codes p P) (hn : n < 2 ^ f)
    (h : I.mulP f n p = none) : n • P = 0 := by
  have := hp.mul f n hn
  rwa [h] at this

/-- A point on the curve from a computation with codes. -/
theorem nonsingular {x y c : C} (hx : I.ok x) (hy : I.ok y) (h : I.mul y y = I.add (I.mul (I.mul x x) x) c)
    (h0 : I.add y y ≠ I.zero) : ∃ hn : (shortCurve (I.val c)).Nonsingular (I.val x) (I.val y), I.Codes (some (x, y)) (Affine.Point.some _ _ hn) := by
  have hn : (shortCurve (I.val c)).Nonsingular (I.val x) (I.val y) := by
    rw [Affine.nonsingular_iff, Affine.equation_iff]
    refine ⟨?_, .inr ?_⟩
    · have := congrArg I.val h
      simp only [I.val_mul, I.val_add] at this
      linear_combination this
    · intro he
      refine h0 (I.inj (I.add_ok _ _) I.zero_ok ?_)
      rw [I.val_add, I.val_zero]
      linear_combination he
  exact ⟨hn, hx, hy, hn, rfl⟩

end FieldImpl

/-! ### Prime fields -/

/-- Arithmetic modulo a prime of at most `f` bits on numbers. -/
def primeImpl (f p : Nat) [Fact p.Prime] (h2 : 2 < p) (hp : p < 2 ^ f) : FieldImpl Nat (ZMod p) where
  val a := (a : ZMod p)
  ok a := a < p
  inj {a b} ha hb h := by
    have := (ZMod.natCast_eq_natCast_iff' a b p).1 h
    rwa [Nat.mod_eq_of_lt ha, Nat.mod_eq_of_lt hb] at this
  zero := 0
  add a b := (a + b) % p
  sub a b := (a + (p - b % p)) % p
  mul a b := a * b % p
  inv a := powMod p f a (p - 2)
  zero_ok := (Fact.out : p.Prime).pos
  val_zero := Nat.cast_zero
  add_ok a b := Nat.mod_lt _ (Fact.out : p.Prime).pos
  val_add a b := by rw [ZMod.natCast_mod, Nat.cast_add]
  sub_ok a b := Nat.mod_lt _ (Fact.out : p.Prime).pos
  val_sub a b := by
    rw [ZMod.natCast_mod, Nat.cast_add, Nat.cast_sub (Nat.mod_lt _ (Fact.out : p.Prime).pos).le, ZMod.natCast_self, ZMod.natCast_mod, zero_sub,
      sub_eq_add_neg]
  val_mul a b := by rw [ZMod.natCast_mod, Nat.cast_mul]
  val_inv a := by
    rw [powMod_eq p f a _ (by omega), ZMod.natCast_mod, Nat.cast_pow]
    by_cases h : (a : ZMod p) = 0
    · rw [h, inv_zero]
      exact zero_pow (by omega)
    · have := ZMod.pow_card_sub_one_eq_one h
      refine eq_inv_of_mul_eq_one_left ?_
      rw [← pow_succ, ← this]
      congr 1
      omega


/-- Arithmetic of `F_p[u]/(u² - d)` on pairs of numbers; `dn` is the number `-d`. -/
def quadImpl (f p : Nat) [Fact p.Prime] (d : ZMod p) (dn : Nat) (hd : (dn : ZMod p) = -d) [Fact (∀ r : ZMod p, r ^ 2 ≠ d + 0 * r)]
    (h2 : 2 < p) (hp : p < 2 ^ f) : FieldImpl (Nat × Nat) (QuadraticAlgebra (ZMod p) d 0) :=
  let I := primeImpl f p h2 hp
  have hdn : I.val dn = -d := hd
  { val := fun a => ⟨I.val a.1, I.val a.2⟩
    ok := fun a => I.ok a.1 ∧ I.ok a.2
    inj := fun {a b} ha hb h => by
      rw [QuadraticAlgebra.mk.injEq] at h
      exact Prod.ext (I.inj ha.1 hb.1 h.1) (I.inj ha.2 hb.2 h.2)
    zero := (I.zero, I.zero)
    add := fun a b => (I.add a.1 b.1, I.add a.2 b.2)
    sub := fun a b => (I.sub a.1 b.1, I.sub a.2 b.2)
    mul := fun a b => (I.sub (I.mul a.1 b.1) (I.mul dn (I.mul a.2 b.2)), I.add (I.mul a.1 b.2) (I.mul a.2 b.1))
    inv := fun a =>
      let m := I.inv (I.add (I.mul a.1 a.1) (I.mul dn (I.mul a.2 a.2)))
      (I.mul a.1 m, I.sub I.zero (I.mul a.2 m))
    zero_ok := ⟨I.zero_ok, I.zero_ok⟩
    val_zero := by rw [I.val_zero]; rfl
    add_ok := fun a b => ⟨I.add_ok _ _, I.add_ok _ _⟩
    val_add := fun a b => by simp only [I.val_add]; rfl
    sub_ok := fun a b => ⟨I.sub_ok _ _, I.sub_ok _ _⟩
    val_sub := fun a b => by simp only [I.val_sub]; rfl
    val_mul := fun a b => by
      ext <;> simp only [I.val_sub, I.val_add, I.val_mul, hdn, QuadraticAlgebra.re_mul, QuadraticAlgebra.im_mul] <;> ring
    val_inv := fun a => by
      simp only [I.val_mul, I.val_inv, I.val_add, I.val_sub, I.val_zero, hdn]
      by_cases h : (⟨I.val a.1, I.val a.2⟩ : QuadraticAlgebra (ZMod p) d 0) = 0
      · have h1 : I.val a.1 = 0 := congrArg QuadraticAlgebra.re h
        have h2 : I.val a.2 = 0 := congrArg QuadraticAlgebra.im h
        rw [h, inv_zero, h1, h2]
        ext <;> simp
      · have hn : I.val a.1 * I.val a.1 + -d * (I.val a.2 * I.val a.2) ≠ 0 := by
          intro h0
          by_cases h2 : I.val a.2 = 0
          · rw [h2, mul_zero, mul_zero, add_zero, mul_self_eq_zero] at h0
            exact h (by ext <;> simp [h0, h2])
          · refine (Fact.out : ∀ r : ZMod p, r ^ 2 ≠ d + 0 * r) (I.val a.1 / I.val a.2) ?_
            field_simp
            linear_combination h0
        refine eq_inv_of_mul_eq_one_left ?_
        have := mul_inv_cancel₀ hn
        ext
        · simp only [QuadraticAlgebra.re_mul, QuadraticAlgebra.re_one]
          linear_combination this
        · simp only [QuadraticAlgebra.im_mul, QuadraticAlgebra.im_one]
          ring }

end ZkSaas
