import Verif.Model.Cost
import Verif.Lemmas.Fft
import Verif.Properties.Dfft

/-!
# C104: the multiplications of the distributed transform
-/

namespace ZkSaas.Properties

open Spec Finset

variable {F : Type} [Field F]

theorem counts_pure {α : Type} (a : α) : CountsAs (Pure.pure a) (.ok a) 0 := fun _ => rfl

theorem counts_lift {α : Type} (f : Res α) : CountsAs (f : Counted α) f 0 := fun c => by
  cases f <;> rfl

theorem counts_mul (x y : F) : CountsAs (mulC x y) (.ok (x * y)) 1 := fun _ => rfl

theorem counts_bind {α β : Type} {x : Counted α} {f : Res α} {M : Nat} (h : CountsAs x f M) {g : α → Counted β} {k : α → Res β} {N : Nat}
    (hg : ∀ a, CountsAs (g a) (k a) N) : CountsAs (x >>= g) (f >>= k) (M + N) := fun c => by
  rw [StateT.run_bind, h c]
  cases f with
  | error e => rfl
  | ok a => exact (hg a (c + M)).trans (by rw [Nat.add_assoc]; rfl)

theorem counts_cast {α : Type} {x : Counted α} {f : Res α} {M N : Nat} (h : CountsAs x f M) (e : M = N) : CountsAs x f N := e ▸ h

theorem counts_foldlM {σ : Type} {body : Nat → σ → Counted σ} {f : Nat → σ → Res σ} {N : Nat → Nat} (h : ∀ i s, CountsAs (body i s) (f i s) (N i)) :
    ∀ (l : List Nat) (s : σ), CountsAs (l.foldlM (fun s i => body i s) s) (l.foldlM (fun s i => f i s) s) (l.map N).sum
  | [], s => counts_pure s
  | i :: l, s => by
    rw [List.foldlM_cons, List.foldlM_cons, List.map_cons, List.sum_cons]
    exact counts_bind (h i s) fun s => counts_foldlM h l s

theorem sum_range_list (N : Nat → Nat) (n : Nat) : ((List.range n).map N).sum = ∑ i ∈ range n, N i := by
  induction n with
  | zero => rfl
  | succ n ih => rw [List.range_succ, List.map_append, List.sum_append, ih, sum_range_succ]; simp

theorem counts_forUp {σ : Type} {body : Nat → σ → Counted σ} {f : Nat → σ → Res σ} {N : Nat → Nat} (h : ∀ i s, CountsAs (body i s) (f i s) (N i))
    (n : Nat) (s : σ) : CountsAs (forUpC n body s) (forUp n f s) (∑ i ∈ range n, N i) :=
  counts_cast (counts_foldlM h (List.range n) s) (sum_range_list N n)

theorem counts_forDown {σ : Type} {body : Nat → σ → Counted σ} {f : Nat → σ → Res σ} {N : Nat → Nat} (h : ∀ i s, CountsAs (body i s) (f i s) (N i))
    (n : Nat) (s : σ) : CountsAs (forDownC n body s) (forDown n f s) (∑ i ∈ range n, N i) :=
  counts_cast (counts_foldlM h (List.range n).reverse s) (by rw [List.map_reverse, List.sum_reverse, sum_range_list])

/-- **C104** The multiplications of `fft1_in_place`, whatever the input. -/
theorem C104_fft1_any (pp : PSS F) (px : List F) (gen : F) : CountsAs (pp.fft1InPlaceC px gen) (pp.fft1InPlace px gen)
    (∑ i ∈ range (log2 (px.length * pp.l) - log2 pp.l), px.length * pp.l / 2 ^ (log2 pp.l + 1 + i) * (2 ^ (log2 pp.l + i) / pp.l + 1)) := by
  refine counts_forDown (fun i px' => ?_) _ _
  refine counts_cast (counts_bind (counts_forUp (N := fun _ => 2 ^ (log2 pp.l + i) / pp.l + 1) (fun k st => ?_) _ _) fun st => counts_pure _)
    (by rw [sum_const, card_range, smul_eq_mul]; rfl)
  refine counts_cast (counts_bind (counts_forUp (N := fun _ => 1) (fun j px => ?_) _ _) fun px => counts_bind (counts_mul _ _) fun _ => counts_pure _)
    (by rw [sum_const, card_range, smul_eq_mul, mul_one, show log2 pp.l + 1 + i - 1 = log2 pp.l + i by omega])
  exact counts_bind (counts_lift _) fun x => counts_bind (counts_lift _) fun y => counts_bind (counts_mul _ _) fun y => counts_bind (counts_lift _) fun px =>
    counts_lift _

/-- **C104** The multiplications of `fft2_in_place`, whatever the input. -/
theorem C104_fft2_any (pp : PSS F) (s1 : List F) (gen : F) : CountsAs (pp.fft2InPlaceC s1 gen) (pp.fft2InPlace s1 gen)
    (∑ i ∈ range (log2 pp.l), s1.length / 2 ^ (i + 1) * (2 ^ i + 1)) := by
  refine counts_cast (counts_bind (counts_forDown (N := fun i => s1.length / 2 ^ (i + 1) * (2 ^ i + 1)) (fun i st => ?_) _ _) fun st => counts_lift _) rfl
  refine counts_cast (counts_bind (counts_forUp (N := fun _ => 2 ^ i + 1) (fun k st => ?_) _ _) fun st => counts_pure _)
    (by rw [sum_const, card_range, smul_eq_mul]; rfl)
  refine counts_cast (counts_bind (counts_forUp (N := fun _ => 1) (fun j px => ?_) _ _) fun px => counts_bind (counts_mul _ _) fun _ => counts_pure _)
    (by rw [sum_const, card_range, smul_eq_mul, mul_one]; rfl)
  exact counts_bind (counts_lift _) fun x => counts_bind (counts_lift _) fun y => counts_bind (counts_mul _ _) fun y => counts_bind (counts_lift _) fun px =>
    counts_lift _

theorem sum_pow_down (n : Nat) (f : Nat → Nat) (h : ∀ i < n, f i = 2 ^ (n - 1 - i)) : ∑ i ∈ range n, f i = 2 ^ n - 1 := by
  rw [sum_congr rfl fun i hi => h i (mem_range.1 hi), sum_range_reflect (fun i => 2 ^ i), Nat.geomSum_eq (le_refl 2)]
  simp

/-- **C104** A server's half of a transform over a domain of `l·2^a` points: `a·2^(a-1)` multiplications in butterflies and `2^a - 1` for the factors. -/
theorem C104_fft1 (pp : PSS F) {a b : Nat} (hl : pp.l = 2 ^ b) (px : List F) (hpx : px.length = 2 ^ a) (gen : F) :
    CountsAs (pp.fft1InPlaceC px gen) (pp.fft1InPlace px gen) (a * 2 ^ (a - 1) + (2 ^ a - 1)) := by
  refine counts_cast (C104_fft1_any pp px gen) ?_
  have e1 : log2 (2 ^ a * 2 ^ b) = a + b := by rw [← pow_add]; exact clog_two_pow _
  have e2 : log2 (2 ^ b) = b := clog_two_pow _
  rw [hl, hpx, e1, e2, Nat.add_sub_cancel]
  rw [sum_congr rfl (g := fun i => 2 ^ (a - 1) + 2 ^ (a - 1 - i)) fun i hi => ?_, sum_add_distrib, sum_const, card_range, smul_eq_mul,
    sum_pow_down a _ fun i _ => rfl]
  have hi := mem_range.1 hi
  rw [← pow_add, Nat.pow_div (by omega) (by norm_num), Nat.pow_div (by omega) (by norm_num), mul_add, ← pow_add, mul_one]
  congr 2 <;> omega

/-- **C104** The king's half: `b·2^(a+b-1)` multiplications in butterflies and `2^(a+b) - 2^a` for the factors. -/
theorem C104_fft2 (pp : PSS F) {a b : Nat} (hl : pp.l = 2 ^ b) (s1 : List F) (hs1 : s1.length = 2 ^ (a + b)) (gen : F) :
    CountsAs (pp.fft2InPlaceC s1 gen) (pp.fft2InPlace s1 gen) (b * 2 ^ (a + b - 1) + (2 ^ (a + b) - 2 ^ a)) := by
  refine counts_cast (C104_fft2_any pp s1 gen) ?_
  have e2 : log2 (2 ^ b) = b := clog_two_pow _
  rw [hl, hs1, e2]
  rw [sum_congr rfl (g := fun i => 2 ^ (a + b - 1) + 2 ^ a * 2 ^ (b - 1 - i)) fun i hi => ?_, sum_add_distrib, sum_const, card_range, smul_eq_mul,
    ← mul_sum, sum_pow_down b _ fun i _ => rfl, Nat.mul_sub, mul_one, ← pow_add]
  have hi := mem_range.1 hi
  rw [Nat.pow_div (by omega) (by norm_num), mul_add, ← pow_add, ← pow_add, mul_one]
  congr 2 <;> omega

/-- **C104** The multiplications by the inverse of the size of the domain in `d_ifft`: one for every entry. -/
theorem C104_scale (px : List F) (c : F) : CountsAs (scaleC px c) (.ok (px.map (· * c))) px.length := by
  induction px with
  | nil => exact counts_pure _
  | cons x px ih =>
    rw [scaleC, List.mapM_cons]
    exact counts_cast (counts_bind (counts_mul x c) fun y => counts_bind ih fun ys => counts_pure (y :: ys)) (by simp; omega)

/-- **C104** What the split costs: the halves of `l` servers and the king's take together as many multiplications in butterflies as a transform by one
machine, `(a+b)·2^(a+b-1)`, and `(2^a - 1)·(2^b - 1)` more for the factors. -/
theorem C104_split (pp pp1 : PSS F) {a b : Nat} (hl : pp.l = 2 ^ b) (hl1 : pp1.l = 1) (gen : F) :
    ∃ S K W, (∀ px : List F, px.length = 2 ^ a → CountsAs (pp.fft1InPlaceC px gen) (pp.fft1InPlace px gen) S) ∧
      (∀ s1 : List F, s1.length = 2 ^ (a + b) → CountsAs (pp.fft2InPlaceC s1 gen) (pp.fft2InPlace s1 gen) K) ∧
      (∀ px : List F, px.length = 2 ^ (a + b) → CountsAs (pp1.fft1InPlaceC px gen) (pp1.fft1InPlace px gen) W) ∧
      2 ^ b * S + K = W + (2 ^ a - 1) * (2 ^ b - 1) ∧ W = (a + b) * 2 ^ (a + b - 1) + (2 ^ (a + b) - 1) := by
  refine ⟨_, _, _, fun px h => C104_fft1 pp hl px h gen, fun s1 h => C104_fft2 pp hl s1 h gen,
    fun px h => C104_fft1 pp1 (b := 0) hl1 px h gen, ?_, rfl⟩
  have e : 2 ^ b * (a * 2 ^ (a - 1)) = a * 2 ^ (a + b - 1) := by
    rcases a with _ | a
    · simp
    · rw [show a + 1 + b - 1 = b + (a + 1 - 1) by omega, pow_add]; ring
  rw [mul_add, e, add_mul, pow_add 2 a b]
  obtain ⟨x, hx⟩ : ∃ x, 2 ^ a = x + 1 := ⟨2 ^ a - 1, (Nat.sub_add_cancel Nat.one_le_two_pow).symm⟩
  obtain ⟨y, hy⟩ : ∃ y, 2 ^ b = y + 1 := ⟨2 ^ b - 1, (Nat.sub_add_cancel Nat.one_le_two_pow).symm⟩
  rw [hx, hy, show (x + 1) * (y + 1) - (x + 1) = (x + 1) * y by rw [mul_add, mul_one, Nat.add_sub_cancel],
    show (x + 1) * (y + 1) - 1 = x * y + x + y by rw [show (x + 1) * (y + 1) = x * y + x + y + 1 by ring]; rfl]
  simp only [Nat.add_sub_cancel]
  ring

/-! ### Examples -/

/-- Example for C104: shares of a domain of eight points, packed in pairs: a server's half takes 7 multiplications, the king's 8. -/
example (gen : ZMod 17) : (pp17.fft1InPlaceC [3, 5, 7, 9] gen).run 100 = (pp17.fft1InPlace [3, 5, 7, 9] gen).map fun r => (r, 107) :=
  C104_fft1 pp17 (a := 2) (b := 1) rfl [3, 5, 7, 9] rfl gen 100

example (gen : ZMod 17) : (pp17.fft2InPlaceC [1, 2, 3, 4, 5, 6, 7, 8] gen).run 0 = (pp17.fft2InPlace [1, 2, 3, 4, 5, 6, 7, 8] gen).map fun r => (r, 8) :=
  C104_fft2 pp17 (a := 2) (b := 1) rfl [1, 2, 3, 4, 5, 6, 7, 8] rfl gen 0

/-- The counter counts: on one machine the same transform takes 12 multiplications in butterflies and 7 for the factors. -/
example : (({ pp17 with l := 1 } : PSS (ZMod 17)).fft1InPlaceC [1, 2, 3, 4, 5, 6, 7, 8] 2).run 0 =
    (({ pp17 with l := 1 } : PSS (ZMod 17)).fft1InPlace [1, 2, 3, 4, 5, 6, 7, 8] 2).map fun r => (r, 19) :=
  C104_fft1 _ (a := 3) (b := 0) rfl _ rfl 2 0

example : 2 ^ 1 * 7 + 8 = 19 + (2 ^ 2 - 1) * (2 ^ 1 - 1) := by norm_num

end ZkSaas.Properties
