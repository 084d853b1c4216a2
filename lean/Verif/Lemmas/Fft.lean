import Verif.Lemmas.BitRev
import Verif.Lemmas.Pack

/-! The butterflies of `fft1_in_place` and `fft2_in_place`. -/

set_option linter.unusedSectionVars false

namespace ZkSaas

open Finset Spec

variable {F : Type} [Field F] [DecidableEq F]

/-- Butterfly value: block `j` of size `2^s` of the vector `v`, taken as bit-reversed coefficients, at `x`. -/
def bp (v : Nat → F) : Nat → Nat → F → F
  | 0, j, _ => v j
  | s + 1, j, x => bp v s (2 * j) (x ^ 2) + x * bp v s (2 * j + 1) (x ^ 2)

theorem sum_range_two_mul (n : Nat) (f : Nat → F) :
    ∑ u ∈ range (2 * n), f u = ∑ w ∈ range n, (f (2 * w) + f (2 * w + 1)) := by
  induction n with
  | zero => simp
  | succ n ih =>
    rw [show 2 * (n + 1) = 2 * n + 1 + 1 by ring, sum_range_succ, sum_range_succ, ih, sum_range_succ]
    ring

theorem bp_eq (v : Nat → F) (s j : Nat) (x : F) :
    bp v s j x = ∑ u ∈ range (2 ^ s), x ^ u * v (j * 2 ^ s + bitRev s u) := by
  induction s generalizing j x with
  | zero => simp [bp, bitRev]
  | succ s ih =>
    rw [bp, ih, ih, show 2 ^ (s + 1) = 2 * 2 ^ s by rw [pow_succ'], sum_range_two_mul, mul_sum, ← sum_add_distrib]
    apply sum_congr rfl
    intro w _
    have e1 : bitRev (s + 1) (2 * w) = bitRev s w := by
      rw [bitRev, show 2 * w % 2 = 0 by omega, show 2 * w / 2 = w by omega]; simp
    have e2 : bitRev (s + 1) (2 * w + 1) = 2 ^ s + bitRev s w := by
      rw [bitRev, show (2 * w + 1) % 2 = 1 by omega, show (2 * w + 1) / 2 = w by omega]; simp
    rw [e1, e2]
    have h1 : 2 * j * 2 ^ s + bitRev s w = j * (2 * 2 ^ s) + bitRev s w := by ring
    have h2 : (2 * j + 1) * 2 ^ s + bitRev s w = j * (2 * 2 ^ s) + (2 ^ s + bitRev s w) := by ring
    rw [h1, h2]
    ring

/-- `bp` at `-x` after a stage. -/
theorem bp_neg (v : Nat → F) (s j : Nat) (x : F) :
    bp v (s + 1) j (-x) = bp v s (2 * j) (x ^ 2) - x * bp v s (2 * j + 1) (x ^ 2) := by
  rw [bp, neg_sq]; ring

theorem log2_two_pow (k : Nat) : log2 (2 ^ k) = k := Nat.clog_pow 2 k (by norm_num)

/-- Index arithmetic for blocks. -/
theorem block_lt {j s k a : Nat} (hj : j < 2 ^ (a - s)) (hk : k < 2 ^ s) (hs : s ≤ a) :
    j * 2 ^ s + k < 2 ^ a := by
  have : (j + 1) * 2 ^ s ≤ 2 ^ (a - s) * 2 ^ s := Nat.mul_le_mul_right _ hj
  rw [← pow_add, Nat.sub_add_cancel hs, Nat.add_mul] at this
  omega

theorem block_inj {q j j' k k' : Nat} (hk : k < q) (hk' : k' < q) (h : j * q + k = j' * q + k') :
    j = j' ∧ k = k' := by
  have hq : 0 < q := by omega
  have h1 : (j * q + k) / q = j := by
    rw [Nat.mul_comm, Nat.mul_add_div hq, Nat.div_eq_of_lt hk, Nat.add_zero]
  have h2 : (j' * q + k') / q = j' := by
    rw [Nat.mul_comm, Nat.mul_add_div hq, Nat.div_eq_of_lt hk', Nat.add_zero]
  have : j = j' := by rw [← h1, h, h2]
  subst this
  omega

/-- One butterfly stage of `fft1_in_place`: blocks of size `2^s` are merged to blocks of size `2^(s+1)`. -/
theorem fft1_stage {a s : Nat} (hs : s < a) (v : Nat → F) (w w' : F) (hw : w' ^ 2 = w) (hneg : w' ^ 2 ^ s = -1)
    (J : Nat) (hJ : J = 2 ^ (a - s - 1)) (px : List F) (hl : px.length = 2 ^ a)
    (hp : ∀ j < 2 ^ (a - s), ∀ k < 2 ^ s, px.getD (j * 2 ^ s + k) 0 = bp v s j (w ^ (k + 1))) :
    ∃ px' f, forUp (2 ^ s) (fun k (st : List F × F) => do
      let px ← forUp J (fun j px => do
        let x ← rd px (2 * j * 2 ^ s + k)
        let y ← rd px ((2 * j + 1) * 2 ^ s + k)
        let y := y * st.2
        let px ← wr px (j * (2 * 2 ^ s) + k) (x + y)
        wr px (j * (2 * 2 ^ s) + k + 2 ^ s) (x - y)) st.1
      pure (px, st.2 * w')) (px, w') = .ok (px', f) ∧ px'.length = 2 ^ a ∧
      ∀ j < 2 ^ (a - s - 1), ∀ k < 2 ^ (s + 1), px'.getD (j * 2 ^ (s + 1) + k) 0 = bp v (s + 1) j (w' ^ (k + 1)) := by
  have hJ2 : 2 ^ (a - s) = 2 * J := by
    rw [hJ, ← pow_succ']; congr 1; omega
  have hpow : 2 ^ (s + 1) = 2 * 2 ^ s := by rw [pow_succ']
  -- one pair of cells
  have hidx : ∀ j < J, ∀ k < 2 ^ s, 2 * j * 2 ^ s + k < 2 ^ a ∧ (2 * j + 1) * 2 ^ s + k < 2 ^ a := by
    intro j hj k hk
    exact ⟨block_lt (by omega) hk hs.le, block_lt (by omega) hk hs.le⟩
  have hi1 : ∀ j k, j * (2 * 2 ^ s) + k = 2 * j * 2 ^ s + k := by intro j k; ring
  have hi2 : ∀ j k, j * (2 * 2 ^ s) + k + 2 ^ s = (2 * j + 1) * 2 ^ s + k := by intro j k; ring
  simp only [hi2]
  simp only [hi1]
  -- value of the cell `j * 2^s + k` once column `k` is done
  let done : Nat → Nat → F := fun j k =>
    if j % 2 = 0 then bp v (s + 1) (j / 2) (w' ^ (k + 1)) else bp v (s + 1) (j / 2) (w' ^ (k + 2 ^ s + 1))
  obtain ⟨⟨px', f⟩, e, h1, _, h3⟩ := forUp_inv (n := 2 ^ s) (s := (px, w'))
    (body := fun k (st : List F × F) => do
      let px ← forUp J (fun j px => do
        let x ← rd px (2 * j * 2 ^ s + k)
        let y ← rd px ((2 * j + 1) * 2 ^ s + k)
        let y := y * st.2
        let px ← wr px (2 * j * 2 ^ s + k) (x + y)
        wr px ((2 * j + 1) * 2 ^ s + k) (x - y)) st.1
      pure (px, st.2 * w'))
    (P := fun k (st : List F × F) => st.1.length = 2 ^ a ∧ st.2 = w' ^ (k + 1) ∧
      ∀ j < 2 ^ (a - s), ∀ k' < 2 ^ s, st.1.getD (j * 2 ^ s + k') 0 =
        if k' < k then done j k' else bp v s j (w ^ (k' + 1)))
    ⟨hl, by simp, fun j hj k' hk' => by rw [if_neg (by omega)]; exact hp j hj k' hk'⟩
    (by
      rintro k hk ⟨px, f⟩ ⟨q1, q2, q3⟩
      simp only at q1 q2 q3 ⊢
      obtain ⟨px2, e2, r1, r2⟩ := forUp_inv (n := J) (s := px)
        (body := fun j px => do
          let x ← rd px (2 * j * 2 ^ s + k)
          let y ← rd px ((2 * j + 1) * 2 ^ s + k)
          let y := y * f
          let px ← wr px (2 * j * 2 ^ s + k) (x + y)
          wr px ((2 * j + 1) * 2 ^ s + k) (x - y))
        (P := fun j (u : List F) => u.length = 2 ^ a ∧
          ∀ j' < 2 ^ (a - s), ∀ k' < 2 ^ s, u.getD (j' * 2 ^ s + k') 0 =
            if k' < k ∨ (k' = k ∧ j' < 2 * j) then done j' k' else bp v s j' (w ^ (k' + 1)))
        ⟨q1, fun j' hj' k' hk' => by
          rw [q3 j' hj' k' hk']
          by_cases h : k' < k
          · rw [if_pos h, if_pos (.inl h)]
          · rw [if_neg h, if_neg (by omega)]⟩
        (by
          rintro j hj u ⟨u1, u2⟩
          obtain ⟨b1, b2⟩ := hidx j hj k hk
          rw [rd_ok (by omega) 0, ok_bind, rd_ok (by omega) 0, ok_bind]
          simp only
          rw [wr_ok (by omega), ok_bind, wr_ok (by rw [List.length_set]; omega)]
          refine ⟨_, rfl, by simpa using u1, ?_⟩
          have x1 := u2 (2 * j) (by omega) k hk
          have x2 := u2 (2 * j + 1) (by omega) k hk
          rw [if_neg (by omega)] at x1 x2
          rw [x1, x2, q2]
          have hwk : w ^ (k + 1) = (w' ^ (k + 1)) ^ 2 := by rw [← hw, ← pow_mul, ← pow_mul, Nat.mul_comm]
          intro j' hj' k' hk'
          rw [getD_set, getD_set, List.length_set]
          by_cases c2 : (2 * j + 1) * 2 ^ s + k = j' * 2 ^ s + k'
          · obtain ⟨rfl, rfl⟩ := block_inj hk hk' c2
            rw [if_pos ⟨rfl, by omega⟩, if_pos (.inr ⟨rfl, by omega⟩)]
            show _ = if (2 * j + 1) % 2 = 0 then _ else _
            rw [if_neg (by omega), show (2 * j + 1) / 2 = j by omega,
              show k + 2 ^ s + 1 = (k + 1) + 2 ^ s by ring, pow_add w' (k + 1) (2 ^ s), hneg, mul_neg_one, bp_neg, hwk]
            ring
          · rw [if_neg (fun h => c2 h.1)]
            by_cases c1 : 2 * j * 2 ^ s + k = j' * 2 ^ s + k'
            · obtain ⟨rfl, rfl⟩ := block_inj hk hk' c1
              rw [if_pos ⟨rfl, by omega⟩, if_pos (.inr ⟨rfl, by omega⟩)]
              show _ = if (2 * j) % 2 = 0 then _ else _
              rw [if_pos (by omega), show 2 * j / 2 = j by omega, bp, hwk]
              ring
            · rw [if_neg (fun h => c1 h.1), u2 j' hj' k' hk']
              have hne1 : ¬ (k' = k ∧ j' = 2 * j) := by rintro ⟨rfl, rfl⟩; exact c1 rfl
              have hne2 : ¬ (k' = k ∧ j' = 2 * j + 1) := by rintro ⟨rfl, rfl⟩; exact c2 rfl
              by_cases h : k' < k ∨ (k' = k ∧ j' < 2 * j)
              · rw [if_pos h, if_pos (by omega)]
              · rw [if_neg h, if_neg (by omega)])
      rw [e2, ok_bind]
      refine ⟨(px2, f * w'), rfl, r1, ?_, ?_⟩
      · show f * w' = _
        rw [q2, pow_succ w' (k + 1)]
      · intro j hj k' hk'
        show px2.getD _ 0 = _
        rw [r2 j hj k' hk']
        by_cases h : k' < k + 1
        · rw [if_pos (by omega), if_pos h]
        · rw [if_neg (by omega), if_neg h])
  refine ⟨px', f, e, h1, ?_⟩
  intro j hj k hk
  rw [← hJ] at hj
  rw [hpow] at hk ⊢
  by_cases hk2 : k < 2 ^ s
  · have := h3 (2 * j) (by omega) k hk2
    rw [if_pos hk2] at this
    rw [hi1]
    rw [this]
    show (if (2 * j) % 2 = 0 then _ else _) = _
    rw [if_pos (by omega), show 2 * j / 2 = j by omega]
  · obtain ⟨k2, rfl⟩ := Nat.exists_eq_add_of_le (Nat.le_of_not_lt hk2)
    have := h3 (2 * j + 1) (by omega) k2 (by omega)
    rw [if_pos (by omega)] at this
    rw [show j * (2 * 2 ^ s) + (2 ^ s + k2) = (2 * j + 1) * 2 ^ s + k2 by ring, this]
    show (if (2 * j + 1) % 2 = 0 then _ else _) = _
    rw [if_neg (by omega), show (2 * j + 1) / 2 = j by omega]
    congr 2
    ring

/-- `fft1_in_place` on a vector of length `2^a` (`l = 2^b`): position `k` of the result is the bit-reversed vector as a
polynomial at `(gen^l)^(k+1)`. -/
theorem PSS.fft1InPlace_eq {pp : PSS F} {a b : Nat} (hlb : pp.l = 2 ^ b) {gen : F}
    (hprim : IsPrimitiveRoot gen (2 ^ (a + b))) (px : List F) (hl : px.length = 2 ^ a) :
    pp.fft1InPlace px gen = .ok ((List.range (2 ^ a)).map fun k =>
      bp (fun i => px.getD i 0) a 0 (gen ^ (2 ^ b * (k + 1)))) := by
  unfold PSS.fft1InPlace
  have hd : px.length * 2 ^ b = 2 ^ (a + b) := by rw [hl, pow_add]
  simp only [hlb, hd, log2_two_pow]
  rw [show a + b - b = a by omega]
  obtain ⟨w, e, h1, h2⟩ := forDown_inv (n := a) (s := px)
    (body := fun i' px => do
      let i := b + 1 + i'
      let polySize := 2 ^ (a + b) / 2 ^ i
      let factorStride := gen ^ 2 ^ (i - 1)
      let (px, _) ← forUp polySize (fun k (st : List F × F) => do
        let px ← forUp (2 ^ (i - 1) / 2 ^ b) (fun j px => do
          let x ← rd px (2 * j * polySize + k)
          let y ← rd px ((2 * j + 1) * polySize + k)
          let y := y * st.2
          let px ← wr px (j * (2 * polySize) + k) (x + y)
          wr px (j * (2 * polySize) + k + polySize) (x - y)) st.1
        pure (px, st.2 * factorStride)) (px, factorStride)
      pure px)
    (P := fun i' (u : List F) => u.length = 2 ^ a ∧ ∀ j < 2 ^ i', ∀ k < 2 ^ (a - i'),
      u.getD (j * 2 ^ (a - i') + k) 0 = bp (fun i => px.getD i 0) (a - i') j ((gen ^ 2 ^ (b + i')) ^ (k + 1)))
    ⟨hl, fun j hj k hk => by
      rw [Nat.sub_self] at hk ⊢
      have : k = 0 := by simpa using hk
      subst this
      simp [bp]⟩
    (by
      rintro i' hi' u ⟨u1, u2⟩
      simp only
      have hps : 2 ^ (a + b) / 2 ^ (b + 1 + i') = 2 ^ (a - (i' + 1)) := by
        rw [Nat.pow_div (by omega) (by norm_num)]; congr 1; omega
      have hpj : 2 ^ (b + 1 + i' - 1) / 2 ^ b = 2 ^ i' := by
        rw [Nat.pow_div (by omega) (by norm_num)]; congr 1; omega
      rw [hps, hpj, show b + 1 + i' - 1 = b + i' by omega]
      obtain ⟨px', f, e, h1, h2⟩ := fft1_stage (a := a) (s := a - (i' + 1)) (by omega)
        (fun i => px.getD i 0) (gen ^ 2 ^ (b + (i' + 1))) (gen ^ 2 ^ (b + i'))
        (by rw [← pow_mul, ← pow_succ, Nat.add_assoc])
        (by
          rw [← pow_mul, ← pow_add]
          have : b + i' + (a - (i' + 1)) = a + b - 1 := by omega
          rw [this]
          have h2 := hprim.pow (n := 2 ^ (a + b)) (a := 2 ^ (a + b - 1)) (b := 2) (by positivity)
            (by rw [← pow_succ]; congr 1; omega)
          exact h2.eq_neg_one_of_two_right)
        (2 ^ i') (by congr 1; omega) u u1
        (by
          intro j hj k hk
          rw [show a - (a - (i' + 1)) = i' + 1 by omega] at hj
          exact u2 j hj k hk)
      rw [e]
      refine ⟨px', rfl, h1, ?_⟩
      intro j hj k hk
      have := h2 j (by rwa [show a - (a - (i' + 1)) - 1 = i' by omega]) k
        (by rwa [show a - (i' + 1) + 1 = a - i' by omega])
      rw [show a - (i' + 1) + 1 = a - i' by omega] at this
      exact this)
  rw [e]
  congr 1
  apply list_ext_getD 0 (by simpa using h1)
  intro k hk
  rw [h1] at hk
  have := h2 0 (by simp) k (by simpa using hk)
  rw [Nat.sub_zero, Nat.zero_mul, Nat.zero_add] at this
  rw [this, getD_map_range, if_pos hk, pow_mul]
  simp

/-- One stage of `fft2_in_place`. -/
theorem fft2_stage {n s i : Nat} (hn : n = s + (i + 1)) (φ : Nat → Nat → F → F)
    (hφ : ∀ j x, φ (s + 1) j x = φ s (2 * j) (x ^ 2) + x * φ s (2 * j + 1) (x ^ 2)) (w w' : F) (hw : w' ^ 2 = w)
    (hneg : w' ^ 2 ^ s = -1) (s1 s2 : List F) (hl1 : s1.length = 2 ^ n) (hl2 : s2.length = 2 ^ n)
    (hp : ∀ k < 2 ^ s, ∀ j < 2 ^ (i + 1), s1.getD (k * 2 ^ (i + 1) + j) 0 = φ s j (w ^ (k + 1))) :
    ∃ s2' f, forUp (2 ^ s) (fun k (st : List F × F) => do
      let s2 ← forUp (2 ^ i) (fun j s2 => do
        let x ← rd s1 (k * 2 ^ (i + 1) + 2 * j)
        let y ← rd s1 (k * 2 ^ (i + 1) + 2 * j + 1)
        let y := y * st.2
        let s2 ← wr s2 (k * 2 ^ i + j) (x + y)
        wr s2 ((k + 2 ^ s) * 2 ^ i + j) (x - y)) st.1
      pure (s2, st.2 * w')) (s2, w') = .ok (s2', f) ∧ s2'.length = 2 ^ n ∧
      ∀ k < 2 ^ (s + 1), ∀ j < 2 ^ i, s2'.getD (k * 2 ^ i + j) 0 = φ (s + 1) j (w' ^ (k + 1)) := by
  have hbig : ∀ k < 2 ^ (s + 1), ∀ j < 2 ^ i, k * 2 ^ i + j < 2 ^ n := by
    intro k hk j hj
    have : (k + 1) * 2 ^ i ≤ 2 ^ (s + 1) * 2 ^ i := Nat.mul_le_mul_right _ hk
    rw [← pow_add, Nat.add_mul, show s + 1 + i = n by omega] at this
    omega
  have hbig1 : ∀ k < 2 ^ s, ∀ j < 2 ^ (i + 1), k * 2 ^ (i + 1) + j < 2 ^ n := by
    intro k hk j hj
    have : (k + 1) * 2 ^ (i + 1) ≤ 2 ^ s * 2 ^ (i + 1) := Nat.mul_le_mul_right _ hk
    rw [← pow_add, Nat.add_mul, ← hn] at this
    omega
  have hs2 : 2 ^ (s + 1) = 2 * 2 ^ s := by rw [pow_succ']
  have hi2 : 2 ^ (i + 1) = 2 * 2 ^ i := by rw [pow_succ']
  obtain ⟨⟨s2', f⟩, e, h1, _, h3⟩ := forUp_inv (n := 2 ^ s) (s := (s2, w'))
    (body := fun k (st : List F × F) => do
      let s2 ← forUp (2 ^ i) (fun j s2 => do
        let x ← rd s1 (k * 2 ^ (i + 1) + 2 * j)
        let y ← rd s1 (k * 2 ^ (i + 1) + 2 * j + 1)
        let y := y * st.2
        let s2 ← wr s2 (k * 2 ^ i + j) (x + y)
        wr s2 ((k + 2 ^ s) * 2 ^ i + j) (x - y)) st.1
      pure (s2, st.2 * w'))
    (P := fun k (st : List F × F) => st.1.length = 2 ^ n ∧ st.2 = w' ^ (k + 1) ∧
      ∀ k' < 2 ^ (s + 1), ∀ j < 2 ^ i, k' % 2 ^ s < k →
        st.1.getD (k' * 2 ^ i + j) 0 = φ (s + 1) j (w' ^ (k' + 1)))
    ⟨hl2, by simp, fun k' _ j _ h => absurd h (by omega)⟩
    (by
      rintro k hk ⟨t, f⟩ ⟨q1, q2, q3⟩
      simp only at q1 q2 q3 ⊢
      obtain ⟨t2, e2, r1, r2⟩ := forUp_inv (n := 2 ^ i) (s := t)
        (body := fun j s2 => do
          let x ← rd s1 (k * 2 ^ (i + 1) + 2 * j)
          let y ← rd s1 (k * 2 ^ (i + 1) + 2 * j + 1)
          let y := y * f
          let s2 ← wr s2 (k * 2 ^ i + j) (x + y)
          wr s2 ((k + 2 ^ s) * 2 ^ i + j) (x - y))
        (P := fun j (u : List F) => u.length = 2 ^ n ∧
          ∀ k' < 2 ^ (s + 1), ∀ j' < 2 ^ i, (k' % 2 ^ s < k ∨ (k' % 2 ^ s = k ∧ j' < j)) →
            u.getD (k' * 2 ^ i + j') 0 = φ (s + 1) j' (w' ^ (k' + 1)))
        ⟨q1, fun k' hk' j' hj' h => q3 k' hk' j' hj' (by omega)⟩
        (by
          rintro j hj u ⟨u1, u2⟩
          have b1 := hbig k (by omega) j hj
          have b2 := hbig (k + 2 ^ s) (by omega) j hj
          have c1 := hbig1 k hk (2 * j) (by omega)
          have c2 := hbig1 k hk (2 * j + 1) (by omega)
          rw [← Nat.add_assoc] at c2
          rw [rd_ok (by omega) 0, ok_bind, rd_ok (by omega) 0, ok_bind]
          simp only
          rw [wr_ok (by omega), ok_bind, wr_ok (by rw [List.length_set]; omega)]
          refine ⟨_, rfl, by simpa using u1, ?_⟩
          have x1 := hp k hk (2 * j) (by omega)
          have x2 := hp k hk (2 * j + 1) (by omega)
          rw [← Nat.add_assoc] at x2
          rw [x1, x2, q2]
          have hwk : w ^ (k + 1) = (w' ^ (k + 1)) ^ 2 := by rw [← hw, ← pow_mul, ← pow_mul, Nat.mul_comm]
          intro k' hk' j' hj' hcase
          rw [getD_set, getD_set, List.length_set]
          by_cases d2 : (k + 2 ^ s) * 2 ^ i + j = k' * 2 ^ i + j'
          · obtain ⟨rfl, rfl⟩ := block_inj hj hj' d2
            rw [if_pos ⟨rfl, by omega⟩, show k + 2 ^ s + 1 = (k + 1) + 2 ^ s by ring, pow_add w' (k + 1) (2 ^ s), hneg,
              mul_neg_one, hφ, neg_sq, hwk]
            ring
          · rw [if_neg (fun h => d2 h.1)]
            by_cases d1 : k * 2 ^ i + j = k' * 2 ^ i + j'
            · obtain ⟨rfl, rfl⟩ := block_inj hj hj' d1
              rw [if_pos ⟨rfl, by omega⟩, hφ, hwk]
              ring
            · rw [if_neg (fun h => d1 h.1)]
              apply u2 k' hk' j' hj'
              rcases hcase with h | ⟨h, h'⟩
              · exact .inl h
              · right
                refine ⟨h, ?_⟩
                have : j' ≠ j := by
                  rintro rfl
                  by_cases hk2 : k' < 2 ^ s
                  · rw [Nat.mod_eq_of_lt hk2] at h
                    subst h; exact d1 rfl
                  · rw [Nat.mod_eq_sub_mod (by omega), Nat.mod_eq_of_lt (by omega)] at h
                    apply d2
                    rw [← h, Nat.sub_add_cancel (by omega)]
                omega)
      rw [e2, ok_bind]
      refine ⟨(t2, f * w'), rfl, r1, ?_, ?_⟩
      · show f * w' = _
        rw [q2, pow_succ w' (k + 1)]
      · intro k' hk' j hj h
        exact r2 k' hk' j hj (by omega))
  exact ⟨s2', f, e, h1, fun k hk j hj => h3 k hk j hj (Nat.mod_lt _ (by positivity))⟩

theorem rotateRight1_ok {T : Type} (v : List T) (d : T) (h : 0 < v.length) :
    rotateRight1 v = .ok ((List.range v.length).map fun k =>
      v.getD (if k = 0 then v.length - 1 else k - 1) d) := by
  unfold rotateRight1
  have hne : v ≠ [] := List.length_pos_iff.1 h
  rw [List.getLast?_eq_some_getLast hne]
  simp only
  congr 1
  apply list_ext_getD d (by simp; omega)
  intro k hk
  have hk : k < v.length := by simp at hk; omega
  rw [getD_map_range, if_pos hk]
  cases k with
  | zero =>
    rw [if_pos rfl, List.getD_cons_zero, List.getLast_eq_getElem, List.getD_eq_getElem]
  | succ k =>
    rw [if_neg (by omega), List.getD_cons_succ, Nat.add_sub_cancel, List.getD_eq_getElem _ _ (by simp; omega),
      List.getD_eq_getElem _ _ (by omega), List.getElem_dropLast]

/-- The loop of `fft2_in_place`, whatever the second buffer holds at first. -/
theorem fft2_loop {a b : Nat} {gen : F}
    (hprim : IsPrimitiveRoot gen (2 ^ (a + b))) (φ : Nat → Nat → F → F)
    (hφ : ∀ s ≥ a, ∀ j x, φ (s + 1) j x = φ s (2 * j) (x ^ 2) + x * φ s (2 * j + 1) (x ^ 2))
    (s1 s2 : List F) (hl : s1.length = 2 ^ (a + b)) (hl2 : s2.length = 2 ^ (a + b))
    (hs : ∀ k < 2 ^ a, ∀ j < 2 ^ b, s1.getD (k * 2 ^ b + j) 0 = φ a j (gen ^ (2 ^ b * (k + 1)))) :
    (do
      let (s1, _) ← forDown b (fun i' (st : List F × List F) => do
        let i := i' + 1
        let s1 := st.1
        let polySize := 2 ^ (a + b) / 2 ^ i
        let factorStride := gen ^ 2 ^ (i - 1)
        let (s2, _) ← forUp polySize (fun k (st : List F × F) => do
          let s2 ← forUp (2 ^ (i - 1)) (fun j s2 => do
            let x ← rd s1 (k * 2 ^ i + 2 * j)
            let y ← rd s1 (k * 2 ^ i + 2 * j + 1)
            let y := y * st.2
            let s2 ← wr s2 (k * 2 ^ (i - 1) + j) (x + y)
            wr s2 ((k + polySize) * 2 ^ (i - 1) + j) (x - y)) st.1
          pure (s2, st.2 * factorStride)) (st.2, factorStride)
        pure (s2, s1)) (s1, s2)
      rotateRight1 s1) = .ok ((List.range (2 ^ (a + b))).map fun k => φ (a + b) 0 (gen ^ k)) := by
  obtain ⟨⟨w, w2⟩, e, h1, _, h2⟩ := forDown_inv (n := b) (s := (s1, s2))
    (body := fun i' (st : List F × List F) => do
      let i := i' + 1
      let s1 := st.1
      let polySize := 2 ^ (a + b) / 2 ^ i
      let factorStride := gen ^ 2 ^ (i - 1)
      let (s2, _) ← forUp polySize (fun k (st : List F × F) => do
        let s2 ← forUp (2 ^ (i - 1)) (fun j s2 => do
          let x ← rd s1 (k * 2 ^ i + 2 * j)
          let y ← rd s1 (k * 2 ^ i + 2 * j + 1)
          let y := y * st.2
          let s2 ← wr s2 (k * 2 ^ (i - 1) + j) (x + y)
          wr s2 ((k + polySize) * 2 ^ (i - 1) + j) (x - y)) st.1
        pure (s2, st.2 * factorStride)) (st.2, factorStride)
      pure (s2, s1))
    (P := fun i' (st : List F × List F) => st.1.length = 2 ^ (a + b) ∧ st.2.length = 2 ^ (a + b) ∧
      ∀ k < 2 ^ (a + b - i'), ∀ j < 2 ^ i',
        st.1.getD (k * 2 ^ i' + j) 0 = φ (a + b - i') j ((gen ^ 2 ^ i') ^ (k + 1)))
    ⟨hl, hl2, fun k hk j hj => by
      rw [show a + b - b = a by omega] at hk ⊢
      rw [hs k hk j hj, pow_mul]⟩
    (by
      rintro i' hi' ⟨t1, t2⟩ ⟨u1, u2, u3⟩
      simp only at u1 u2 u3 ⊢
      have hps : 2 ^ (a + b) / 2 ^ (i' + 1) = 2 ^ (a + b - (i' + 1)) := by
        rw [Nat.pow_div (by omega) (by norm_num)]
      rw [hps, Nat.add_sub_cancel]
      obtain ⟨t', f, e, h1, h2⟩ := fft2_stage (n := a + b) (s := a + b - (i' + 1)) (i := i') (by omega) φ (hφ _ (by omega))
        (gen ^ 2 ^ (i' + 1)) (gen ^ 2 ^ i')
        (by rw [← pow_mul, ← pow_succ])
        (by
          rw [← pow_mul, ← pow_add]
          have : i' + (a + b - (i' + 1)) = a + b - 1 := by omega
          rw [this]
          have h2 := hprim.pow (n := 2 ^ (a + b)) (a := 2 ^ (a + b - 1)) (b := 2) (by positivity)
            (by rw [← pow_succ]; congr 1; omega)
          exact h2.eq_neg_one_of_two_right)
        t1 t2 u1 u2 u3
      rw [e]
      refine ⟨(t', t1), rfl, h1, u1, ?_⟩
      intro k hk j hj
      have := h2 k (by rwa [show a + b - (i' + 1) + 1 = a + b - i' by omega]) j hj
      rw [show a + b - (i' + 1) + 1 = a + b - i' by omega] at this
      exact this)
  rw [e, ok_bind]
  simp only at h1 h2 ⊢
  rw [rotateRight1_ok w 0 (by rw [h1]; positivity), h1]
  congr 1
  apply List.map_congr_left
  intro k hk
  rw [List.mem_range] at hk
  simp only [Nat.sub_zero, pow_zero, pow_one, mul_one] at h2
  by_cases h0 : k = 0
  · subst h0
    have hpos : 0 < 2 ^ (a + b) := by positivity
    have := h2 (2 ^ (a + b) - 1) (by omega) 0 (by norm_num)
    rw [Nat.add_zero] at this
    rw [if_pos rfl, this, Nat.sub_add_cancel hpos, hprim.pow_eq_one, pow_zero]
  · have := h2 (k - 1) (by omega) 0 (by norm_num)
    rw [Nat.add_zero] at this
    rw [if_neg h0, this, Nat.sub_add_cancel (by omega)]

/-- `fft2_in_place` on a vector with the layout left by `fft1_in_place`. -/
theorem PSS.fft2InPlace_eq {pp : PSS F} {a b : Nat} (hlb : pp.l = 2 ^ b) {gen : F}
    (hprim : IsPrimitiveRoot gen (2 ^ (a + b))) (φ : Nat → Nat → F → F)
    (hφ : ∀ s ≥ a, ∀ j x, φ (s + 1) j x = φ s (2 * j) (x ^ 2) + x * φ s (2 * j + 1) (x ^ 2))
    (s1 : List F) (hl : s1.length = 2 ^ (a + b))
    (hs : ∀ k < 2 ^ a, ∀ j < 2 ^ b, s1.getD (k * 2 ^ b + j) 0 = φ a j (gen ^ (2 ^ b * (k + 1)))) :
    pp.fft2InPlace s1 gen = .ok ((List.range (2 ^ (a + b))).map fun k => φ (a + b) 0 (gen ^ k)) := by
  unfold PSS.fft2InPlace
  simp only [hl, hlb, log2_two_pow]
  exact fft2_loop hprim φ hφ s1 _ hl (by simp) hs

end ZkSaas
