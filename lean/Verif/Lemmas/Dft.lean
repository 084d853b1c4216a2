import Verif.Model.Ark
import Verif.Lemmas.Basic
import Mathlib.Algebra.Field.GeomSum
import Mathlib.Algebra.Module.BigOperators
import Mathlib.Algebra.BigOperators.Ring.Finset
import Mathlib.RingTheory.RootsOfUnity.Basic
import Mathlib.Tactic.FieldSimp
import Mathlib.Tactic.Ring
import Mathlib.Tactic.Module
import Mathlib.Tactic.LinearCombination

/-! Discrete Fourier transform facts about the arkworks domain contract. -/

namespace ZkSaas

open Finset

variable {F : Type} [Field F]

/-- Well formedness of an evaluation domain: what `Domain.new`/`get_coset` guarantee. -/
structure Domain.WF (d : Domain F) : Prop where
  pos : 0 < d.size
  prim : IsPrimitiveRoot d.groupGen d.size
  ginv : d.groupGenInv = d.groupGen⁻¹
  sinv : d.sizeInv = (d.size : F)⁻¹
  szne : (d.size : F) ≠ 0
  offne : d.offset ≠ 0
  offinv : d.offsetInv = d.offset⁻¹

theorem rootOfUnity_eq_pow [FftField F] (k : Nat) :
    rootOfUnity (F := F) k = FftField.ROOT ^ 2 ^ (FftField.TWO_ADICITY F - k) := by
  unfold rootOfUnity
  generalize FftField.TWO_ADICITY F - k = e
  induction e with
  | zero => simp
  | succ e ih =>
    rw [Function.iterate_succ_apply', ih, ← pow_add]
    congr 1
    rw [pow_succ]; ring

theorem rootOfUnity_primitive [FftField F] {k : Nat} (hk : k ≤ FftField.TWO_ADICITY F) :
    IsPrimitiveRoot (rootOfUnity (F := F) k) (2 ^ k) := by
  rw [rootOfUnity_eq_pow]
  apply FftField.root_primitive.pow (by positivity)
  rw [← pow_add]; congr 1; omega

theorem rootOfUnity_pow [FftField F] {k s : Nat} (hk : k + s ≤ FftField.TWO_ADICITY F) :
    rootOfUnity (F := F) (k + s) ^ 2 ^ s = rootOfUnity k := by
  rw [rootOfUnity_eq_pow, rootOfUnity_eq_pow, ← pow_mul, ← pow_add]
  congr 2; omega

theorem size_ne_zero_of_primitive {n : Nat} {w : F} (hn : 0 < n) (h : IsPrimitiveRoot w n) :
    (n : F) ≠ 0 := by
  haveI : NeZero n := ⟨hn.ne'⟩
  haveI := h.neZero'
  exact NeZero.ne _

theorem Domain.new_eq [FftField F] {m k : Nat} (hk : Nat.clog 2 m = k)
    (hle : k ≤ FftField.TWO_ADICITY F) :
    Domain.new (F := F) m = some
    { size := 2 ^ k
      groupGen := rootOfUnity k
      groupGenInv := (rootOfUnity k)⁻¹
      sizeInv := ((2 ^ k : Nat) : F)⁻¹
      offset := 1
      offsetInv := 1 } := by
  subst hk
  simp [Domain.new, hle]

theorem Domain.new_none [FftField F] {m : Nat} (h : FftField.TWO_ADICITY F < Nat.clog 2 m) :
    Domain.new (F := F) m = none := by
  simp [Domain.new, h]

theorem Domain.new_wf [FftField F] {m : Nat} {d : Domain F} (h : Domain.new m = some d) :
    d.WF ∧ d.offset = 1 := by
  unfold Domain.new at h
  simp only at h
  split at h
  · cases h
  · rename_i hle
    cases h
    have hp := rootOfUnity_primitive (F := F) (Nat.le_of_not_lt hle)
    exact ⟨⟨by positivity, hp, rfl, rfl, size_ne_zero_of_primitive (by positivity) hp, one_ne_zero, by simp⟩, rfl⟩

theorem Domain.getCoset_wf [DecidableEq F] {d d' : Domain F} {g : F} (hd : d.WF)
    (h : d.getCoset g = some d') : d'.WF ∧ d'.offset = g ∧ d'.size = d.size ∧
      d'.groupGen = d.groupGen := by
  unfold Domain.getCoset at h
  split at h
  · cases h
  · rename_i hg
    cases h
    exact ⟨⟨hd.pos, hd.prim, hd.ginv, hd.sinv, hd.szne, hg, rfl⟩, rfl, rfl, rfl⟩

section
variable {T : Type} [AddCommGroup T] [Module F T]

theorem evalAt_resize (c : List T) (n : Nat) (x : F) :
    evalAt (resize c n 0) x = ∑ j ∈ range n, x ^ j • c.getD j 0 := by
  unfold evalAt
  rw [resize_length]
  apply sum_congr rfl
  intro j hj
  rw [getD_resize, if_pos (mem_range.1 hj)]

@[simp] theorem Domain.fft_length (d : Domain F) (c : List T) : (d.fft c).length = d.size := by
  simp [Domain.fft]

@[simp] theorem Domain.ifft_length (d : Domain F) (c : List T) : (d.ifft c).length = d.size := by
  simp [Domain.ifft]

theorem Domain.fft_getD (d : Domain F) (c : List T) {i : Nat} (hi : i < d.size) :
    (d.fft c).getD i 0 = ∑ j ∈ range d.size, d.element i ^ j • c.getD j 0 := by
  rw [Domain.fft, getD_map_range, if_pos hi, evalAt_resize]

/-- Orthogonality of the powers of a primitive root. -/
theorem orthogonality {n : Nat} {w : F} (h : IsPrimitiveRoot w n) {a b : Nat}
    (ha : a < n) (hb : b < n) :
    ∑ i ∈ range n, (w ^ a) ^ i * ((w⁻¹) ^ b) ^ i = if a = b then (n : F) else 0 := by
  have hw : w ≠ 0 := h.ne_zero (by omega)
  have e : ∀ i, (w ^ a) ^ i * ((w⁻¹) ^ b) ^ i = (w ^ a * (w⁻¹) ^ b) ^ i := fun i => by rw [mul_pow]
  simp_rw [e]
  split
  · rename_i hab
    subst hab
    have : w ^ a * w⁻¹ ^ a = 1 := by rw [← mul_pow, mul_inv_cancel₀ hw, one_pow]
    rw [this]; simp
  · rename_i hab
    have hz : w ^ a * w⁻¹ ^ b ≠ 1 := by
      intro hh
      apply hab
      apply h.pow_inj ha hb
      have : w ^ b ≠ 0 := pow_ne_zero _ hw
      rw [inv_pow] at hh
      field_simp at hh
      exact hh
    have hp : (w ^ a * w⁻¹ ^ b) ^ n = 1 := by
      rw [mul_pow, ← pow_mul, ← pow_mul, mul_comm a, mul_comm b, pow_mul, pow_mul, h.pow_eq_one,
        inv_pow, h.pow_eq_one]; simp
    have := geom_sum_mul (w ^ a * w⁻¹ ^ b) n
    rw [hp, sub_self] at this
    exact (mul_eq_zero.1 this).resolve_right (sub_ne_zero.2 hz)

/-- Inverting the evaluations of a coefficient function of degree below the domain size returns the
coefficients. -/
theorem Domain.ifft_evals {d : Domain F} (hd : d.WF) {e : List T} {c : Nat → T}
    (he : ∀ i < d.size, e.getD i 0 = ∑ j ∈ range d.size, d.element i ^ j • c j) :
    d.ifft e = (List.range d.size).map c := by
  unfold Domain.ifft
  apply List.map_congr_left
  intro j hj
  have hj := List.mem_range.1 hj
  rw [evalAt_resize]
  have : ∑ i ∈ range d.size, (d.groupGenInv ^ j) ^ i • e.getD i 0
      = (d.offset ^ j * d.size) • c j := by
    have : ∀ i ∈ range d.size, (d.groupGenInv ^ j) ^ i • e.getD i 0
        = ∑ k ∈ range d.size, (d.offset ^ k * ((d.groupGen ^ k) ^ i * (d.groupGenInv ^ j) ^ i)) • c k := by
      intro i hi
      rw [he i (mem_range.1 hi), smul_sum]
      apply sum_congr rfl
      intro k _
      rw [smul_smul, Domain.element]
      congr 1
      ring
    rw [sum_congr rfl this, sum_comm]
    have : ∀ k ∈ range d.size, ∑ i ∈ range d.size,
        (d.offset ^ k * ((d.groupGen ^ k) ^ i * (d.groupGenInv ^ j) ^ i)) • c k
        = if k = j then (d.offset ^ j * d.size) • c j else 0 := by
      intro k hk
      rw [← sum_smul, ← mul_sum, hd.ginv, orthogonality hd.prim (mem_range.1 hk) hj]
      split
      · rename_i h; subst h; rfl
      · simp
    rw [sum_congr rfl this, sum_ite_eq' (range d.size) j, if_pos (mem_range.2 hj)]
  rw [this, smul_smul, hd.offinv, hd.sinv]
  have h1 := hd.szne
  have h2 := pow_ne_zero j hd.offne
  have : d.offset⁻¹ ^ j * (d.size : F)⁻¹ * (d.offset ^ j * d.size) = 1 := by
    rw [inv_pow]; field_simp
  rw [this, one_smul]

/-- Evaluating the interpolation gives back the evaluations. -/
theorem Domain.eval_ifft {d : Domain F} (hd : d.WF) (e : List T) {i : Nat} (hi : i < d.size) :
    ∑ j ∈ range d.size, d.element i ^ j • (d.ifft e).getD j 0 = e.getD i 0 := by
  have hg : d.groupGen ≠ 0 := hd.prim.ne_zero hd.pos.ne'
  have : ∀ j ∈ range d.size, d.element i ^ j • (d.ifft e).getD j 0 =
      ∑ k ∈ range d.size, (d.sizeInv * ((d.groupGen ^ i) ^ j * (d.groupGen⁻¹ ^ k) ^ j)) • e.getD k 0 := by
    intro j hj
    rw [Domain.ifft, getD_map_range, if_pos (mem_range.1 hj), evalAt_resize, smul_sum, smul_sum]
    apply sum_congr rfl
    intro k _
    rw [smul_smul, smul_smul, Domain.element, hd.offinv, hd.ginv]
    congr 1
    have : (d.offset * d.groupGen ^ i) ^ j * (d.offset⁻¹ ^ j * d.sizeInv) * (d.groupGen⁻¹ ^ j) ^ k
      = (d.offset * d.offset⁻¹) ^ j * (d.sizeInv * ((d.groupGen ^ i) ^ j * (d.groupGen⁻¹ ^ k) ^ j)) := by
      ring
    rw [this, mul_inv_cancel₀ hd.offne, one_pow, one_mul]
  rw [sum_congr rfl this, sum_comm]
  have : ∀ k ∈ range d.size, ∑ j ∈ range d.size,
      (d.sizeInv * ((d.groupGen ^ i) ^ j * (d.groupGen⁻¹ ^ k) ^ j)) • e.getD k 0
      = if k = i then e.getD i 0 else 0 := by
    intro k hk
    rw [← sum_smul, ← mul_sum, orthogonality hd.prim hi (mem_range.1 hk)]
    by_cases h : k = i
    · subst h; simp [hd.sinv, hd.szne]
    · rw [if_neg (Ne.symm h), if_neg h]; simp
  rw [sum_congr rfl this, sum_ite_eq' (range d.size) i, if_pos (mem_range.2 hi)]

theorem Domain.fft_ifft {d : Domain F} (hd : d.WF) {e : List T} (he : e.length = d.size) :
    d.fft (d.ifft e) = e := by
  apply list_ext_getD 0 (by simp [he])
  intro i hi
  rw [Domain.fft_length] at hi
  rw [Domain.fft_getD _ _ hi, Domain.eval_ifft hd e hi]

theorem Domain.ifft_fft {d : Domain F} (hd : d.WF) {c : List T} (hc : c.length = d.size) :
    d.ifft (d.fft c) = c := by
  rw [Domain.ifft_evals hd (c := fun j => c.getD j 0) (fun i hi => Domain.fft_getD d c hi), ← hc]
  exact (list_eq_map_range c 0).symm

end

end ZkSaas
