import Verif.Model.Pss
import Verif.Lemmas.Dft
import Verif.Spec.Sharing

/-! Lemmas about packed secret sharing. -/

namespace ZkSaas

open Finset Spec

set_option linter.unusedSectionVars false

variable {F : Type} [Field F]

/-- What `PackedSharingParams::new(l)` guarantees for a power of two `l`. -/
structure PSS.Good (pp : PSS F) : Prop where
  lpow : ∃ b, pp.l = 2 ^ b
  t_eq : pp.t = pp.l
  n_eq : pp.n = 4 * pp.l
  share_wf : pp.share.WF
  share_size : pp.share.size = 4 * pp.l
  share_off : pp.share.offset = 1
  secret_wf : pp.secret.WF
  secret_size : pp.secret.size = 2 * pp.l
  secret_gen : pp.secret.groupGen = pp.share.groupGen ^ 2
  secret2_wf : pp.secret2.WF
  secret2_size : pp.secret2.size = 4 * pp.l
  secret2_gen : pp.secret2.groupGen = pp.share.groupGen
  secret2_off : pp.secret2.offset = pp.secret.offset

theorem clog_two_pow (k : Nat) : Nat.clog 2 (2 ^ k) = k := Nat.clog_pow 2 k (by norm_num)

/-- Explicit value of `PackedSharingParams::new(2^b)`. -/
theorem PSS.new_pow2 [FftField F] [DecidableEq F] (dbg : Bool) {b : Nat}
    (hb : b + 2 ≤ FftField.TWO_ADICITY F) :
    PSS.new (F := F) dbg (2 ^ b) = .ok
      { t := 2 ^ b, l := 2 ^ b, n := 4 * 2 ^ b
        share := ⟨2 ^ (b + 2), rootOfUnity (b + 2), (rootOfUnity (b + 2))⁻¹,
          ((2 ^ (b + 2) : Nat) : F)⁻¹, 1, 1⟩
        secret := ⟨2 ^ (b + 1), rootOfUnity (b + 1), (rootOfUnity (b + 1))⁻¹,
          ((2 ^ (b + 1) : Nat) : F)⁻¹, FftField.GENERATOR, (FftField.GENERATOR : F)⁻¹⟩
        secret2 := ⟨2 ^ (b + 2), rootOfUnity (b + 2), (rootOfUnity (b + 2))⁻¹,
          ((2 ^ (b + 2) : Nat) : F)⁻¹, FftField.GENERATOR, (FftField.GENERATOR : F)⁻¹⟩ } := by
  have e4 : 2 ^ b * 4 = 2 ^ (b + 2) := by rw [pow_add]; norm_num
  have e2 : 2 ^ b + 2 ^ b = 2 ^ (b + 1) := by rw [pow_succ]; ring
  have e22 : 2 * (2 ^ b + 2 ^ b) = 2 ^ (b + 2) := by rw [pow_add]; ring
  have hg : (FftField.GENERATOR : F) ≠ 0 := FftField.generator_ne_zero
  unfold PSS.new
  simp only [e4, e2, e22]
  rw [Domain.new_eq (clog_two_pow (b + 2)) hb, Domain.new_eq (clog_two_pow (b + 1)) (by omega)]
  have e3 : 2 * 2 ^ (b + 1) = 2 ^ (b + 2) := by rw [← e2, e22]
  simp only [e3]
  rw [Domain.new_eq (clog_two_pow (b + 2)) hb]
  simp [Domain.getCoset, hg]
  rw [← e4]; ring

theorem PSS.good_of_new [FftField F] [DecidableEq F] {dbg : Bool} {b : Nat} {pp : PSS F}
    (h : PSS.new dbg (2 ^ b) = .ok pp) : pp.Good := by
  by_cases hb : b + 2 ≤ FftField.TWO_ADICITY F
  · rw [PSS.new_pow2 dbg hb] at h
    cases h
    have p2 := rootOfUnity_primitive (F := F) hb
    have p1 := rootOfUnity_primitive (F := F) (k := b + 1) (by omega)
    have hg : (FftField.GENERATOR : F) ≠ 0 := FftField.generator_ne_zero
    have e4 : 2 ^ (b + 2) = 4 * 2 ^ b := by rw [pow_add]; ring
    have e2 : 2 ^ (b + 1) = 2 * 2 ^ b := by rw [pow_succ]; ring
    exact
    { lpow := ⟨b, rfl⟩, t_eq := rfl, n_eq := rfl
      share_wf := ⟨by positivity, p2, rfl, rfl, size_ne_zero_of_primitive (by positivity) p2, one_ne_zero, by simp⟩
      share_size := e4, share_off := rfl
      secret_wf := ⟨by positivity, p1, rfl, rfl, size_ne_zero_of_primitive (by positivity) p1, hg, rfl⟩
      secret_size := e2
      secret_gen := by
        have := rootOfUnity_pow (F := F) (k := b + 1) (s := 1) (by omega)
        simpa using this.symm
      secret2_wf := ⟨by positivity, p2, rfl, rfl, size_ne_zero_of_primitive (by positivity) p2, hg, rfl⟩
      secret2_size := e4, secret2_gen := rfl, secret2_off := rfl }
  · exfalso
    have e4 : 2 ^ b * 4 = 2 ^ (b + 2) := by rw [pow_add]; norm_num
    unfold PSS.new at h
    simp only [e4] at h
    rw [Domain.new_none (m := 2 ^ (b + 2)) (by rw [clog_two_pow]; omega)] at h
    have : debugAssert dbg (2 ^ (b + 2) == 2 * (2 ^ b + 2 ^ b)) = .ok () :=
      debugAssert_of (by rw [pow_add]; simp; ring)
    rw [this] at h
    simp at h

namespace PSS.Good

variable {pp : PSS F} (hg : pp.Good)
include hg

theorem lpos : 0 < pp.l := by obtain ⟨b, hb⟩ := hg.lpow; rw [hb]; positivity

theorem share_element (i : Nat) : pp.share.element i = pp.share.groupGen ^ i := by
  simp [Domain.element, hg.share_off]

theorem secret_element (k : Nat) :
    pp.secret.element k = pp.secret.offset * (pp.share.groupGen ^ 2) ^ k := by
  rw [Domain.element, hg.secret_gen]

theorem secret2_element (k : Nat) :
    pp.secret2.element (2 * k) = pp.secret.offset * (pp.share.groupGen ^ 2) ^ k := by
  rw [Domain.element, hg.secret2_gen, hg.secret2_off, pow_mul]

end PSS.Good

/-- The sharing relation at the points of `pp`. -/
abbrev PSS.Shares {T : Type} [AddCommGroup T] [Module F T] (pp : PSS F) (d : Nat)
    (shares secrets : List T) : Prop :=
  Sharing pp.share.groupGen pp.secret.offset pp.l d shares secrets

section
variable {T : Type} [AddCommGroup T] [Module F T]

theorem pval_extend {c : Nat → T} {d d' : Nat} (h : d ≤ d') (x : F) :
    pval c d x = pval (fun j => if j < d then c j else 0) d' x := by
  unfold pval
  rw [← sum_subset (range_subset_range.2 h)]
  · apply sum_congr rfl
    intro j hj
    simp [mem_range.1 hj]
  · intro j _ hj
    have : ¬ j < d := by simpa using hj
    simp [this]

theorem pval_congr {c c' : Nat → T} {d : Nat} (h : ∀ j < d, c j = c' j) (x : F) :
    pval c d x = pval c' d x :=
  sum_congr rfl fun j hj => by rw [h j (mem_range.1 hj)]

theorem pval_add (c c' : Nat → T) (d : Nat) (x : F) :
    pval c d x + pval c' d x = pval (fun j => c j + c' j) d x := by
  simp [pval, sum_add_distrib]

theorem pval_neg (c : Nat → T) (d : Nat) (x : F) :
    - pval c d x = pval (fun j => - c j) d x := by
  simp [pval]

theorem pval_sub (c c' : Nat → T) (d : Nat) (x : F) :
    pval c d x - pval c' d x = pval (fun j => c j - c' j) d x := by
  simp [pval, sum_sub_distrib, smul_sub]

theorem pval_smul (c : Nat → T) (d : Nat) (x a : F) :
    a • pval c d x = pval (fun j => a • c j) d x := by
  simp only [pval, smul_sum]
  exact sum_congr rfl fun j _ => smul_comm _ _ _

theorem pval_zero (d : Nat) (x : F) : pval (fun _ => (0 : T)) d x = 0 := by simp [pval]

theorem pval_sum {ι : Type} (s : Finset ι) (c : ι → Nat → T) (d : Nat) (x : F) :
    ∑ i ∈ s, pval (c i) d x = pval (fun j => ∑ i ∈ s, c i j) d x := by
  simp only [pval, smul_sum]
  exact sum_comm

/-- Coefficients of the product of a polynomial over `F` and one over `T`. -/
def conv (f : Nat → F) (d1 : Nat) (e : Nat → T) (d2 : Nat) (j : Nat) : T :=
  ∑ a ∈ range d1, if a ≤ j ∧ j < a + d2 then f a • e (j - a) else 0

theorem pval_mul (f : Nat → F) (d1 : Nat) (e : Nat → T) (d2 : Nat) (x : F) :
    pval f d1 x • pval e d2 x = pval (conv f d1 e d2) (d1 + d2 - 1) x := by
  unfold pval conv
  rw [sum_smul]
  simp only [smul_sum]
  rw [sum_comm (s := range (d1 + d2 - 1))]
  apply sum_congr rfl
  intro a ha
  have ha := mem_range.1 ha
  have hsub : Ico a (a + d2) ⊆ range (d1 + d2 - 1) := by
    intro j hj
    simp only [mem_Ico, mem_range] at *
    omega
  rw [← sum_subset hsub]
  · rw [sum_Ico_eq_sum_range]
    simp only [Nat.add_sub_cancel_left]
    apply sum_congr rfl
    intro b hb
    have hb := mem_range.1 hb
    rw [if_pos ⟨by omega, by omega⟩, pow_add, smul_smul, smul_smul]
    congr 1
    simp only [smul_eq_mul]
    ring
  · intro j _ hj
    simp only [mem_Ico] at hj
    rw [if_neg hj, smul_zero]

theorem Shares.mono {pp : PSS F} {d d' : Nat} {shares secrets : List T} (h : d ≤ d')
    (hs : pp.Shares d shares secrets) : pp.Shares d' shares secrets := by
  obtain ⟨h1, h2, c, h3, h4⟩ := hs
  exact ⟨h1, h2, _, fun i hi => (h3 i hi).trans (pval_extend h _), fun i hi => (h4 i hi).trans (pval_extend h _)⟩

variable [DecidableEq F] [DecidableEq T]

/-- Coefficients of the polynomial `pack` uses. -/
def PSS.packCoeffs (pp : PSS F) (secrets : List T) (rng : Nat → T) : List T :=
  pp.secret.ifft (secrets ++ (List.range pp.t).map rng)

omit [DecidableEq T] in
theorem PSS.fft_share {pp : PSS F} (hg : pp.Good) {c : List T} {d : Nat} (hd : c.length = d)
    (hle : d ≤ 4 * pp.l) {i : Nat} (hi : i < 4 * pp.l) :
    (pp.share.fft c).getD i 0 = pval (fun j => c.getD j 0) d (pp.share.groupGen ^ i) := by
  rw [Domain.fft_getD _ _ (by rw [hg.share_size]; exact hi), hg.share_element, hg.share_size,
    pval_extend hle]
  apply sum_congr rfl
  intro j _
  congr 1
  show _ = if j < d then c.getD j 0 else 0
  split
  · rfl
  · exact getD_of_ge _ (by omega)

/-- `pack` succeeds and its value. -/
theorem PSS.pack_eq {pp : PSS F} (hg : pp.Good) (dbg : Bool) {secrets : List T}
    (hl : secrets.length = pp.l) (rng : Nat → T) :
    pp.pack dbg secrets rng = .ok (pp.share.fft (pp.packCoeffs secrets rng)) := by
  unfold PSS.pack PSS.packCoeffs
  have h1 : debugAssert dbg (secrets.length == pp.l) = .ok () := debugAssert_of (by simp [hl])
  have h2 : debugAssert dbg (((pp.secret.ifft (secrets ++ (List.range pp.t).map rng)).drop
      (pp.l + pp.t)).all (· = 0)) = .ok () := by
    apply debugAssert_of
    rw [List.drop_eq_nil_of_le (by rw [Domain.ifft_length, hg.secret_size, hg.t_eq]; omega)]
    rfl
  simp [h1, h2]

theorem PSS.pack_shares {pp : PSS F} (hg : pp.Good) (dbg : Bool) {secrets : List T}
    (hl : secrets.length = pp.l) (rng : Nat → T) :
    ∃ shares, pp.pack dbg secrets rng = .ok shares ∧ pp.Shares (2 * pp.l) shares secrets := by
  refine ⟨_, PSS.pack_eq hg dbg hl rng, by simp [hg.share_size], hl,
    fun j => (pp.packCoeffs secrets rng).getD j 0, ?_, ?_⟩
  · intro i hi
    apply PSS.fft_share hg _ (by omega) hi
    simp [PSS.packCoeffs, hg.secret_size]
  · intro k hk
    have := Domain.eval_ifft hg.secret_wf (secrets ++ (List.range pp.t).map rng) (i := k)
      (by rw [hg.secret_size]; omega)
    rw [hg.secret_element, hg.secret_size, getD_append', if_pos (by omega)] at this
    exact this.symm

theorem PSS.detPack_eq {pp : PSS F} (dbg : Bool) {secrets : List T}
    (hl : dbg = true → secrets.length = pp.l) :
    pp.detPack dbg secrets = .ok (pp.share.fft (pp.secret.ifft (resize secrets pp.t 0))) := by
  unfold PSS.detPack
  have h1 : debugAssert dbg (secrets.length == pp.l) = .ok () := by
    cases dbg
    · simp
    · exact debugAssert_of (by simp [hl rfl])
  simp [h1]

theorem PSS.detPack_shares {pp : PSS F} (hg : pp.Good) (dbg : Bool) {secrets : List T}
    (hl : dbg = true → secrets.length = pp.l) :
    ∃ shares, pp.detPack dbg secrets = .ok shares ∧
      pp.Shares (2 * pp.l) shares (resize secrets pp.l 0) := by
  refine ⟨_, PSS.detPack_eq dbg hl, by simp [hg.share_size], by simp,
    fun j => (pp.secret.ifft (resize secrets pp.t 0)).getD j 0, ?_, ?_⟩
  · intro i hi
    apply PSS.fft_share hg _ (by omega) hi
    simp [hg.secret_size]
  · intro k hk
    have := Domain.eval_ifft hg.secret_wf (resize secrets pp.t 0) (i := k)
      (by rw [hg.secret_size]; omega)
    rw [hg.secret_element, hg.secret_size, hg.t_eq] at this
    rw [← this, hg.t_eq]
    rfl

omit [DecidableEq F] [DecidableEq T] in
/-- The share domain interpolation of a sharing is its coefficient list. -/
theorem PSS.ifft_shares {pp : PSS F} (hg : pp.Good) {shares : List T} {d : Nat} {c : Nat → T}
    (hd : d ≤ 4 * pp.l) (h : ∀ i < 4 * pp.l, shares.getD i 0 = pval c d (pp.share.groupGen ^ i)) :
    pp.share.ifft shares = (List.range (4 * pp.l)).map (fun j => if j < d then c j else 0) := by
  rw [← hg.share_size]
  apply Domain.ifft_evals hg.share_wf
  intro i hi
  rw [hg.share_size] at hi
  rw [h i hi, hg.share_element, hg.share_size, pval_extend hd]
  rfl

omit [DecidableEq F] [DecidableEq T] in
theorem PSS.unpack_of_shares {pp : PSS F} (hg : pp.Good) {shares secrets : List T} {d : Nat}
    (hd : d ≤ 2 * pp.l) (h : pp.Shares d shares secrets) : pp.unpack shares = secrets := by
  obtain ⟨_, h2, c, h3, h4⟩ := h
  unfold PSS.unpack
  simp only
  rw [PSS.ifft_shares hg (by omega) h3]
  apply list_ext_getD 0
  · simp [hg.secret_size, h2]; omega
  · intro k hk
    simp only [List.length_take, Domain.fft_length, hg.secret_size] at hk
    rw [getD_take, if_pos (by omega), Domain.fft_getD _ _ (by rw [hg.secret_size]; omega),
      hg.secret_element, hg.secret_size, h4 k (by omega), pval_extend hd]
    apply sum_congr rfl
    intro j hj
    rw [getD_map_range, if_pos (by have := mem_range.1 hj; omega)]

omit [DecidableEq F] [DecidableEq T] in
theorem everyOther_ok {v : List T} {l : Nat} (h : 2 * l ≤ v.length) :
    everyOther v l = .ok ((List.range l).map fun k => v.getD (2 * k) 0) := by
  unfold everyOther
  rw [if_pos h, skipStep_exact (v.take (2 * l)) 0 2 l 0 (by norm_num) (by norm_num)
    (by simp; omega)]
  congr 1
  apply List.map_congr_left
  intro k hk
  have := List.mem_range.1 hk
  rw [getD_take, if_pos (by omega)]
  congr 1; omega

omit [DecidableEq F] [DecidableEq T] in
/-- Evaluating coefficients on the secret2 domain and keeping every other value gives the secrets. -/
theorem PSS.secret2_eval {pp : PSS F} (hg : pp.Good) {coeffs secrets : List T} {c : Nat → T} {d : Nat}
    (hd : d ≤ 4 * pp.l) (hc : ∀ j < 4 * pp.l, coeffs.getD j 0 = if j < d then c j else 0)
    (h2 : secrets.length = pp.l)
    (h4 : ∀ k < pp.l, secrets.getD k 0 = pval c d (pp.secret.offset * (pp.share.groupGen ^ 2) ^ k)) :
    everyOther (pp.secret2.fft coeffs) pp.l = .ok secrets := by
  rw [everyOther_ok (by simp [hg.secret2_size]; omega)]
  congr 1
  apply list_ext_getD 0
  · simp [h2]
  · intro k hk
    simp only [List.length_map, List.length_range] at hk
    rw [getD_map_range, if_pos hk, Domain.fft_getD _ _ (by rw [hg.secret2_size]; omega),
      hg.secret2_element, hg.secret2_size, h4 k hk, pval_extend hd]
    apply sum_congr rfl
    intro j hj
    rw [hc j (mem_range.1 hj)]

omit [DecidableEq F] in
theorem PSS.unpack2_of_shares {pp : PSS F} (hg : pp.Good) (dbg : Bool) {shares secrets : List T}
    {d : Nat} (hd : d ≤ 4 * pp.l - 1) (h : pp.Shares d shares secrets) :
    pp.unpack2 dbg shares = .ok secrets := by
  obtain ⟨_, h2, c, h3, h4⟩ := h
  unfold PSS.unpack2
  simp only
  rw [PSS.ifft_shares hg (by omega) h3]
  have hb : debugAssert dbg ((((List.range (4 * pp.l)).map (fun j => if j < d then c j else 0)).drop
      (2 * (pp.l + pp.t) - 1)).all (· = 0)) = .ok () := by
    apply debugAssert_of
    rw [List.all_eq_true]
    intro x hx
    obtain ⟨i, hi, rfl⟩ := List.mem_iff_getElem.1 hx
    have := hg.t_eq
    simp
    omega
  rw [hb, ok_bind]
  apply PSS.secret2_eval hg (d := d) (c := c) (by omega) _ h2 h4
  intro j hj
  rw [getD_map_range, if_pos hj]

omit [DecidableEq F] [DecidableEq T] in
theorem Shares.add {pp : PSS F} {d : Nat} {a b sa sb : List T}
    (ha : pp.Shares d a sa) (hb : pp.Shares d b sb) :
    pp.Shares d (List.zipWith (· + ·) a b) (List.zipWith (· + ·) sa sb) := by
  obtain ⟨a1, a2, c, a3, a4⟩ := ha
  obtain ⟨b1, b2, e, b3, b4⟩ := hb
  refine ⟨by simp [a1, b1], by simp [a2, b2], fun j => c j + e j, ?_, ?_⟩
  · intro i hi
    rw [getD_zipWith _ _ _ _ 0 0 0 (by omega) (by omega), a3 i hi, b3 i hi, pval_add]
  · intro i hi
    rw [getD_zipWith _ _ _ _ 0 0 0 (by omega) (by omega), a4 i hi, b4 i hi, pval_add]

omit [DecidableEq F] [DecidableEq T] in
theorem Shares.smul {pp : PSS F} {d : Nat} {a sa : List T} (k : F)
    (ha : pp.Shares d a sa) :
    pp.Shares d (a.map (k • ·)) (sa.map (k • ·)) := by
  obtain ⟨a1, a2, c, a3, a4⟩ := ha
  refine ⟨by simp [a1], by simp [a2], fun j => k • c j, ?_, ?_⟩
  · intro i hi
    rw [getD_map_of_lt (k • ·) a i 0 0 (by omega), a3 i hi, pval_smul]
  · intro i hi
    rw [getD_map_of_lt (k • ·) sa i 0 0 (by omega), a4 i hi, pval_smul]

omit [DecidableEq F] [DecidableEq T] in
theorem Shares.mul {pp : PSS F} {d1 d2 : Nat} {a sa : List F} {b sb : List T}
    (ha : pp.Shares d1 a sa) (hb : pp.Shares d2 b sb) :
    pp.Shares (d1 + d2 - 1) (List.zipWith (· • ·) a b) (List.zipWith (· • ·) sa sb) := by
  obtain ⟨a1, a2, c, a3, a4⟩ := ha
  obtain ⟨b1, b2, e, b3, b4⟩ := hb
  refine ⟨by simp [a1, b1], by simp [a2, b2], conv c d1 e d2, ?_, ?_⟩
  · intro i hi
    rw [getD_zipWith _ _ _ _ 0 0 0 (by omega) (by omega), a3 i hi, b3 i hi, pval_mul]
  · intro i hi
    rw [getD_zipWith _ _ _ _ 0 0 0 (by omega) (by omega), a4 i hi, b4 i hi, pval_mul]

end

end ZkSaas
