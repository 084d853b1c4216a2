import Verif.Model.Refs
import Verif.Properties.Qap

/-!
# C63: the servers compute what one machine computes

The assertions of the tests of `groth16/src/ext_wit.rs`, for every packing factor, domain, vectors, randomness and schedule.
-/

set_option linter.unusedSectionVars false

namespace ZkSaas.Properties

open Finset Spec Polynomial

variable {F : Type} [Field F] [DecidableEq F] [FftField F]

/-- Opening a vector that the parties hold in chunks: both openings of the tests give the vector. -/
theorem HoldsOutput.openRows {dbg₀ : Bool} {b : Nat} {pp : PSS F} (hpp : PSS.new dbg₀ (2 ^ b) = .ok pp) (dbg : Bool) {a : Nat}
    {outs : Nat → List F} {v : List F} (h : HoldsOutput pp false a b outs v) :
    pp.openRows2 dbg ((List.range (4 * 2 ^ b)).map outs) = .ok v ∧ pp.openRows ((List.range (4 * 2 ^ b)).map outs) = .ok v := by
  have hle := l_eq hpp
  have hg := PSS.good_of_new hpp
  have hb : 0 < 2 ^ b := by positivity
  have ht : transpose ((List.range (4 * 2 ^ b)).map outs) =
      .ok ((List.range (2 ^ a)).map fun c => (List.range (4 * 2 ^ b)).map fun p => (outs p).getD c 0) := by
    rw [transpose_ok _ 0 (cols := 2 ^ a) (by simp) _ (by positivity)]
    · congr 1
      apply List.map_congr_left
      intro c _
      rw [List.length_map, List.length_range]
      apply List.map_congr_left
      intro p hp
      rw [getD_map_range, if_pos (List.mem_range.1 hp)]
    · intro r hr
      rw [List.length_map, List.length_range] at hr
      rw [getD_map_range, if_pos hr, h.2.1 r hr]
    · rw [getD_map_range, if_pos (by omega), h.2.1 0 (by omega)]
  have ho := h.opened hpp
  rw [ZkSaas.opened, hle] at ho
  constructor
  · rw [PSS.openRows2, ht, ok_bind, mapM_ok (g := pp.unpack), ok_bind, List.map_map]
    · exact congrArg _ ho
    · intro row hrow
      obtain ⟨c, hc, rfl⟩ := List.mem_map.1 hrow
      have hs := h.2.2 c (List.mem_range.1 hc)
      rw [← hle] at hs ⊢
      rw [PSS.unpack2_of_shares hg dbg (by have := hg.lpos; omega) hs, PSS.unpack_of_shares hg le_rfl hs]
  · rw [PSS.openRows, ht, ok_bind, List.map_map]
    exact congrArg _ ho

/-- From values on the domain to values on a coset, on one machine. -/
theorem toCoset_local {dom : Domain F} (hwf : dom.WF) (hoff : dom.offset = 1) {v : List F} (hv : v.length = dom.size)
    {A : F[X]} (hA : Interpolates dom.groupGen dom.size (fun i => v.getD i 0) A) :
    dom.ifft v = (List.range dom.size).map A.coeff :=
  Domain.ifft_of_evals hwf (by simp) (Interpolates.fft hoff hv hA)

theorem distributePowersAndMulByConst_coeffs (n : Nat) (f : Nat → F) (g : F) :
    distributePowersAndMulByConst ((List.range n).map f) g 1 = (List.range n).map fun k => g ^ k * f k := by
  apply List.ext_getElem (by simp [distributePowersAndMulByConst])
  intro i h1 h2
  simp [distributePowersAndMulByConst, mul_comm]

/-- Evaluating coefficients on the coset `g·H`. -/
theorem Domain.coset_fft {dom : Domain F} {A : F[X]} (hA : A.degree < dom.size) (g g' : F) :
    ({ dom with offset := g, offsetInv := g' } : Domain F).fft ((List.range dom.size).map A.coeff) =
      (List.range dom.size).map fun i => A.eval (g * dom.groupGen ^ i) := by
  apply list_ext_getD 0 (by simp)
  intro i hi
  rw [Domain.fft_length] at hi
  rw [Domain.fft_getD _ _ hi, getD_map_range, if_pos hi, ← evalAt_coeffs hA, evalAt, List.length_map, List.length_range]
  rfl

section net
variable [FixedWire F]

theorem circomRef_eq {k : Nat} {dom dom2 : Domain F} (hdom : Domain.new (2 ^ k) = some dom)
    (hdom2 : Domain.new (2 ^ (k + 1)) = some dom2) {va vb vc : List F} (ha : va.length = 2 ^ k) (hb : vb.length = 2 ^ k)
    (hc : vc.length = 2 ^ k) {A B C : F[X]}
    (hA : Interpolates dom.groupGen (2 ^ k) (fun i => va.getD i 0) A)
    (hB : Interpolates dom.groupGen (2 ^ k) (fun i => vb.getD i 0) B)
    (hC : Interpolates dom.groupGen (2 ^ k) (fun i => vc.getD i 0) C) :
    circomRef va vb vc dom = .ok ((List.range (2 ^ k)).map fun i => (A * B - C).eval (dom2.groupGen * dom.groupGen ^ i)) := by
  obtain ⟨hwf, hoff, -, hsize⟩ := Domain.new_pow2 hdom
  obtain ⟨-, hoff2, -, -⟩ := Domain.new_pow2 hdom2
  have hroot : dom2.element 1 = dom2.groupGen := by rw [Domain.element, hoff2, one_mul, pow_one]
  have hd : Domain.new (F := F) (2 * dom.size) = some dom2 := by rw [hsize, ← pow_succ', hdom2]
  rw [← hsize] at ha hb hc hA hB hC ⊢
  rw [circomRef, hd]
  simp only [unwrap_some, ok_bind, hroot]
  rw [toCoset_local hwf hoff ha hA, toCoset_local hwf hoff hb hB, toCoset_local hwf hoff hc hC]
  simp only [distributePowersAndMulByConst_coeffs]
  rw [Domain.fft_scaled hoff hA.1, Domain.fft_scaled hoff hB.1, Domain.fft_scaled hoff hC.1, mulInEvaluationDomain,
    assert_of (by simp), ok_bind]
  simp only [pure_ok, ok_bind]
  congr 1
  simp only [List.zipWith_map_left, List.zipWith_map_right, List.zipWith_self]
  simp only [eval_sub, eval_mul]

theorem libsnarkRef_eq {k : Nat} {dom : Domain F} (hdom : Domain.new (2 ^ k) = some dom) (hcos : ∃ x : F, x ≠ 0 ∧ x ^ 2 ^ k ≠ 1)
    {va vb vc : List F} (ha : va.length = 2 ^ k) (hb : vb.length = 2 ^ k) (hc : vc.length = 2 ^ k) {A B C : F[X]}
    (hA : Interpolates dom.groupGen (2 ^ k) (fun i => va.getD i 0) A)
    (hB : Interpolates dom.groupGen (2 ^ k) (fun i => vb.getD i 0) B)
    (hC : Interpolates dom.groupGen (2 ^ k) (fun i => vc.getD i 0) C) :
    libsnarkRef va vb vc dom = .ok ((List.range (2 ^ k)).map fun j => FftField.GENERATOR⁻¹ ^ j *
        (dom.ifft ((List.range (2 ^ k)).map fun i => (A * B - C).eval (FftField.GENERATOR * dom.groupGen ^ i) *
          (FftField.GENERATOR ^ 2 ^ k - 1)⁻¹)).getD j 0) := by
  obtain ⟨hwf, hoff, hoffi, hsize⟩ := Domain.new_pow2 hdom
  have hz := generator_pow_ne_one hcos
  have hg0 : (FftField.GENERATOR : F) ≠ 0 := FftField.generator_ne_zero
  rw [← hsize] at ha hb hc hA hB hC hz ⊢
  rw [libsnarkRef, Domain.getCoset, if_neg hg0]
  simp only [unwrap_some, ok_bind]
  rw [toCoset_local hwf hoff ha hA, toCoset_local hwf hoff hb hB, toCoset_local hwf hoff hc hC, Domain.coset_fft hA.1,
    Domain.coset_fft hB.1, Domain.coset_fft hC.1, mulInEvaluationDomain, assert_of (by simp), ok_bind]
  simp only [pure_ok, ok_bind]
  rw [Domain.evalVanishing, hoff, one_pow, fieldInverse, if_neg hz, unwrap_some, ok_bind]
  congr 1
  simp only [List.zipWith_map_left, List.zipWith_map_right, List.zipWith_self]
  rw [Domain.ifft]
  apply List.map_congr_left
  intro j hj
  rw [Domain.ifft, getD_map_range, if_pos (List.mem_range.1 hj), hoffi, one_pow, one_mul, smul_eq_mul, smul_eq_mul, mul_assoc]
  simp only [eval_sub, eval_mul]

/-- **C63** The assertion of `circom_dummy_ext_witness` for every packing factor, every domain, every `a`, `b`, `c` (whether or
not `a∘b = c`), all randomness and every schedule: sharing with `QAP::pss`, running `circom_h` and opening with `unpack2` or
`unpack` gives what `circom_ref` computes on one machine. -/
theorem C63_circom_test {dbg₀ : Bool} {b : Nat} {pp : PSS F} (hpp : PSS.new dbg₀ (2 ^ b) = .ok pp) (dbg : Bool) (a : Nat)
    (ha : a < 64) (q : QAP F) (hdom : Domain.new (2 ^ (a + b)) = some q.domain) {dom2 : Domain F}
    (hdom2 : Domain.new (2 ^ (a + b + 1)) = some dom2)
    (hA : q.a.length = 2 ^ (a + b)) (hB : q.b.length = 2 ^ (a + b)) (hC : q.c.length = 2 ^ (a + b))
    (rngA rngB rngC : Nat → Nat → F) (masks : Nat → Nat → FftMask F) (hm : IsCircomMasks pp dom2.groupGen q.domain masks)
    (dmask : Nat → DegRedMask F) (hd : IsDegRedMasks pp (2 ^ a) dmask) (rng : Nat → Nat → Nat → F) :
    ∃ (sh : Nat → PackedQAPShare F) (outs : Nat → List F) (h : List F),
      q.pss pp dbg rngA rngB rngC = .ok ((List.range (4 * 2 ^ b)).map sh) ∧
      AlwaysYields (Net.init fun i : Fin (4 * 2 ^ b) => pp.circomH dbg (4 * 2 ^ b) i (sh i) (masks i) (dmask i) rng)
        (fun i => outs i) ∧
      circomRef q.a q.b q.c q.domain = .ok h ∧
      pp.openRows2 dbg ((List.range (4 * 2 ^ b)).map outs) = .ok h ∧
      pp.openRows ((List.range (4 * 2 ^ b)).map outs) = .ok h := by
  obtain ⟨hwf, hoff, -, hsize⟩ := Domain.new_pow2 hdom
  obtain ⟨sh, es, hdm, h1, h2, h3⟩ := C30_pss hpp dbg a q hA hB hC rngA rngB rngC
  obtain ⟨A, iA⟩ := Interpolates.exists hwf hoff q.a (hA.trans hsize.symm)
  obtain ⟨B, iB⟩ := Interpolates.exists hwf hoff q.b (hB.trans hsize.symm)
  obtain ⟨C, iC⟩ := Interpolates.exists hwf hoff q.c (hC.trans hsize.symm)
  rw [hsize] at iA iB iC
  obtain ⟨outs, hr, ho⟩ := circomH_runs hpp dbg a ha hdom hdom2 (fun p _ => (hdm p).1) h1.input h2.input h3.input iA iB iC hm hd rng
  exact ⟨sh, outs, _, es, hr.alwaysYields fun i => circomH_wf _ (by positivity) _ _ _ _ _,
    circomRef_eq hdom hdom2 hA hB hC iA iB iC, ho.openRows hpp dbg⟩

/-- **C63** The assertion of `libsnark_dummy_ext_witness`, likewise. -/
theorem C63_libsnark_test {dbg₀ : Bool} {b : Nat} {pp : PSS F} (hpp : PSS.new dbg₀ (2 ^ b) = .ok pp) (dbg : Bool) (a : Nat)
    (ha : a < 64) (q : QAP F) (hdom : Domain.new (2 ^ (a + b)) = some q.domain) (hcos : ∃ x : F, x ≠ 0 ∧ x ^ 2 ^ (a + b) ≠ 1)
    (hA : q.a.length = 2 ^ (a + b)) (hB : q.b.length = 2 ^ (a + b)) (hC : q.c.length = 2 ^ (a + b))
    (rngA rngB rngC : Nat → Nat → F) (masks : Nat → Nat → FftMask F) (hm : IsLibsnarkMasks pp q.domain masks)
    (rng : Nat → Nat → Nat → F) :
    ∃ (sh : Nat → PackedQAPShare F) (outs : Nat → List F) (h : List F),
      q.pss pp dbg rngA rngB rngC = .ok ((List.range (4 * 2 ^ b)).map sh) ∧
      AlwaysYields (Net.init fun i : Fin (4 * 2 ^ b) => pp.libsnarkH dbg (4 * 2 ^ b) i (sh i) (masks i) rng)
        (fun i => outs i) ∧
      libsnarkRef q.a q.b q.c q.domain = .ok h ∧
      pp.openRows2 dbg ((List.range (4 * 2 ^ b)).map outs) = .ok h ∧
      pp.openRows ((List.range (4 * 2 ^ b)).map outs) = .ok h := by
  obtain ⟨hwf, hoff, -, hsize⟩ := Domain.new_pow2 hdom
  obtain ⟨sh, es, hdm, h1, h2, h3⟩ := C30_pss hpp dbg a q hA hB hC rngA rngB rngC
  obtain ⟨A, iA⟩ := Interpolates.exists hwf hoff q.a (hA.trans hsize.symm)
  obtain ⟨B, iB⟩ := Interpolates.exists hwf hoff q.b (hB.trans hsize.symm)
  obtain ⟨C, iC⟩ := Interpolates.exists hwf hoff q.c (hC.trans hsize.symm)
  rw [hsize] at iA iB iC
  obtain ⟨outs, hr, ho⟩ := libsnarkH_runs_any hpp dbg a ha hdom hcos (fun p _ => (hdm p).1) h1.input h2.input h3.input iA iB iC hm rng
  exact ⟨sh, outs, _, es, hr.alwaysYields fun i => libsnarkH_wf _ (by positivity) _ _ _ _,
    libsnarkRef_eq hdom hcos hA hB hC iA iB iC, ho.openRows hpp dbg⟩

/-- `witness_map_from_matrices` is `circom_ref` of the vectors that `qap` computes. -/
theorem witnessMap_eq {mats : ConstraintMatrices F} {z : List F} {q : QAP F} (h : qap mats z = .ok (some q)) :
    witnessMapFromMatrices mats mats.numInstanceVariables mats.numConstraints z = (do
      let h ← circomRef q.a q.b q.c q.domain
      pure (some h)) := by
  rw [qap] at h
  rw [witnessMapFromMatrices]
  dsimp only at h ⊢
  cases hd : Domain.new (F := F) (mats.numConstraints + mats.numInstanceVariables) with
  | none => rw [hd] at h; cases h
  | some dom =>
    rw [hd] at h
    dsimp only at h ⊢
    simp only [bind, Except.bind] at h ⊢
    split at h
    · cases h
    · rename_i st e1
      split at h
      · cases h
      · rename_i a e2
        split at h
        · cases h
        · rename_i c e3
          cases h
          simp only [e1, e2, e3]

/-- **C63** The assertion of `ext_witness_circom` for every constraint system and assignment (satisfied or not): what the servers
compute and open is what `ark-circom` computes on one machine. -/
theorem C63_circom_witness_map {dbg₀ : Bool} {b : Nat} {pp : PSS F} (hpp : PSS.new dbg₀ (2 ^ b) = .ok pp) (dbg : Bool) (a : Nat)
    (ha : a < 64) (mats : ConstraintMatrices F) (z : List F) {dom dom2 : Domain F}
    (hdom : Domain.new (mats.numConstraints + mats.numInstanceVariables) = some dom) (hsize : dom.size = 2 ^ (a + b))
    (hdom2 : Domain.new (2 ^ (a + b + 1)) = some dom2)
    (hA : mats.a.length = mats.numConstraints) (hB : mats.b.length = mats.numConstraints)
    (hcA : ColumnsBelow z.length mats.a) (hcB : ColumnsBelow z.length mats.b) (hz : mats.numInstanceVariables ≤ z.length)
    (rngA rngB rngC : Nat → Nat → F) (masks : Nat → Nat → FftMask F) (hm : IsCircomMasks pp dom2.groupGen dom masks)
    (dmask : Nat → DegRedMask F) (hd : IsDegRedMasks pp (2 ^ a) dmask) (rng : Nat → Nat → Nat → F) :
    ∃ (q : QAP F) (sh : Nat → PackedQAPShare F) (outs : Nat → List F) (h : List F),
      qap mats z = .ok (some q) ∧ q.pss pp dbg rngA rngB rngC = .ok ((List.range (4 * 2 ^ b)).map sh) ∧
      AlwaysYields (Net.init fun i : Fin (4 * 2 ^ b) => pp.circomH dbg (4 * 2 ^ b) i (sh i) (masks i) (dmask i) rng)
        (fun i => outs i) ∧
      witnessMapFromMatrices mats mats.numInstanceVariables mats.numConstraints z = .ok (some h) ∧
      pp.openRows ((List.range (4 * 2 ^ b)).map outs) = .ok h := by
  have hdom' : Domain.new (2 ^ (a + b)) = some dom := hsize ▸ Domain.new_size hdom
  obtain ⟨q, eq, rfl, -, -, ha', hb', hc', -, -, -, -⟩ := C29_qap mats z hdom hA hB hcA hcB hz
  obtain ⟨sh, outs, h, es, hy, hr, -, ho⟩ := C63_circom_test hpp dbg a ha q hdom' hdom2 (ha'.trans hsize) (hb'.trans hsize)
    (hc'.trans hsize) rngA rngB rngC masks hm dmask hd rng
  exact ⟨q, sh, outs, h, eq, es, hy, by rw [witnessMap_eq eq, hr]; rfl, ho⟩

end net

/-! ### Examples -/

/-- Vectors with `a∘b ≠ c`. -/
def qap17 : QAP (ZMod 17) :=
  { numInputs := 0, numConstraints := 0, a := [0, 1, 2, 3], b := [5, 0, 7, 1], c := [1, 1, 1, 4], domain := dom17 }

/-- `circom_h` on two slots per share and `a∘b ≠ c`: the references agree on concrete values. -/
example : ∃ (sh : Nat → PackedQAPShare (ZMod 17)) (outs : Nat → List (ZMod 17)),
    qap17.pss pp17 true (fun i j => i + j) (fun i j => 2 * i + j) (fun i j => 3 * i + j) = .ok ((List.range 8).map sh) ∧
    AlwaysYields (Net.init fun i : Fin (4 * 2 ^ 1) => pp17.circomH true (4 * 2 ^ 1) i (sh i) (fun _ => FftMask.zero 2)
      (DegRedMask.zero 2) fun _ i j => i + j) (fun i => outs i) ∧
    pp17.openRows2 true ((List.range 8).map outs) = circomRef qap17.a qap17.b qap17.c dom17 ∧
    circomRef qap17.a qap17.b qap17.c dom17 = .ok [12, 7, 5, 8] := by
  obtain ⟨sh, outs, h, e, y, hr, ho, -⟩ := C63_circom_test (pp17_eq true) true 1 (by norm_num) qap17 (by decide +kernel)
    (dom2 := dom17b) dom17b_eq rfl rfl rfl (fun i j => i + j) (fun i j => 2 * i + j) (fun i j => 3 * i + j)
    (fun _ _ => FftMask.zero 2) ⟨fun _ _ => .inr fun _ => rfl, fun _ _ => .inr fun _ => rfl⟩
    (fun _ => DegRedMask.zero 2) (.inr fun _ => rfl) (fun _ i j => i + j)
  exact ⟨sh, outs, e, y, ho.trans hr.symm, by decide +kernel⟩

example : ∃ (sh : Nat → PackedQAPShare (ZMod 17)) (outs : Nat → List (ZMod 17)),
    qap17.pss pp17 true (fun i j => i + j) (fun i j => 2 * i + j) (fun i j => 3 * i + j) = .ok ((List.range 8).map sh) ∧
    AlwaysYields (Net.init fun i : Fin (4 * 2 ^ 1) => pp17.libsnarkH true (4 * 2 ^ 1) i (sh i) (fun _ => FftMask.zero 2)
      fun _ i j => i + j) (fun i => outs i) ∧
    pp17.openRows2 true ((List.range 8).map outs) = libsnarkRef qap17.a qap17.b qap17.c dom17 ∧
    (libsnarkRef qap17.a qap17.b qap17.c dom17).isOk := by
  obtain ⟨sh, outs, h, e, y, hr, ho, -⟩ := C63_libsnark_test (pp17_eq true) true 1 (by norm_num) qap17 (by decide +kernel)
    ⟨3, by decide, by decide⟩ rfl rfl rfl (fun i j => i + j) (fun i j => 2 * i + j) (fun i j => 3 * i + j)
    (fun _ _ => FftMask.zero 2) ⟨fun _ _ => .inr fun _ => rfl, fun _ _ => .inr fun _ => rfl, .inr fun _ => rfl⟩ (fun _ i j => i + j)
  exact ⟨sh, outs, e, y, ho.trans hr.symm, by rw [show libsnarkRef qap17.a qap17.b qap17.c dom17 = .ok h from hr]; rfl⟩

example : ∃ (q : QAP (ZMod 17)) (sh : Nat → PackedQAPShare (ZMod 17)) (outs : Nat → List (ZMod 17)) (h : List (ZMod 17)),
    qap mats17 z17 = .ok (some q) ∧ AlwaysYields (Net.init fun i : Fin (4 * 2 ^ 1) => pp17.circomH true (4 * 2 ^ 1) i (sh i)
      (fun _ => FftMask.zero 2) (DegRedMask.zero 2) fun _ i j => i + j) (fun i => outs i) ∧
    witnessMapFromMatrices mats17 2 2 z17 = .ok (some h) ∧ pp17.openRows ((List.range 8).map outs) = .ok h := by
  obtain ⟨q, sh, outs, h, e1, -, y, w, o⟩ := C63_circom_witness_map (pp17_eq true) true 1 (by norm_num) mats17 z17
    (dom := dom17) (dom2 := dom17b) (by decide +kernel) rfl dom17b_eq rfl rfl mats17_cols.1 mats17_cols.2 (by decide)
    (fun i j => i + j) (fun i j => 2 * i + j) (fun i j => 3 * i + j) (fun _ _ => FftMask.zero 2)
    ⟨fun _ _ => .inr fun _ => rfl, fun _ _ => .inr fun _ => rfl⟩ (fun _ => DegRedMask.zero 2) (.inr fun _ => rfl) (fun _ i j => i + j)
  exact ⟨q, sh, outs, h, e1, y, w, o⟩

end ZkSaas.Properties
