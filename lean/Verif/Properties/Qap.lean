import Verif.Lemmas.ExtWit

/-!
# C29 – C32: from the constraint system to the quotient polynomial

C29 and C30 are about the local functions `qap` and `QAP::pss`, C31 and C32 about the distributed `circom_h` and `libsnark_h`.
-/

set_option linter.unusedSectionVars false

namespace ZkSaas.Properties

open Finset Spec Polynomial

variable {F : Type} [Field F] [DecidableEq F] [FftField F]

/-! ### C29 -/

/-- **C29** The vectors `qap` computes. The matrices have one row per constraint and use only columns of the assignment, the
assignment contains the inputs. -/
theorem C29_qap (mats : ConstraintMatrices F) (z : List F) {dom : Domain F}
    (hdom : Domain.new (mats.numConstraints + mats.numInstanceVariables) = some dom)
    (hA : mats.a.length = mats.numConstraints) (hB : mats.b.length = mats.numConstraints)
    (hcA : ColumnsBelow z.length mats.a) (hcB : ColumnsBelow z.length mats.b) (hz : mats.numInstanceVariables ≤ z.length) :
    ∃ q, qap mats z = .ok (some q) ∧ q.domain = dom ∧ q.numInputs = mats.numInstanceVariables ∧
      q.numConstraints = mats.numConstraints ∧
      q.a.length = dom.size ∧ q.b.length = dom.size ∧ q.c.length = dom.size ∧
      (∀ i < mats.numConstraints, q.a.getD i 0 = dot (mats.a.getD i []) z ∧ q.b.getD i 0 = dot (mats.b.getD i []) z) ∧
      (∀ j < mats.numInstanceVariables, q.a.getD (mats.numConstraints + j) 0 = z.getD j 0 ∧
        q.b.getD (mats.numConstraints + j) 0 = 0) ∧
      (∀ i, mats.numConstraints + mats.numInstanceVariables ≤ i → q.a.getD i 0 = 0 ∧ q.b.getD i 0 = 0) ∧
      ∀ i, q.c.getD i 0 = q.a.getD i 0 * q.b.getD i 0 := by
  obtain ⟨a, b, c, e, rfl, rfl, rfl⟩ := qap_ok mats z hdom hA hB hcA hcB hz
  have hsz : mats.numConstraints + mats.numInstanceVariables ≤ dom.size := by
    rw [Domain.new] at hdom
    split at hdom
    · cases hdom
    · cases hdom; exact Nat.le_pow_clog (by omega) _
  refine ⟨_, e, rfl, rfl, rfl, by simp, by simp, by simp, ?_, ?_, ?_, ?_⟩
  · intro i hi
    simp only [getD_map_range, if_pos hi, if_pos (show i < dom.size by omega)]
    trivial
  · intro j hj
    simp only [getD_map_range, if_neg (show ¬ mats.numConstraints + j < mats.numConstraints by omega),
      if_pos (show mats.numConstraints + j < dom.size by omega),
      if_pos (show mats.numConstraints + j < mats.numConstraints + mats.numInstanceVariables by omega)]
    exact ⟨by congr 1; omega, trivial⟩
  · intro i hi
    simp only [getD_map_range, if_neg (show ¬ i < mats.numConstraints by omega),
      if_neg (show ¬ i < mats.numConstraints + mats.numInstanceVariables by omega), ite_self]
    trivial
  · intro i
    simp only [getD_map_range]
    by_cases h1 : i < dom.size
    · simp only [if_pos h1]
      by_cases h2 : i < mats.numConstraints
      · simp only [if_pos h2]
      · simp only [if_neg h2, mul_zero]
    · simp only [if_neg h1, mul_zero]

/-- **C29** For a satisfying assignment the third vector is `⟨Cᵢ, z⟩`: the QAP identity holds on the whole domain. -/
theorem C29_satisfied (mats : ConstraintMatrices F) (z : List F) {q : QAP F} (hq : qap mats z = .ok (some q))
    (hA : mats.a.length = mats.numConstraints) (hB : mats.b.length = mats.numConstraints)
    (hcA : ColumnsBelow z.length mats.a) (hcB : ColumnsBelow z.length mats.b) (hz : mats.numInstanceVariables ≤ z.length)
    (hsat : Satisfies mats.numConstraints mats.a mats.b mats.c z) :
    (∀ i < mats.numConstraints, q.c.getD i 0 = dot (mats.c.getD i []) z) ∧
    ∀ i, mats.numConstraints ≤ i → q.c.getD i 0 = 0 := by
  cases hdom : Domain.new (F := F) (mats.numConstraints + mats.numInstanceVariables) with
  | none =>
    rw [qap] at hq
    dsimp only at hq
    rw [hdom] at hq
    cases hq
  | some dom =>
    obtain ⟨q', e, -, -, -, -, -, -, h1, h2, h3, h4⟩ := C29_qap mats z hdom hA hB hcA hcB hz
    obtain rfl : q = q' := by rw [hq] at e; cases e; rfl
    refine ⟨fun i hi => ?_, fun i hi => ?_⟩
    · rw [h4, (h1 i hi).1, (h1 i hi).2, hsat i hi]
    · rw [h4]
      by_cases h : i < mats.numConstraints + mats.numInstanceVariables
      · have := (h2 (i - mats.numConstraints) (by omega)).2
        rw [show mats.numConstraints + (i - mats.numConstraints) = i by omega] at this
        rw [this, mul_zero]
      · rw [(h3 i (by omega)).2, mul_zero]

/-- **C29** Too many constraints for the field's two-adicity: the error is returned. -/
theorem C29_too_large (mats : ConstraintMatrices F) (z : List F)
    (h : FftField.TWO_ADICITY F < Nat.clog 2 (mats.numConstraints + mats.numInstanceVariables)) :
    qap mats z = .ok none := by
  rw [qap]
  dsimp only
  rw [Domain.new_none h]

/-- **C29** A column outside the assignment makes `qap` panic. -/
theorem C29_column_out_of_range (mats : ConstraintMatrices F) (z : List F) {dom : Domain F}
    (hdom : Domain.new (mats.numConstraints + mats.numInstanceVariables) = some dom)
    (hA : mats.a.length = mats.numConstraints) (hB : mats.b.length = mats.numConstraints)
    (h : ¬ ColumnsBelow z.length mats.a ∨ ¬ ColumnsBelow z.length mats.b) : qap mats z = panic' := by
  have hsz : mats.numConstraints + mats.numInstanceVariables ≤ dom.size := by
    rw [Domain.new] at hdom
    split at hdom
    · cases hdom
    · cases hdom; exact Nat.le_pow_clog (by omega) _
  obtain ⟨i₀, hi₀, hbad⟩ : ∃ i₀ < mats.numConstraints, evaluateConstraint (mats.a.getD i₀ []) z = panic' ∨
      evaluateConstraint (mats.b.getD i₀ []) z = panic' := by
    have key : ∀ M : List (List (F × Nat)), M.length = mats.numConstraints → ¬ ColumnsBelow z.length M →
        ∃ i₀ < mats.numConstraints, evaluateConstraint (M.getD i₀ []) z = panic' := by
      intro M hM hc
      unfold ColumnsBelow at hc
      push Not at hc
      obtain ⟨row, hrow, t, ht, hb⟩ := hc
      obtain ⟨i, hi, rfl⟩ := List.getElem_of_mem hrow
      refine ⟨i, by omega, evaluateConstraint_panic _ _ ⟨t, ?_, hb⟩⟩
      rw [List.getD_eq_getElem _ _ hi]; exact ht
    rcases h with h | h
    · obtain ⟨i, hi, e⟩ := key _ hA h; exact ⟨i, hi, .inl e⟩
    · obtain ⟨i, hi, e⟩ := key _ hB h; exact ⟨i, hi, .inr e⟩
  have hev : ∀ terms : List (F × Nat), evaluateConstraint terms z = panic' ∨ ∃ x, evaluateConstraint terms z = .ok x := by
    intro terms
    by_cases h : ∃ t ∈ terms, z.length ≤ t.2
    · exact .inl (evaluateConstraint_panic _ _ h)
    · push Not at h
      exact .inr ⟨_, evaluateConstraint_ok _ _ h⟩
  rw [qap]
  dsimp only
  rw [hdom, hA, hB, min_self, min_self]
  dsimp only
  rcases forUp_panic_inv (n := mats.numConstraints)
    (body := fun i (st : List F × List F) => do
      let at_i ← rd mats.a i
      let bt_i ← rd mats.b i
      let x ← evaluateConstraint at_i z
      let y ← evaluateConstraint bt_i z
      let a ← wr st.1 i x
      let b ← wr st.2 i y
      pure (a, b)) (s := (List.replicate dom.size (0 : F), List.replicate dom.size (0 : F)))
    (fun k (st : List F × List F) => st.1.length = dom.size ∧ st.2.length = dom.size ∧ k ≤ i₀) (by simp)
    (by
      rintro k hk ⟨a, b⟩ ⟨h1, h2, h3⟩
      dsimp only at h1 h2
      rw [rd_ok (by omega) [], ok_bind, rd_ok (by omega) [], ok_bind]
      by_cases hki : k = i₀
      · subst hki
        left
        rcases hbad with e | e
        · rw [e]; rfl
        · rcases hev (mats.a.getD k []) with e1 | ⟨x, e1⟩
          · rw [e1]; rfl
          · rw [e1, e]; rfl
      rcases hev (mats.a.getD k []) with e1 | ⟨x, e1⟩
      · rw [e1]; left; rfl
      rcases hev (mats.b.getD k []) with e2 | ⟨y, e2⟩
      · rw [e1, e2]; left; rfl
      rw [e1, e2, ok_bind, ok_bind, wr_ok (by dsimp only; omega), ok_bind, wr_ok (by dsimp only; omega), ok_bind]
      exact .inr ⟨_, rfl, by simpa using h1, by simpa using h2, by omega⟩) with e | ⟨s', -, -, -, h⟩
  · rw [e]; rfl
  · omega

/-! ### C30 -/

/-- **C30** `QAP::pss` deals every party `p` a share holding, for each of the three vectors, the `p`-th shares of its packed
positions, in the layout the distributed transforms take as input. -/
theorem C30_pss {dbg₀ : Bool} {b : Nat} {pp : PSS F} (hpp : PSS.new dbg₀ (2 ^ b) = .ok pp) (dbg : Bool) (a : Nat) (q : QAP F)
    (ha : q.a.length = 2 ^ (a + b)) (hb : q.b.length = 2 ^ (a + b)) (hc : q.c.length = 2 ^ (a + b))
    (rngA rngB rngC : Nat → Nat → F) :
    ∃ sh : Nat → PackedQAPShare F, q.pss pp dbg rngA rngB rngC = .ok ((List.range (4 * 2 ^ b)).map sh) ∧
      (∀ p, (sh p).domain = q.domain ∧ (sh p).numInputs = q.numInputs ∧ (sh p).numConstraints = q.numConstraints) ∧
      HoldsOutput pp true a b (fun p => (sh p).a) q.a ∧
      HoldsOutput pp true a b (fun p => (sh p).b) q.b ∧
      HoldsOutput pp true a b (fun p => (sh p).c) q.c := by
  have hle := l_eq hpp
  obtain ⟨sa, sb, sc, e, h1, h2, h3⟩ := QAP.pss_ok (PSS.good_of_new hpp) dbg hle q ha hb hc rngA rngB rngC
  rw [PSS.SharedVec, hle] at h1 h2 h3
  rw [hle] at e
  exact ⟨_, e, fun p => ⟨rfl, rfl, rfl⟩, ⟨ha, h1⟩, ⟨hb, h2⟩, ⟨hc, h3⟩⟩

/-- **C30** Unpacking position `c` across the parties gives the entries of the bit-reversed vector at stride `m/l`. -/
theorem C30_unpacks {dbg₀ : Bool} {b : Nat} {pp : PSS F} (hpp : PSS.new dbg₀ (2 ^ b) = .ok pp) {a : Nat}
    {sh : Nat → List F} {v : List F} (h : HoldsOutput pp true a b sh v) {c : Nat} (hc : c < 2 ^ a) :
    pp.unpack ((List.range (4 * 2 ^ b)).map fun p => (sh p).getD c 0) =
      (List.range (2 ^ b)).map fun j => v.getD (bitRev (a + b) (c + j * 2 ^ a)) 0 := by
  have hle := l_eq hpp
  have hs := h.2
  rw [← hle] at hs
  have := PSS.unpack_of_shares (PSS.good_of_new hpp) le_rfl (hs.2 c hc)
  rw [hle] at this
  rw [this]
  unfold packed slot
  simp only [if_pos]

/-! ### C31 -/

section net
variable [FixedWire F]

theorem Domain.new_double {k : Nat} {dom dom2 : Domain F} (hdom : Domain.new (2 ^ k) = some dom)
    (hdom2 : Domain.new (2 ^ (k + 1)) = some dom2) : dom2.groupGen ^ 2 = dom.groupGen := by
  have h1 := hdom
  have h2 := hdom2
  rw [Domain.new] at h1 h2
  simp only [clog_two_pow] at h1 h2
  split at h1
  · cases h1
  · split at h2
    · cases h2
    · rename_i h
      cases h1
      cases h2
      have := rootOfUnity_pow (F := F) (k := k) (s := 1) (by omega)
      simpa using this

/-- Scaling the coefficients by powers of `g` before transforming gives the values on the coset. -/
theorem Domain.fft_scaled {dom : Domain F} (hoff : dom.offset = 1) {A : F[X]} (hA : A.degree < dom.size) (g : F) :
    dom.fft ((List.range dom.size).map fun k => g ^ k * A.coeff k) =
      (List.range dom.size).map fun i => A.eval (g * dom.groupGen ^ i) := by
  apply list_ext_getD 0 (by simp)
  intro i hi
  rw [Domain.fft_length] at hi
  rw [Domain.fft_getD _ _ hi, getD_map_range, if_pos hi, ← evalAt_coeffs hA, evalAt, List.length_map, List.length_range]
  apply sum_congr rfl
  intro j hj
  have hj := mem_range.1 hj
  rw [getD_map_range, if_pos (by omega), getD_map_range, if_pos (by omega), Domain.element, hoff]
  simp only [smul_eq_mul]
  ring

/-- What `circom_h` and `libsnark_h` do first: all three vectors go from the domain to the coset `g·H`, with `4l` or `4l - 1` servers. -/
theorem toCoset_few {dbg₀ : Bool} {b : Nat} {pp : PSS F} (hpp : PSS.new dbg₀ (2 ^ b) = .ok pp) (dbg : Bool) {n : Nat}
    (hn : n = 4 * 2 ^ b ∨ n + 1 = 4 * 2 ^ b) (a : Nat)
    (ha : a < 64) {dom : Domain F} (hdom : Domain.new (2 ^ (a + b)) = some dom) {sh : Nat → List F} {v : List F}
    (hv : HoldsInput pp a b sh v) {A : F[X]} (hA : Interpolates dom.groupGen (2 ^ (a + b)) (fun i => v.getD i 0) A)
    (g : F) (rearrange : Bool) {m1 m2 : Nat → FftMask F} (hm1 : IsFftMasks pp true g dom.groupGenInv (2 ^ (a + b)) m1)
    (hm2 : IsFftMasks pp rearrange 1 dom.groupGen (2 ^ (a + b)) m2) (sid : Sid) (rng1 rng2 : Nat → Nat → F) :
    ∃ co ev : Nat → List F,
      Runs (Sized (8 + 2 ^ a * FixedWire.width F)) (only sid) (fun i : Fin n => pp.dIfft dbg n i (sh i) (m1 i) true dom g sid rng1) (fun i => co i) ∧
      Runs (Sized (8 + 2 ^ a * FixedWire.width F)) (only sid) (fun i : Fin n => pp.dFft dbg n i (co i) (m2 i) rearrange dom sid rng2) (fun i => ev i) ∧
      HoldsOutput pp rearrange a b ev ((List.range (2 ^ (a + b))).map fun i => A.eval (g * dom.groupGen ^ i)) := by
  obtain ⟨hwf, hoff, -, hsize⟩ := Domain.new_pow2 hdom
  obtain ⟨o1, r1, h1⟩ := dIfft_few hpp dbg hn a ha hdom hv g true hm1 sid rng1
  obtain ⟨o2, r2, h2⟩ := dFft_few hpp dbg hn a ha hdom h1.input rearrange hm2 sid rng2
  refine ⟨o1, o2, r1, r2, ?_⟩
  rw [← hsize] at hA
  have hcoeff : dom.ifft v = (List.range dom.size).map A.coeff :=
    Domain.ifft_of_evals hwf (by simp) (Interpolates.fft hoff (hv.1.trans hsize.symm) hA)
  have : dom.fft ((List.range (2 ^ (a + b))).map fun k => g ^ k * (dom.ifft v).getD k 0) =
      (List.range (2 ^ (a + b))).map fun i => A.eval (g * dom.groupGen ^ i) := by
    rw [hcoeff, ← hsize, ← Domain.fft_scaled hoff hA.1]
    congr 1
    apply List.map_congr_left
    intro k hk
    rw [getD_map_range, if_pos (List.mem_range.1 hk)]
  rw [this] at h2
  exact h2

/-- What `circom_h` and `libsnark_h` do first: all three vectors go from the domain to the coset `g·H`. -/
theorem toCoset_runs {dbg₀ : Bool} {b : Nat} {pp : PSS F} (hpp : PSS.new dbg₀ (2 ^ b) = .ok pp) (dbg : Bool) (a : Nat)
    (ha : a < 64) {dom : Domain F} (hdom : Domain.new (2 ^ (a + b)) = some dom) {sh : Nat → List F} {v : List F}
    (hv : HoldsInput pp a b sh v) {A : F[X]} (hA : Interpolates dom.groupGen (2 ^ (a + b)) (fun i => v.getD i 0) A)
    (g : F) (rearrange : Bool) {m1 m2 : Nat → FftMask F} (hm1 : IsFftMasks pp true g dom.groupGenInv (2 ^ (a + b)) m1)
    (hm2 : IsFftMasks pp rearrange 1 dom.groupGen (2 ^ (a + b)) m2) (sid : Sid) (rng1 rng2 : Nat → Nat → F) :
    ∃ co ev : Nat → List F,
      Runs (Sized (8 + 2 ^ a * FixedWire.width F)) (only sid) (fun i : Fin (4 * 2 ^ b) => pp.dIfft dbg (4 * 2 ^ b) i (sh i) (m1 i) true dom g sid rng1) (fun i => co i) ∧
      Runs (Sized (8 + 2 ^ a * FixedWire.width F)) (only sid) (fun i : Fin (4 * 2 ^ b) => pp.dFft dbg (4 * 2 ^ b) i (co i) (m2 i) rearrange dom sid rng2) (fun i => ev i) ∧
      HoldsOutput pp rearrange a b ev ((List.range (2 ^ (a + b))).map fun i => A.eval (g * dom.groupGen ^ i)) :=
  toCoset_few hpp dbg (Or.inl rfl) a ha hdom hv hA g rearrange hm1 hm2 sid rng1 rng2

/-- The masks `circom_h` needs: `masks p k` is `fft_mask[k]` of party `p`. -/
def IsCircomMasks (pp : PSS F) (root : F) (dom : Domain F) (masks : Nat → Nat → FftMask F) : Prop :=
  (∀ k < 3, IsFftMasks pp true root dom.groupGenInv dom.size fun p => masks p k) ∧
  ∀ k < 3, IsFftMasks pp false 1 dom.groupGen dom.size fun p => masks p (3 + k)

theorem circomH_few {dbg₀ : Bool} {b : Nat} {pp : PSS F} (hpp : PSS.new dbg₀ (2 ^ b) = .ok pp) (dbg : Bool) {n : Nat}
    (hn : n = 4 * 2 ^ b ∨ n + 1 = 4 * 2 ^ b) (a : Nat)
    (ha : a < 64) {dom dom2 : Domain F} (hdom : Domain.new (2 ^ (a + b)) = some dom)
    (hdom2 : Domain.new (2 ^ (a + b + 1)) = some dom2) {q : Nat → PackedQAPShare F} (hq : ∀ p < 4 * 2 ^ b, (q p).domain = dom)
    {va vb vc : List F} (hva : HoldsInput pp a b (fun p => (q p).a) va) (hvb : HoldsInput pp a b (fun p => (q p).b) vb)
    (hvc : HoldsInput pp a b (fun p => (q p).c) vc) {A B C : F[X]}
    (hA : Interpolates dom.groupGen (2 ^ (a + b)) (fun i => va.getD i 0) A)
    (hB : Interpolates dom.groupGen (2 ^ (a + b)) (fun i => vb.getD i 0) B)
    (hC : Interpolates dom.groupGen (2 ^ (a + b)) (fun i => vc.getD i 0) C)
    {masks : Nat → Nat → FftMask F} (hm : IsCircomMasks pp dom2.groupGen dom masks)
    {dmask : Nat → DegRedMask F} (hd : IsDegRedMasks pp (2 ^ a) dmask) (rng : Nat → Nat → Nat → F) :
    ∃ outs : Nat → List F,
      Runs (Sized (8 + 2 ^ a * FixedWire.width F)) (fun _ => True) (fun i : Fin n => pp.circomH dbg n i (q i) (masks i) (dmask i) rng)
        (fun i => outs i) ∧
      HoldsOutput pp false a b outs ((List.range (2 ^ (a + b))).map fun i =>
        (A * B - C).eval (dom2.groupGen * dom.groupGen ^ i)) := by
  have hle := l_eq hpp
  have hg := PSS.good_of_new hpp
  obtain ⟨hwf, hoff, -, hsize⟩ := Domain.new_pow2 hdom
  obtain ⟨-, hoff2, -, hsize2⟩ := Domain.new_pow2 hdom2
  obtain ⟨hm1, hm2⟩ := hm
  rw [hsize] at hm1 hm2
  obtain ⟨ca, ea, ra1, ra2, oa⟩ := toCoset_few hpp dbg hn a ha hdom hva hA dom2.groupGen false (hm1 0 (by omega)) (hm2 0 (by omega))
    .zero (rng 0) (rng 3)
  obtain ⟨cb, eb, rb1, rb2, ob⟩ := toCoset_few hpp dbg hn a ha hdom hvb hB dom2.groupGen false (hm1 1 (by omega)) (hm2 1 (by omega))
    .one (rng 1) (rng 4)
  obtain ⟨cc, ec, rc1, rc2, oc⟩ := toCoset_few hpp dbg hn a ha hdom hvc hC dom2.groupGen false (hm1 2 (by omega)) (hm2 2 (by omega))
    .two (rng 2) (rng 5)
  have hs := SharedVec.mulSub hg hle false rfl (by rw [PSS.SharedVec, hle]; exact oa.2) (by rw [PSS.SharedVec, hle]; exact ob.2)
    (by rw [PSS.SharedVec, hle]; exact oc.2)
  have hl := hg.lpos
  obtain ⟨outs, r, ho⟩ := PSS.degRed_few (n := n) hg dbg (by omega) (by omega) (N := 2 ^ a) (by positivity)
    (Nat.pow_lt_pow_right (by omega) ha) (by omega) le_rfl (decodable_range hpp dbg hn le_rfl) hs (hd.ok hpp (by positivity)) .zero (rng 6)
  refine ⟨outs, ?_, by simp, ?_⟩
  · refine Runs.congr (ps := fun i : Fin n => (Proc.done (unwrap (Domain.new (F := F) (2 * dom.size)))).bind fun dd =>
      tryJoin3 (pp.dIfft dbg n i (q i).a (masks i 0) true dom (dd.element 1) .zero (rng 0))
        (pp.dIfft dbg n i (q i).b (masks i 1) true dom (dd.element 1) .one (rng 1))
        (pp.dIfft dbg n i (q i).c (masks i 2) true dom (dd.element 1) .two (rng 2)) fun aCoeff bCoeff cCoeff =>
      tryJoin3 (pp.dFft dbg n i aCoeff (masks i 3) false dom .zero (rng 3))
        (pp.dFft dbg n i bCoeff (masks i 4) false dom .one (rng 4))
        (pp.dFft dbg n i cCoeff (masks i 5) false dom .two (rng 5)) fun aEval bEval cEval =>
      pp.degRed dbg n i (List.zipWith (fun ab c => ab.1 * ab.2 - c) (List.zip aEval bEval) cEval) (dmask i) .zero (rng 6))
      ?_ (fun i => by rw [PSS.circomH, hq i (by omega)]; rfl) fun _ => rfl
    refine Runs.lift_bind (rs := fun _ => dom2) (fun i => by rw [hsize, ← pow_succ', hdom2]; rfl) ?_
    have hroot : dom2.element 1 = dom2.groupGen := by rw [Domain.element, hoff2, one_mul, pow_one]
    simp only [hroot]
    exact Runs.tryJoin3 ra1 rb1 rc1 (Runs.tryJoin3 ra2 rb2 rc2 (r.mono fun _ _ => trivial))
  · rw [← hle]
    refine SharedVec.congr ho (fun _ _ => rfl) fun c hc => packed_congr _ hc fun i hi => ?_
    simp only [getD_map_range, if_pos hi, eval_sub, eval_mul]

theorem circomH_runs {dbg₀ : Bool} {b : Nat} {pp : PSS F} (hpp : PSS.new dbg₀ (2 ^ b) = .ok pp) (dbg : Bool) (a : Nat)
    (ha : a < 64) {dom dom2 : Domain F} (hdom : Domain.new (2 ^ (a + b)) = some dom)
    (hdom2 : Domain.new (2 ^ (a + b + 1)) = some dom2) {q : Nat → PackedQAPShare F} (hq : ∀ p < 4 * 2 ^ b, (q p).domain = dom)
    {va vb vc : List F} (hva : HoldsInput pp a b (fun p => (q p).a) va) (hvb : HoldsInput pp a b (fun p => (q p).b) vb)
    (hvc : HoldsInput pp a b (fun p => (q p).c) vc) {A B C : F[X]}
    (hA : Interpolates dom.groupGen (2 ^ (a + b)) (fun i => va.getD i 0) A)
    (hB : Interpolates dom.groupGen (2 ^ (a + b)) (fun i => vb.getD i 0) B)
    (hC : Interpolates dom.groupGen (2 ^ (a + b)) (fun i => vc.getD i 0) C)
    {masks : Nat → Nat → FftMask F} (hm : IsCircomMasks pp dom2.groupGen dom masks)
    {dmask : Nat → DegRedMask F} (hd : IsDegRedMasks pp (2 ^ a) dmask) (rng : Nat → Nat → Nat → F) :
    ∃ outs : Nat → List F,
      Runs (Sized (8 + 2 ^ a * FixedWire.width F)) (fun _ => True) (fun i : Fin (4 * 2 ^ b) => pp.circomH dbg (4 * 2 ^ b) i (q i) (masks i) (dmask i) rng)
        (fun i => outs i) ∧
      HoldsOutput pp false a b outs ((List.range (2 ^ (a + b))).map fun i =>
        (A * B - C).eval (dom2.groupGen * dom.groupGen ^ i)) :=
  circomH_few hpp dbg (Or.inl rfl) a ha hdom hdom2 hq hva hvb hvc hA hB hC hm hd rng

theorem circomH_wf {pp : PSS F} (dbg : Bool) {n : Nat} (hn : 0 < n) (me : Nat) (q : PackedQAPShare F)
    (mask : Nat → FftMask F) (dmask : DegRedMask F) (rng : Nat → Nat → Nat → F) :
    (pp.circomH dbg n me q mask dmask rng).WF fun _ => True :=
  (Proc.WF.done _ _).bind fun _ => .tryJoin3 (PSS.dIfft_wf _ hn _ _ _ _ _ _ _ _) (PSS.dIfft_wf _ hn _ _ _ _ _ _ _ _)
    (PSS.dIfft_wf _ hn _ _ _ _ _ _ _ _) fun _ _ _ => .tryJoin3 (PSS.dFft_wf _ hn _ _ _ _ _ _ _) (PSS.dFft_wf _ hn _ _ _ _ _ _ _)
    (PSS.dFft_wf _ hn _ _ _ _ _ _ _) fun _ _ _ => (PSS.degRed_wf _ hn _ _ _ _ _).mono fun _ _ => trivial

/-- **C31** `circom_h`: let the parties hold the vectors `va`, `vb`, `vc` and let `A`, `B`, `C` be the polynomials of degree
below `m = 2^(a+b)` that take these values on the domain. Under every schedule every party ends with its share of the values of
`A·B - C` at the odd powers `w^(2i+1)` of the primitive `2m`-th root of unity `w`, in consecutive chunks and with `2l`
coefficients. -/
theorem C31_circom_h {dbg₀ : Bool} {b : Nat} {pp : PSS F} (hpp : PSS.new dbg₀ (2 ^ b) = .ok pp) (dbg : Bool) (a : Nat)
    (ha : a < 64) {dom dom2 : Domain F} (hdom : Domain.new (2 ^ (a + b)) = some dom)
    (hdom2 : Domain.new (2 ^ (a + b + 1)) = some dom2) (q : Nat → PackedQAPShare F) (hq : ∀ p < 4 * 2 ^ b, (q p).domain = dom)
    (va vb vc : List F) (hva : HoldsInput pp a b (fun p => (q p).a) va) (hvb : HoldsInput pp a b (fun p => (q p).b) vb)
    (hvc : HoldsInput pp a b (fun p => (q p).c) vc) (A B C : F[X])
    (hA : Interpolates dom.groupGen (2 ^ (a + b)) (fun i => va.getD i 0) A)
    (hB : Interpolates dom.groupGen (2 ^ (a + b)) (fun i => vb.getD i 0) B)
    (hC : Interpolates dom.groupGen (2 ^ (a + b)) (fun i => vc.getD i 0) C)
    (masks : Nat → Nat → FftMask F) (hm : IsCircomMasks pp dom2.groupGen dom masks)
    (dmask : Nat → DegRedMask F) (hd : IsDegRedMasks pp (2 ^ a) dmask) (rng : Nat → Nat → Nat → F) :
    ∃ outs : Nat → List F,
      AlwaysYields (Net.init fun i : Fin (4 * 2 ^ b) => pp.circomH dbg (4 * 2 ^ b) i (q i) (masks i) (dmask i) rng)
        (fun i => outs i) ∧
      IsPrimitiveRoot dom2.groupGen (2 * 2 ^ (a + b)) ∧ IsPrimitiveRoot dom.groupGen (2 ^ (a + b)) ∧
      dom2.groupGen ^ 2 = dom.groupGen ∧
      HoldsOutput pp false a b outs ((List.range (2 ^ (a + b))).map fun i => (A * B - C).eval (dom2.groupGen ^ (2 * i + 1))) ∧
      opened pp (2 ^ a) outs = (List.range (2 ^ (a + b))).map fun i => (A * B - C).eval (dom2.groupGen ^ (2 * i + 1)) := by
  obtain ⟨hwf, -, -, hsize⟩ := Domain.new_pow2 hdom
  obtain ⟨hwf2, -, -, hsize2⟩ := Domain.new_pow2 hdom2
  have h2 := Domain.new_double hdom hdom2
  obtain ⟨outs, hr, ho⟩ := circomH_runs hpp dbg a ha hdom hdom2 hq hva hvb hvc hA hB hC hm hd rng
  have hp : ∀ i, dom2.groupGen * dom.groupGen ^ i = dom2.groupGen ^ (2 * i + 1) := fun i => by
    rw [← h2, ← pow_mul, pow_succ, mul_comm]
  simp only [hp] at ho
  refine ⟨outs, hr.alwaysYields fun i => circomH_wf _ (by positivity) _ _ _ _ _, ?_, hsize ▸ hwf.prim, h2, ho, ho.opened hpp⟩
  rw [← pow_succ', ← hsize2]
  exact hwf2.prim

/-! ### C32 -/

theorem natDegree_lt_of_degree_lt {m : Nat} (hm : 0 < m) {A : F[X]} (h : A.degree < m) : A.natDegree < m := by
  by_cases h0 : A = 0
  · simpa [h0] using hm
  · exact (natDegree_lt_iff_degree_lt h0).2 h

/-- If `a·b = c` on the domain then `A·B - C` is a multiple of `X^m - 1`. -/
theorem quotient_exists {ω : F} {m : Nat} (hm : 0 < m) (hω : IsPrimitiveRoot ω m) {va vb vc : Nat → F} {A B C : F[X]}
    (hA : Interpolates ω m va A) (hB : Interpolates ω m vb B) (hC : Interpolates ω m vc C)
    (h : ∀ i < m, va i * vb i = vc i) : ∃ H : F[X], A * B - C = H * (X ^ m - 1) := by
  have hmon : (X ^ m - 1 : F[X]).Monic := monic_X_pow_sub_C 1 (by omega)
  have hdeg : (X ^ m - 1 : F[X]).degree = m := degree_X_pow_sub_C hm 1
  have hr : (A * B - C) %ₘ (X ^ m - 1) = 0 := by
    refine Interpolates.unique hω (v := fun _ => 0) ⟨?_, fun i hi => ?_⟩ ⟨by simp, fun i hi => by simp⟩
    · rw [← hdeg]; exact degree_modByMonic_lt _ hmon
    · have e := congrArg (Polynomial.eval (ω ^ i)) (modByMonic_add_div (A * B - C) (X ^ m - 1 : F[X]))
      rw [eval_add, eval_mul, eval_sub, eval_pow, eval_X, eval_one, ← pow_mul, mul_comm i, pow_mul, hω.pow_eq_one, one_pow, sub_self,
        zero_mul, add_zero, eval_sub, eval_mul, hA.2 i hi, hB.2 i hi, hC.2 i hi, h i hi, sub_self] at e
      exact e
  refine ⟨(A * B - C) /ₘ (X ^ m - 1), ?_⟩
  have e := modByMonic_add_div (A * B - C) (X ^ m - 1 : F[X])
  rw [hr, zero_add] at e
  rw [mul_comm ((A * B - C) /ₘ (X ^ m - 1)), e]

/-- The quotient has degree below `m`. -/
theorem quotient_degree {m : Nat} (hm : 0 < m) {A B C H : F[X]} (hA : A.degree < m) (hB : B.degree < m) (hC : C.degree < m)
    (h : A * B - C = H * (X ^ m - 1)) : H.degree < m := by
  by_cases h0 : H = 0
  · rw [h0, degree_zero]; exact WithBot.bot_lt_coe m
  have hmon : (X ^ m - 1 : F[X]).Monic := monic_X_pow_sub_C 1 (by omega)
  have hdeg : (X ^ m - 1 : F[X]).natDegree = m := natDegree_X_pow_sub_C
  have h1 : (A * B - C).natDegree ≤ max (A.natDegree + B.natDegree) C.natDegree :=
    (natDegree_sub_le _ _).trans (max_le_max natDegree_mul_le le_rfl)
  rw [h, mul_comm, hmon.natDegree_mul' h0, hdeg] at h1
  have := natDegree_lt_of_degree_lt hm hA
  have := natDegree_lt_of_degree_lt hm hB
  have := natDegree_lt_of_degree_lt hm hC
  exact (natDegree_lt_iff_degree_lt h0).1 (by omega)

/-- The masks `libsnark_h` needs. -/
def IsLibsnarkMasks (pp : PSS F) (dom : Domain F) (masks : Nat → Nat → FftMask F) : Prop :=
  (∀ k < 3, IsFftMasks pp true FftField.GENERATOR dom.groupGenInv dom.size fun p => masks p k) ∧
  (∀ k < 3, IsFftMasks pp true 1 dom.groupGen dom.size fun p => masks p (3 + k)) ∧
  IsFftMasks pp false FftField.GENERATOR⁻¹ dom.groupGenInv dom.size fun p => masks p 6

/-- The generator of the field does not lie on the domain as soon as some element does not. -/
theorem generator_pow_ne_one {m : Nat} (h : ∃ x : F, x ≠ 0 ∧ x ^ m ≠ 1) : (FftField.GENERATOR : F) ^ m - 1 ≠ 0 := by
  obtain ⟨x, hx, hxm⟩ := h
  obtain ⟨k, rfl⟩ := FftField.generator_generates x hx
  intro e
  exact hxm (by rw [← pow_mul, mul_comm, pow_mul, sub_eq_zero.1 e, one_pow])

/-- `libsnark_h` for any `a`, `b`, `c`: the coset is interpolated through the values of `(A·B - C) / (X^m - 1)`, with `4l` or `4l - 1` servers. -/
theorem libsnarkH_few_any {dbg₀ : Bool} {b : Nat} {pp : PSS F} (hpp : PSS.new dbg₀ (2 ^ b) = .ok pp) (dbg : Bool) {n : Nat}
    (hn : n = 4 * 2 ^ b ∨ n + 1 = 4 * 2 ^ b) (a : Nat)
    (ha : a < 64) {dom : Domain F} (hdom : Domain.new (2 ^ (a + b)) = some dom) (hcos : ∃ x : F, x ≠ 0 ∧ x ^ 2 ^ (a + b) ≠ 1)
    {q : Nat → PackedQAPShare F} (hq : ∀ p < 4 * 2 ^ b, (q p).domain = dom)
    {va vb vc : List F} (hva : HoldsInput pp a b (fun p => (q p).a) va) (hvb : HoldsInput pp a b (fun p => (q p).b) vb)
    (hvc : HoldsInput pp a b (fun p => (q p).c) vc) {A B C : F[X]}
    (hA : Interpolates dom.groupGen (2 ^ (a + b)) (fun i => va.getD i 0) A)
    (hB : Interpolates dom.groupGen (2 ^ (a + b)) (fun i => vb.getD i 0) B)
    (hC : Interpolates dom.groupGen (2 ^ (a + b)) (fun i => vc.getD i 0) C)
    {masks : Nat → Nat → FftMask F} (hm : IsLibsnarkMasks pp dom masks) (rng : Nat → Nat → Nat → F) :
    ∃ outs : Nat → List F,
      Runs (Sized (8 + 2 ^ a * FixedWire.width F)) (fun _ => True) (fun i : Fin n => pp.libsnarkH dbg n i (q i) (masks i) rng)
        (fun i => outs i) ∧
      HoldsOutput pp false a b outs ((List.range (2 ^ (a + b))).map fun k => FftField.GENERATOR⁻¹ ^ k *
        (dom.ifft ((List.range (2 ^ (a + b))).map fun i => (A * B - C).eval (FftField.GENERATOR * dom.groupGen ^ i) *
          (FftField.GENERATOR ^ 2 ^ (a + b) - 1)⁻¹)).getD k 0) := by
  have hle := l_eq hpp
  have hg := PSS.good_of_new hpp
  have hl := hg.lpos
  have hz := generator_pow_ne_one hcos
  obtain ⟨hwf, hoff, hoffi, hsize⟩ := Domain.new_pow2 hdom
  obtain ⟨hm1, hm2, hm3⟩ := hm
  rw [hsize] at hm1 hm2 hm3
  set g : F := FftField.GENERATOR with hgdef
  have hg0 : g ≠ 0 := FftField.generator_ne_zero
  obtain ⟨ca, ea, ra1, ra2, oa⟩ := toCoset_few hpp dbg hn a ha hdom hva hA g true (hm1 0 (by omega)) (hm2 0 (by omega))
    .zero (rng 0) (rng 3)
  obtain ⟨cb, eb, rb1, rb2, ob⟩ := toCoset_few hpp dbg hn a ha hdom hvb hB g true (hm1 1 (by omega)) (hm2 1 (by omega))
    .one (rng 1) (rng 4)
  obtain ⟨cc, ec, rc1, rc2, oc⟩ := toCoset_few hpp dbg hn a ha hdom hvc hC g true (hm1 2 (by omega)) (hm2 2 (by omega))
    .two (rng 2) (rng 5)
  have hs := SharedVec.scale (SharedVec.mulSub hg hle true rfl (by rw [PSS.SharedVec, hle]; exact oa.2) (by rw [PSS.SharedVec, hle]; exact ob.2)
    (by rw [PSS.SharedVec, hle]; exact oc.2)) (g ^ 2 ^ (a + b) - 1)⁻¹
  set hs_ : Nat → List F := fun p => List.zipWith (fun ab c => (ab.1 * ab.2 - c) * (g ^ 2 ^ (a + b) - 1)⁻¹) (List.zip (ea p) (eb p)) (ec p)
    with hsdef
  have hin : HoldsInput pp a b hs_ ((List.range (2 ^ (a + b))).map fun i =>
      (A * B - C).eval (g * dom.groupGen ^ i) * (g ^ 2 ^ (a + b) - 1)⁻¹) := by
    refine ⟨by simp, 4 * 2 ^ b - 1, by rw [hle] at hl; omega, le_rfl, ?_⟩
    rw [← hle]
    refine SharedVec.congr hs (fun p _ => ?_) fun c hc => ?_
    · rw [hsdef, List.map_zipWith]
    · unfold packed
      rw [List.map_map]
      apply List.map_congr_left
      intro j hj
      have hi : slot true a b c j < 2 ^ (a + b) := by
        exact slot_lt _ hc (List.mem_range.1 hj)
      simp only [Function.comp, getD_map_range, if_pos hi]
      rw [eval_sub, eval_mul]
  obtain ⟨outs, r, ho⟩ := dIfft_few hpp dbg hn a ha hdom hin g⁻¹ false hm3 .zero (rng 6)
  refine ⟨outs, ?_, ho⟩
  · refine Runs.congr (ps := fun i : Fin n => (Proc.done (unwrap (dom.getCoset g))).bind fun cos =>
      tryJoin3 (pp.dIfft dbg n i (q i).a (masks i 0) true dom cos.offset .zero (rng 0))
        (pp.dIfft dbg n i (q i).b (masks i 1) true dom cos.offset .one (rng 1))
        (pp.dIfft dbg n i (q i).c (masks i 2) true dom cos.offset .two (rng 2)) fun aCoeff bCoeff cCoeff =>
      tryJoin3 (pp.dFft dbg n i aCoeff (masks i 3) true dom .zero (rng 3))
        (pp.dFft dbg n i bCoeff (masks i 4) true dom .one (rng 4))
        (pp.dFft dbg n i cCoeff (masks i 5) true dom .two (rng 5)) fun aEval bEval cEval =>
      (Proc.done (unwrap (fieldInverse (dom.evalVanishing g)))).bind fun vinv =>
      pp.dIfft dbg n i (List.zipWith (fun ab c => (ab.1 * ab.2 - c) * vinv) (List.zip aEval bEval) cEval) (masks i 6) false dom
        cos.offsetInv .zero (rng 6))
      ?_ (fun i => by rw [PSS.libsnarkH, hq i (by omega)]; rfl) fun _ => rfl
    refine Runs.lift_bind (rs := fun _ => { dom with offset := g, offsetInv := g⁻¹ })
      (fun i => by rw [Domain.getCoset, if_neg hg0]; rfl) ?_
    dsimp only
    refine Runs.tryJoin3 ra1 rb1 rc1 (Runs.tryJoin3 ra2 rb2 rc2 ?_)
    refine Runs.lift_bind (rs := fun _ => (g ^ 2 ^ (a + b) - 1)⁻¹) (fun i => ?_) (r.mono fun _ _ => trivial)
    rw [Domain.evalVanishing, hoff, hsize, one_pow, fieldInverse, if_neg hz]; rfl

/-- `libsnark_h` for any `a`, `b`, `c`: the coset is interpolated through the values of `(A·B - C) / (X^m - 1)`. -/
theorem libsnarkH_runs_any {dbg₀ : Bool} {b : Nat} {pp : PSS F} (hpp : PSS.new dbg₀ (2 ^ b) = .ok pp) (dbg : Bool) (a : Nat)
    (ha : a < 64) {dom : Domain F} (hdom : Domain.new (2 ^ (a + b)) = some dom) (hcos : ∃ x : F, x ≠ 0 ∧ x ^ 2 ^ (a + b) ≠ 1)
    {q : Nat → PackedQAPShare F} (hq : ∀ p < 4 * 2 ^ b, (q p).domain = dom)
    {va vb vc : List F} (hva : HoldsInput pp a b (fun p => (q p).a) va) (hvb : HoldsInput pp a b (fun p => (q p).b) vb)
    (hvc : HoldsInput pp a b (fun p => (q p).c) vc) {A B C : F[X]}
    (hA : Interpolates dom.groupGen (2 ^ (a + b)) (fun i => va.getD i 0) A)
    (hB : Interpolates dom.groupGen (2 ^ (a + b)) (fun i => vb.getD i 0) B)
    (hC : Interpolates dom.groupGen (2 ^ (a + b)) (fun i => vc.getD i 0) C)
    {masks : Nat → Nat → FftMask F} (hm : IsLibsnarkMasks pp dom masks) (rng : Nat → Nat → Nat → F) :
    ∃ outs : Nat → List F,
      Runs (Sized (8 + 2 ^ a * FixedWire.width F)) (fun _ => True) (fun i : Fin (4 * 2 ^ b) => pp.libsnarkH dbg (4 * 2 ^ b) i (q i) (masks i) rng)
        (fun i => outs i) ∧
      HoldsOutput pp false a b outs ((List.range (2 ^ (a + b))).map fun k => FftField.GENERATOR⁻¹ ^ k *
        (dom.ifft ((List.range (2 ^ (a + b))).map fun i => (A * B - C).eval (FftField.GENERATOR * dom.groupGen ^ i) *
          (FftField.GENERATOR ^ 2 ^ (a + b) - 1)⁻¹)).getD k 0) :=
  libsnarkH_few_any hpp dbg (Or.inl rfl) a ha hdom hcos hq hva hvb hvc hA hB hC hm rng

theorem libsnarkH_few {dbg₀ : Bool} {b : Nat} {pp : PSS F} (hpp : PSS.new dbg₀ (2 ^ b) = .ok pp) (dbg : Bool) {n : Nat}
    (hn : n = 4 * 2 ^ b ∨ n + 1 = 4 * 2 ^ b) (a : Nat)
    (ha : a < 64) {dom : Domain F} (hdom : Domain.new (2 ^ (a + b)) = some dom) (hcos : ∃ x : F, x ≠ 0 ∧ x ^ 2 ^ (a + b) ≠ 1)
    {q : Nat → PackedQAPShare F} (hq : ∀ p < 4 * 2 ^ b, (q p).domain = dom)
    {va vb vc : List F} (hva : HoldsInput pp a b (fun p => (q p).a) va) (hvb : HoldsInput pp a b (fun p => (q p).b) vb)
    (hvc : HoldsInput pp a b (fun p => (q p).c) vc) {A B C H : F[X]}
    (hA : Interpolates dom.groupGen (2 ^ (a + b)) (fun i => va.getD i 0) A)
    (hB : Interpolates dom.groupGen (2 ^ (a + b)) (fun i => vb.getD i 0) B)
    (hC : Interpolates dom.groupGen (2 ^ (a + b)) (fun i => vc.getD i 0) C)
    (hH : A * B - C = H * (X ^ 2 ^ (a + b) - 1))
    {masks : Nat → Nat → FftMask F} (hm : IsLibsnarkMasks pp dom masks) (rng : Nat → Nat → Nat → F) :
    ∃ outs : Nat → List F,
      Runs (Sized (8 + 2 ^ a * FixedWire.width F)) (fun _ => True) (fun i : Fin n => pp.libsnarkH dbg n i (q i) (masks i) rng)
        (fun i => outs i) ∧
      HoldsOutput pp false a b outs ((List.range (2 ^ (a + b))).map H.coeff) := by
  have hdegH : H.degree < (2 ^ (a + b) : Nat) := quotient_degree (by positivity) hA.1 hB.1 hC.1 hH
  have hz := generator_pow_ne_one hcos
  obtain ⟨hwf, hoff, hoffi, hsize⟩ := Domain.new_pow2 hdom
  have hg0 : (FftField.GENERATOR : F) ≠ 0 := FftField.generator_ne_zero
  obtain ⟨outs, r, ho⟩ := libsnarkH_few_any hpp dbg hn a ha hdom hcos hq hva hvb hvc hA hB hC hm rng
  refine ⟨outs, r, cast ?_ ho⟩
  set g : F := FftField.GENERATOR
  have hv : ((List.range (2 ^ (a + b))).map fun i => (A * B - C).eval (g * dom.groupGen ^ i) * (g ^ 2 ^ (a + b) - 1)⁻¹) =
      (List.range (2 ^ (a + b))).map fun i => H.eval (g * dom.groupGen ^ i) := by
    apply List.map_congr_left
    intro i _
    have e := congrArg (Polynomial.eval (g * dom.groupGen ^ i)) hH
    rw [eval_mul (p := H), eval_sub (p := X ^ 2 ^ (a + b)), eval_pow, eval_X, eval_one, mul_pow, ← pow_mul, mul_comm i, pow_mul,
      show dom.groupGen ^ 2 ^ (a + b) = 1 by rw [← hsize]; exact hwf.prim.pow_eq_one, one_pow, mul_one] at e
    rw [e, mul_assoc, mul_inv_cancel₀ hz, mul_one]
  have : dom.ifft ((List.range (2 ^ (a + b))).map fun i => H.eval (g * dom.groupGen ^ i)) =
      (List.range (2 ^ (a + b))).map fun k => g ^ k * H.coeff k := by
    rw [← hsize] at hdegH ⊢
    exact Domain.ifft_of_evals hwf (by simp) (Domain.fft_scaled hoff hdegH g)
  rw [hv, this]
  congr 1
  apply List.map_congr_left
  intro k hk
  rw [getD_map_range, if_pos (List.mem_range.1 hk), ← mul_assoc, ← mul_pow, inv_mul_cancel₀ hg0, one_pow, one_mul]

theorem libsnarkH_runs {dbg₀ : Bool} {b : Nat} {pp : PSS F} (hpp : PSS.new dbg₀ (2 ^ b) = .ok pp) (dbg : Bool) (a : Nat)
    (ha : a < 64) {dom : Domain F} (hdom : Domain.new (2 ^ (a + b)) = some dom) (hcos : ∃ x : F, x ≠ 0 ∧ x ^ 2 ^ (a + b) ≠ 1)
    {q : Nat → PackedQAPShare F} (hq : ∀ p < 4 * 2 ^ b, (q p).domain = dom)
    {va vb vc : List F} (hva : HoldsInput pp a b (fun p => (q p).a) va) (hvb : HoldsInput pp a b (fun p => (q p).b) vb)
    (hvc : HoldsInput pp a b (fun p => (q p).c) vc) {A B C H : F[X]}
    (hA : Interpolates dom.groupGen (2 ^ (a + b)) (fun i => va.getD i 0) A)
    (hB : Interpolates dom.groupGen (2 ^ (a + b)) (fun i => vb.getD i 0) B)
    (hC : Interpolates dom.groupGen (2 ^ (a + b)) (fun i => vc.getD i 0) C)
    (hH : A * B - C = H * (X ^ 2 ^ (a + b) - 1))
    {masks : Nat → Nat → FftMask F} (hm : IsLibsnarkMasks pp dom masks) (rng : Nat → Nat → Nat → F) :
    ∃ outs : Nat → List F,
      Runs (Sized (8 + 2 ^ a * FixedWire.width F)) (fun _ => True) (fun i : Fin (4 * 2 ^ b) => pp.libsnarkH dbg (4 * 2 ^ b) i (q i) (masks i) rng)
        (fun i => outs i) ∧
      HoldsOutput pp false a b outs ((List.range (2 ^ (a + b))).map H.coeff) :=
  libsnarkH_few hpp dbg (Or.inl rfl) a ha hdom hcos hq hva hvb hvc hA hB hC hH hm rng

theorem libsnarkH_wf {pp : PSS F} (dbg : Bool) {n : Nat} (hn : 0 < n) (me : Nat) (q : PackedQAPShare F)
    (mask : Nat → FftMask F) (rng : Nat → Nat → Nat → F) :
    (pp.libsnarkH dbg n me q mask rng).WF fun _ => True :=
  (Proc.WF.done _ _).bind fun _ => .tryJoin3 (PSS.dIfft_wf _ hn _ _ _ _ _ _ _ _) (PSS.dIfft_wf _ hn _ _ _ _ _ _ _ _)
    (PSS.dIfft_wf _ hn _ _ _ _ _ _ _ _) fun _ _ _ => .tryJoin3 (PSS.dFft_wf _ hn _ _ _ _ _ _ _) (PSS.dFft_wf _ hn _ _ _ _ _ _ _)
    (PSS.dFft_wf _ hn _ _ _ _ _ _ _) fun _ _ _ => (Proc.WF.done _ _).bind fun _ =>
      (PSS.dIfft_wf _ hn _ _ _ _ _ _ _ _).mono fun _ _ => trivial

/-- **C32** `libsnark_h`: if `a·b = c` on the domain then there is a (unique) polynomial `H` with `A·B - C = H·(X^m - 1)`, and
under every schedule every party ends with its share of the coefficients of `H`. The field has to have a non-zero element outside
the domain: otherwise the vanishing polynomial has no inverse on the coset and every party panics. -/
theorem C32_libsnark_h {dbg₀ : Bool} {b : Nat} {pp : PSS F} (hpp : PSS.new dbg₀ (2 ^ b) = .ok pp) (dbg : Bool) (a : Nat)
    (ha : a < 64) {dom : Domain F} (hdom : Domain.new (2 ^ (a + b)) = some dom) (hcos : ∃ x : F, x ≠ 0 ∧ x ^ 2 ^ (a + b) ≠ 1)
    (q : Nat → PackedQAPShare F) (hq : ∀ p < 4 * 2 ^ b, (q p).domain = dom)
    (va vb vc : List F) (hva : HoldsInput pp a b (fun p => (q p).a) va) (hvb : HoldsInput pp a b (fun p => (q p).b) vb)
    (hvc : HoldsInput pp a b (fun p => (q p).c) vc) (A B C : F[X])
    (hA : Interpolates dom.groupGen (2 ^ (a + b)) (fun i => va.getD i 0) A)
    (hB : Interpolates dom.groupGen (2 ^ (a + b)) (fun i => vb.getD i 0) B)
    (hC : Interpolates dom.groupGen (2 ^ (a + b)) (fun i => vc.getD i 0) C)
    (hsat : ∀ i < 2 ^ (a + b), va.getD i 0 * vb.getD i 0 = vc.getD i 0)
    (masks : Nat → Nat → FftMask F) (hm : IsLibsnarkMasks pp dom masks) (rng : Nat → Nat → Nat → F) :
    ∃ (H : F[X]) (outs : Nat → List F),
      AlwaysYields (Net.init fun i : Fin (4 * 2 ^ b) => pp.libsnarkH dbg (4 * 2 ^ b) i (q i) (masks i) rng) (fun i => outs i) ∧
      A * B - C = H * (X ^ 2 ^ (a + b) - 1) ∧ H.degree < (2 ^ (a + b) : Nat) ∧
      HoldsOutput pp false a b outs ((List.range (2 ^ (a + b))).map H.coeff) ∧
      opened pp (2 ^ a) outs = (List.range (2 ^ (a + b))).map H.coeff := by
  obtain ⟨hwf, -, -, hsize⟩ := Domain.new_pow2 hdom
  obtain ⟨H, hH⟩ := quotient_exists (by positivity) (hsize ▸ hwf.prim) hA hB hC hsat
  obtain ⟨outs, hr, ho⟩ := libsnarkH_runs hpp dbg a ha hdom hcos hq hva hvb hvc hA hB hC hH hm rng
  exact ⟨H, outs, hr.alwaysYields fun i => libsnarkH_wf _ (by positivity) _ _ _ _, hH,
    quotient_degree (by positivity) hA.1 hB.1 hC.1 hH, ho, ho.opened hpp⟩

theorem Domain.new_size {k : Nat} {dom : Domain F} (h : Domain.new k = some dom) : Domain.new dom.size = some dom := by
  rw [Domain.new] at h
  split at h
  · cases h
  · rename_i hk
    cases h
    dsimp only
    rw [Domain.new, clog_two_pow, if_neg hk]

/-- **C31, C32** From the circuit to the quotient: for every constraint system and every assignment the parties, holding what `qap`
and `QAP::pss` deal them, end under every schedule of `circom_h` with shares of the values of `A·B - C` at the odd powers of the
`2m`-th root of unity, and under every schedule of `libsnark_h` with shares of the coefficients of `H = (A·B - C)/(X^m - 1)`,
`A`, `B`, `C` being the polynomials that take the values of the QAP vectors on the domain. -/
theorem C32_end_to_end {dbg₀ : Bool} {b : Nat} {pp : PSS F} (hpp : PSS.new dbg₀ (2 ^ b) = .ok pp) (dbg : Bool) (a : Nat)
    (ha : a < 64) (mats : ConstraintMatrices F) (z : List F) {dom dom2 : Domain F}
    (hdom : Domain.new (mats.numConstraints + mats.numInstanceVariables) = some dom) (hsize : dom.size = 2 ^ (a + b))
    (hdom2 : Domain.new (2 ^ (a + b + 1)) = some dom2)
    (hA : mats.a.length = mats.numConstraints) (hB : mats.b.length = mats.numConstraints)
    (hcA : ColumnsBelow z.length mats.a) (hcB : ColumnsBelow z.length mats.b) (hz : mats.numInstanceVariables ≤ z.length)
    (rngA rngB rngC : Nat → Nat → F) (masks masks' : Nat → Nat → FftMask F) (hm : IsCircomMasks pp dom2.groupGen dom masks)
    (hm' : IsLibsnarkMasks pp dom masks')
    (dmask : Nat → DegRedMask F) (hd : IsDegRedMasks pp (2 ^ a) dmask) (rng rng' : Nat → Nat → Nat → F) :
    ∃ (q : QAP F) (sh : Nat → PackedQAPShare F) (A B C H : F[X]) (outs outs' : Nat → List F),
      qap mats z = .ok (some q) ∧ q.pss pp dbg rngA rngB rngC = .ok ((List.range (4 * 2 ^ b)).map sh) ∧
      Interpolates dom.groupGen (2 ^ (a + b)) (fun i => q.a.getD i 0) A ∧
      Interpolates dom.groupGen (2 ^ (a + b)) (fun i => q.b.getD i 0) B ∧
      Interpolates dom.groupGen (2 ^ (a + b)) (fun i => q.c.getD i 0) C ∧
      A * B - C = H * (X ^ 2 ^ (a + b) - 1) ∧ H.degree < (2 ^ (a + b) : Nat) ∧
      AlwaysYields (Net.init fun i : Fin (4 * 2 ^ b) => pp.circomH dbg (4 * 2 ^ b) i (sh i) (masks i) (dmask i) rng)
        (fun i => outs i) ∧
      opened pp (2 ^ a) outs = ((List.range (2 ^ (a + b))).map fun i => (A * B - C).eval (dom2.groupGen ^ (2 * i + 1))) ∧
      AlwaysYields (Net.init fun i : Fin (4 * 2 ^ b) => pp.libsnarkH dbg (4 * 2 ^ b) i (sh i) (masks' i) rng')
        (fun i => outs' i) ∧
      opened pp (2 ^ a) outs' = (List.range (2 ^ (a + b))).map H.coeff := by
  have hdom' : Domain.new (2 ^ (a + b)) = some dom := hsize ▸ Domain.new_size hdom
  obtain ⟨hwf, hoff, -, -⟩ := Domain.new_pow2 hdom'
  obtain ⟨hwf2, -, -, hsize2⟩ := Domain.new_pow2 hdom2
  obtain ⟨q, eq, rfl, -, -, ha', hb', hc', -, -, -, hc⟩ := C29_qap mats z hdom hA hB hcA hcB hz
  obtain ⟨sh, es, hdm, h1, h2, h3⟩ := C30_pss hpp dbg a q (ha'.trans hsize) (hb'.trans hsize) (hc'.trans hsize) rngA rngB rngC
  obtain ⟨A, iA⟩ := Interpolates.exists hwf hoff q.a ha'
  obtain ⟨B, iB⟩ := Interpolates.exists hwf hoff q.b hb'
  obtain ⟨C, iC⟩ := Interpolates.exists hwf hoff q.c hc'
  rw [hsize] at iA iB iC
  have hcos : ∃ x : F, x ≠ 0 ∧ x ^ 2 ^ (a + b) ≠ 1 := by
    have hp := hwf2.prim
    rw [hsize2] at hp
    refine ⟨dom2.groupGen, hp.ne_zero (by positivity), fun e => ?_⟩
    have := Nat.le_of_dvd (by positivity) (hp.dvd_of_pow_eq_one _ e)
    rw [pow_succ] at this
    have : 0 < 2 ^ (a + b) := by positivity
    omega
  obtain ⟨outs, y1, -, -, -, -, o1⟩ := C31_circom_h hpp dbg a ha hdom' hdom2 sh (fun p _ => (hdm p).1) q.a q.b q.c h1.input h2.input
    h3.input A B C iA iB iC masks hm dmask hd rng
  obtain ⟨H, outs', y2, e, hdeg, -, o2⟩ := C32_libsnark_h hpp dbg a ha hdom' hcos sh (fun p _ => (hdm p).1) q.a q.b q.c h1.input
    h2.input h3.input A B C iA iB iC (fun i _ => (hc i).symm) masks' hm' rng'
  exact ⟨q, sh, A, B, C, H, outs, outs', eq, es, iA, iB, iC, e, hdeg, y1, o1, y2, o2⟩

end net

/-! ### Examples -/

/-- `x·x = y`, `y·1 = y` with the instance `(1, y)` and the witness `x`. -/
def mats17 : ConstraintMatrices (ZMod 17) :=
  { numInstanceVariables := 2, numConstraints := 2
    a := [[(1, 2)], [(1, 1)]], b := [[(1, 2)], [(1, 0)]], c := [[(1, 1)], [(1, 1)]] }

/-- `x = 3`, `y = 9`. -/
def z17 : List (ZMod 17) := [1, 9, 3]

theorem mats17_cols : ColumnsBelow z17.length mats17.a ∧ ColumnsBelow z17.length mats17.b := by
  constructor <;> (intro row hr t ht; simp [mats17] at hr; rcases hr with rfl | rfl <;> simp at ht <;> subst ht <;> decide)

theorem mats17_sat : Satisfies mats17.numConstraints mats17.a mats17.b mats17.c z17 := by
  intro i hi
  have : i = 0 ∨ i = 1 := by simp [mats17] at hi; omega
  rcases this with rfl | rfl <;> decide +kernel

example : ∃ q, qap mats17 z17 = .ok (some q) ∧ q.a = [3, 9, 1, 9] ∧ q.b = [3, 1, 0, 0] ∧ q.c = [9, 9, 0, 0] :=
  ⟨⟨2, 2, [3, 9, 1, 9], [3, 1, 0, 0], [9, 9, 0, 0], dom17⟩, by
    have : qap mats17 z17 = .ok (some ⟨2, 2, [3, 9, 1, 9], [3, 1, 0, 0], [9, 9, 0, 0], dom17⟩) := by
      obtain ⟨a, b, c, e, rfl, rfl, rfl⟩ := qap_ok mats17 z17 (dom := dom17) (by decide +kernel) rfl rfl mats17_cols.1 mats17_cols.2
        (by decide)
      rw [e]
      have e1 : mats17.numConstraints = 2 := rfl
      have e2 : mats17.numInstanceVariables = 2 := rfl
      have e3 : dom17.size = 4 := rfl
      simp only [e1, e2, e3]
      congr 3
    exact ⟨this, rfl, rfl, rfl⟩⟩

/-- An assignment that is too short makes `qap` panic; a system with 32 rows is too large for a field of two-adicity 4. -/
example : qap mats17 [1, 9] = panic' :=
  C29_column_out_of_range mats17 [1, 9] (dom := dom17) (by decide +kernel) rfl rfl
    (.inl fun h => absurd (h [(1, 2)] (by simp [mats17]) (1, 2) (by simp)) (by decide))

example : qap { mats17 with numInstanceVariables := 31 } z17 = .ok none :=
  C29_too_large _ _ (by decide +kernel)

/-- The domain of size 8 of the example field. -/
def dom17b : Domain (ZMod 17) := ⟨8, 9, 2, 15, 1, 1⟩

theorem dom17b_eq : Domain.new (F := ZMod 17) (2 ^ (1 + 1 + 1)) = some dom17b := by decide +kernel

/-- The whole chain on the example circuit. -/
example : ∃ (q : QAP (ZMod 17)) (sh : Nat → PackedQAPShare (ZMod 17)) (H : (ZMod 17)[X]) (outs outs' : Nat → List (ZMod 17)),
    qap mats17 z17 = .ok (some q) ∧
    q.pss pp17 true (fun i j => i + j) (fun i j => 2 * i + j) (fun i j => 3 * i + j) = .ok ((List.range 8).map sh) ∧
    AlwaysYields (Net.init fun i : Fin (4 * 2 ^ 1) => pp17.circomH true (4 * 2 ^ 1) i (sh i) (fun _ => FftMask.zero 2)
      (DegRedMask.zero 2) fun _ i j => i + j) (fun i => outs i) ∧
    AlwaysYields (Net.init fun i : Fin (4 * 2 ^ 1) => pp17.libsnarkH true (4 * 2 ^ 1) i (sh i) (fun _ => FftMask.zero 2)
      fun _ i j => i + j) (fun i => outs' i) ∧
    opened pp17 2 outs' = (List.range 4).map H.coeff := by
  obtain ⟨q, sh, A, B, C, H, outs, outs', e1, e2, -, -, -, -, -, y1, -, y2, o2⟩ := C32_end_to_end (pp17_eq true) true 1 (by norm_num) mats17 z17
    (dom := dom17) (dom2 := dom17b) (by decide +kernel) rfl dom17b_eq rfl rfl mats17_cols.1 mats17_cols.2 (by decide)
    (fun i j => i + j) (fun i j => 2 * i + j) (fun i j => 3 * i + j) (fun _ _ => FftMask.zero 2) (fun _ _ => FftMask.zero 2)
    ⟨fun _ _ => .inr fun _ => rfl, fun _ _ => .inr fun _ => rfl⟩
    ⟨fun _ _ => .inr fun _ => rfl, fun _ _ => .inr fun _ => rfl, .inr fun _ => rfl⟩
    (fun _ => DegRedMask.zero 2) (.inr fun _ => rfl) (fun _ i j => i + j) (fun _ i j => i + j)
  exact ⟨q, sh, H, outs, outs', e1, e2, y1, y2, o2⟩

/-- The QAP of the example circuit, dealt to eight servers. -/
theorem shares17 : ∃ (q : Nat → PackedQAPShare (ZMod 17)) (A B C : (ZMod 17)[X]), (∀ p < 4 * 2 ^ 1, (q p).domain = dom17) ∧
    HoldsInput pp17 1 1 (fun p => (q p).a) [3, 9, 1, 9] ∧ HoldsInput pp17 1 1 (fun p => (q p).b) [3, 1, 0, 0] ∧
    HoldsInput pp17 1 1 (fun p => (q p).c) [9, 9, 0, 0] ∧
    Interpolates dom17.groupGen (2 ^ (1 + 1)) (fun i => [3, 9, 1, 9].getD i 0) A ∧
    Interpolates dom17.groupGen (2 ^ (1 + 1)) (fun i => [3, 1, 0, 0].getD i 0) B ∧
    Interpolates dom17.groupGen (2 ^ (1 + 1)) (fun i => [9, 9, 0, 0].getD i 0) C := by
  obtain ⟨hwf, hoff, -, -⟩ := Domain.new_pow2 dom17_eq
  obtain ⟨sh, -, hdm, h1, h2, h3⟩ := C30_pss (pp17_eq true) true 1 ⟨2, 2, [3, 9, 1, 9], [3, 1, 0, 0], [9, 9, 0, 0], dom17⟩ rfl rfl rfl
    (fun i j => i + j) (fun i j => 2 * i + j) (fun i j => 3 * i + j)
  obtain ⟨A, iA⟩ := Interpolates.exists hwf hoff [3, 9, 1, 9] rfl
  obtain ⟨B, iB⟩ := Interpolates.exists hwf hoff [3, 1, 0, 0] rfl
  obtain ⟨C, iC⟩ := Interpolates.exists hwf hoff [9, 9, 0, 0] rfl
  exact ⟨sh, A, B, C, fun p _ => (hdm p).1, h1.input, h2.input, h3.input, iA, iB, iC⟩

/-- Example for C29: the values of the example circuit. -/
example : ∃ q, qap mats17 z17 = .ok (some q) ∧ q.domain = dom17 ∧ q.numInputs = 2 ∧ q.c.getD 1 0 = dot [(1, 1)] z17 := by
  obtain ⟨q, h1, h2, h3, -⟩ := C29_qap mats17 z17 (dom := dom17) (by decide +kernel) rfl rfl mats17_cols.1 mats17_cols.2 (by decide)
  obtain ⟨h4, -⟩ := C29_satisfied mats17 z17 h1 rfl rfl mats17_cols.1 mats17_cols.2 (by decide) (by
    intro i hi
    have : i = 0 ∨ i = 1 := by simp [mats17] at hi; omega
    rcases this with rfl | rfl <;> decide +kernel)
  exact ⟨q, h1, h2, h3, (h4 1 (by decide)).trans (by decide +kernel)⟩

/-- Example for C30: position 1 of the first vector. -/
example : ∃ sh : Nat → PackedQAPShare (ZMod 17),
    pp17.unpack ((List.range (4 * 2 ^ 1)).map fun p => ((sh p).a).getD 1 0) = [1, 9] := by
  obtain ⟨sh, -, -, h1, -⟩ := C30_pss (pp17_eq true) true 1 ⟨2, 2, [3, 9, 1, 9], [3, 1, 0, 0], [9, 9, 0, 0], dom17⟩ rfl rfl rfl
    (fun i j => i + j) (fun i j => 2 * i + j) (fun i j => 3 * i + j)
  exact ⟨sh, (C30_unpacks (pp17_eq true) h1 (by decide)).trans (by decide +kernel)⟩

/-- Example for C31 and C32. -/
example (dbg : Bool) : ∃ (q : Nat → PackedQAPShare (ZMod 17)) (A B C H : (ZMod 17)[X]) (outs outs' : Nat → List (ZMod 17)),
    AlwaysYields (Net.init fun i : Fin (4 * 2 ^ 1) => pp17.circomH dbg (4 * 2 ^ 1) i (q i) (fun _ => FftMask.zero 2)
      (DegRedMask.zero 2) fun _ i j => i + j) (fun i => outs i) ∧
    opened pp17 2 outs = (List.range 4).map (fun i => (A * B - C).eval (dom17b.groupGen ^ (2 * i + 1))) ∧
    AlwaysYields (Net.init fun i : Fin (4 * 2 ^ 1) => pp17.libsnarkH dbg (4 * 2 ^ 1) i (q i) (fun _ => FftMask.zero 2)
      fun _ i j => i + j) (fun i => outs' i) ∧
    A * B - C = H * (X ^ 2 ^ (1 + 1) - 1) ∧ opened pp17 2 outs' = (List.range 4).map H.coeff := by
  obtain ⟨q, A, B, C, hq, h1, h2, h3, iA, iB, iC⟩ := shares17
  obtain ⟨outs, y1, -, -, -, -, o1⟩ := C31_circom_h (pp17_eq true) dbg 1 (by norm_num) dom17_eq dom17b_eq q hq _ _ _ h1 h2 h3 A B C iA iB iC
    (fun _ _ => FftMask.zero 2) ⟨fun _ _ => .inr fun _ => rfl, fun _ _ => .inr fun _ => rfl⟩ (fun _ => DegRedMask.zero 2) (.inr fun _ => rfl)
    fun _ i j => i + j
  obtain ⟨H, outs', y2, e, -, -, o2⟩ := C32_libsnark_h (pp17_eq true) dbg 1 (by norm_num) dom17_eq ⟨3, by decide, by decide⟩ q hq _ _ _ h1 h2 h3
    A B C iA iB iC (by decide) (fun _ _ => FftMask.zero 2)
    ⟨fun _ _ => .inr fun _ => rfl, fun _ _ => .inr fun _ => rfl, .inr fun _ => rfl⟩ fun _ i j => i + j
  exact ⟨q, A, B, C, H, outs, outs', y1, o1, y2, e, o2⟩

end ZkSaas.Properties
