import Verif.Lemmas.Opened
import Verif.Properties.Pss
import Verif.Model.Example17

/-!
# C19 – C22: the distributed Fourier transforms

Everything is stated about `4·2^b` parties running the protocol on a reliable network under *every* schedule
(`Spec.AlwaysYields`: no infinite execution, no deadlock, one outcome). The transform has size `2^(a+b)`; every party holds a
vector of `2^a` shares.
-/

set_option linter.unusedSectionVars false

namespace ZkSaas.Properties

open Finset Spec

variable {F : Type} [Field F] [DecidableEq F] [FftField F]

/-- The masks of the parties come from one call of `FftMask::sample` (any values, any randomness, either build
profile), or are all `FftMask::zero`. -/
def IsFftMasks (pp : PSS F) (rearrange : Bool) (g gen : F) (m : Nat) (masks : Nat → FftMask F) : Prop :=
  (∃ (dbg : Bool) (vals : Nat → F) (rngIn rngOut : Nat → Nat → F) (ms : List (FftMask F)),
    FftMask.sample pp dbg rearrange g gen m vals rngIn rngOut = .ok ms ∧
    ∀ p < 4 * pp.l, ms[p]? = some (masks p)) ∨
  ∀ p, masks p = FftMask.zero (m / pp.l)

/-- The parties hold the vector `v` in the layout the transforms take as input: bit-reversed, strided, one share of each
packed position per party, shared with `2l` to `4l-1` coefficients. -/
def HoldsInput (pp : PSS F) (a b : Nat) (sh : Nat → List F) (v : List F) : Prop :=
  v.length = 2 ^ (a + b) ∧ ∃ d, 2 * 2 ^ b ≤ d ∧ d ≤ 4 * 2 ^ b - 1 ∧
    Spec.SharedVec pp.share.groupGen pp.secret.offset (2 ^ b) d (2 ^ a) sh (packed true a b fun i => v.getD i 0)

/-- The parties hold the vector `v` with `2l` coefficients, in consecutive chunks or in the input layout. -/
def HoldsOutput (pp : PSS F) (rearrange : Bool) (a b : Nat) (outs : Nat → List F) (v : List F) : Prop :=
  v.length = 2 ^ (a + b) ∧
    Spec.SharedVec pp.share.groupGen pp.secret.offset (2 ^ b) (2 * 2 ^ b) (2 ^ a) outs (packed rearrange a b fun i => v.getD i 0)

theorem HoldsOutput.input {pp : PSS F} {a b : Nat} {outs : Nat → List F} {v : List F}
    (h : HoldsOutput pp true a b outs v) : HoldsInput pp a b outs v :=
  ⟨h.1, 2 * 2 ^ b, le_rfl, by have : 0 < 2 ^ b := by positivity
                              omega, h.2⟩

theorem HoldsOutput.opened {dbg₀ : Bool} {b : Nat} {pp : PSS F} (hpp : PSS.new dbg₀ (2 ^ b) = .ok pp) {a : Nat}
    {outs : Nat → List F} {v : List F} (h : HoldsOutput pp false a b outs v) : opened pp (2 ^ a) outs = v := by
  have hle := l_eq hpp
  have hs := h.2
  rw [← hle] at hs
  rw [opened_packed (PSS.good_of_new hpp) hle le_rfl hs, ← h.1]
  exact (list_eq_map_range v 0).symm

theorem IsFftMasks.ok {dbg₀ : Bool} {b : Nat} {pp : PSS F} (hpp : PSS.new dbg₀ (2 ^ b) = .ok pp) {a : Nat} {rearrange : Bool}
    {g gen : F} (hprim : IsPrimitiveRoot gen (2 ^ (a + b))) {masks : Nat → FftMask F}
    (h : IsFftMasks pp rearrange g gen (2 ^ (a + b)) masks) : MasksOk pp a b rearrange g gen masks := by
  have hle := l_eq hpp
  rcases h with ⟨dbg, vals, r1, r2, ms, e, h⟩ | h
  · obtain ⟨ms', e', hl, hm⟩ := MasksOk.of_sample (PSS.good_of_new hpp) dbg hle hprim rearrange g vals r1 r2
    obtain rfl : ms' = ms := by rw [e] at e'; cases e'; rfl
    obtain ⟨φ, h1, h2, h3⟩ := hm
    have hget : ∀ p < 4 * pp.l, ms'.getD p (FftMask.zero 0) = masks p := fun p hp => by
      rw [List.getD_eq_getElem?_getD, h p hp]; rfl
    exact ⟨φ, h1, SharedVec.congr h2 (fun p hp => by simp only; rw [hget p hp]) fun _ _ => rfl,
      SharedVec.congr h3 (fun p hp => by simp only; rw [hget p hp]) fun _ _ => rfl⟩
  · have := MasksOk.zero (pp := pp) (a := a) hle rearrange g gen
    obtain rfl : masks = fun _ => FftMask.zero (2 ^ a) := by
      funext p
      rw [h p, hle, pow_add, Nat.mul_div_cancel _ (by positivity)]
    exact this

/-- The input layout is what `fft_in_place_rearrange`, packing of strided elements and transposition produce. -/
theorem C19_input_is_packed {dbg₀ : Bool} {b : Nat} {pp : PSS F} (hpp : PSS.new dbg₀ (2 ^ b) = .ok pp) (dbg : Bool)
    (a : Nat) (v : List F) (hv : v.length = 2 ^ (a + b)) (rng : Nat → Nat → F) :
    ∃ shares, (do
        let v' ← fftInPlaceRearrange v
        let rows ← pp.packStrided dbg v' rng
        transpose rows) = .ok shares ∧ shares.length = 4 * 2 ^ b ∧ HoldsInput pp a b (fun p => shares.getD p []) v := by
  have hle := l_eq hpp
  obtain ⟨out, e, hl, hs⟩ := pack_layout (PSS.good_of_new hpp) dbg (a := a) hle (fun i => v.getD i 0) true rng
  rw [if_pos rfl, ← hv, ← list_eq_map_range] at e
  rw [PSS.SharedVec, hle] at hs
  exact ⟨out, e, by rw [hl, hle], HoldsOutput.input ⟨hv, hs⟩⟩

section net
variable [FixedWire F]

theorem Domain.new_pow2 {k : Nat} {dom : Domain F} (hdom : Domain.new (2 ^ k) = some dom) :
    dom.WF ∧ dom.offset = 1 ∧ dom.offsetInv = 1 ∧ dom.size = 2 ^ k := by
  obtain ⟨hwf, hoff⟩ := Domain.new_wf hdom
  rw [Domain.new] at hdom
  simp only [clog_two_pow] at hdom
  split at hdom
  · cases hdom
  · cases hdom; exact ⟨hwf, rfl, rfl, rfl⟩

omit [FixedWire F] in
/-- `4l` or `4l - 1` servers suffice to decode. -/
theorem decodable_range {dbg₀ : Bool} {b : Nat} {pp : PSS F} (hpp : PSS.new dbg₀ (2 ^ b) = .ok pp) (dbg : Bool) {n : Nat}
    (hn : n = 4 * 2 ^ b ∨ n + 1 = 4 * 2 ^ b) {d : Nat} (hd : d ≤ 4 * pp.l - 1) : pp.Decodable dbg d (List.range n) := by
  have hle := l_eq hpp
  rcases hn with rfl | hn
  · exact Or.inl (by rw [hle])
  · refine Or.inr ⟨List.nodup_range, fun p hp => ?_, ?_, ?_, fun _ => ?_⟩
    · rw [List.mem_range] at hp; omega
    all_goals rw [List.length_range]; omega

theorem dFft_few {dbg₀ : Bool} {b : Nat} {pp : PSS F} (hpp : PSS.new dbg₀ (2 ^ b) = .ok pp) (dbg : Bool) {n : Nat}
    (hn : n = 4 * 2 ^ b ∨ n + 1 = 4 * 2 ^ b) (a : Nat) (ha : a < 64)
    {dom : Domain F} (hdom : Domain.new (2 ^ (a + b)) = some dom) {sh : Nat → List F} {coeffs : List F}
    (hsh : HoldsInput pp a b sh coeffs) (rearrange : Bool) {masks : Nat → FftMask F}
    (hm : IsFftMasks pp rearrange 1 dom.groupGen (2 ^ (a + b)) masks) (sid : Sid) (rng : Nat → Nat → F) :
    ∃ outs : Nat → List F,
      Runs (Sized (8 + 2 ^ a * FixedWire.width F)) (only sid) (fun i : Fin n => pp.dFft dbg n i (sh i) (masks i) rearrange dom sid rng)
        (fun i => outs i) ∧
      HoldsOutput pp rearrange a b outs (dom.fft coeffs) := by
  have hle := l_eq hpp
  have hg := PSS.good_of_new hpp
  obtain ⟨hwf, hoff, -, hsize⟩ := Domain.new_pow2 hdom
  have hprim : IsPrimitiveRoot dom.groupGen (2 ^ (a + b)) := hsize ▸ hwf.prim
  obtain ⟨hc, d, hd2, hd4, hs⟩ := hsh
  rw [← hle] at hs hd2 hd4
  obtain ⟨outs, hr, ho⟩ := PSS.dFft_few (n := n) hg dbg (by have := hg.lpos; omega) (by omega) ha hle hsize hprim hd2 hd4 (decodable_range hpp dbg hn (by omega)) _ hs
    rearrange (hm.ok hpp hprim) sid rng
  refine ⟨outs, hr, by simp [hsize], ?_⟩
  rw [← hle]
  refine SharedVec.congr ho (fun _ _ => rfl) fun c hc => packed_congr _ hc fun i hi => ?_
  exact Domain.sum_eq_fft hoff hsize _ hi

theorem dFft_runs {dbg₀ : Bool} {b : Nat} {pp : PSS F} (hpp : PSS.new dbg₀ (2 ^ b) = .ok pp) (dbg : Bool) (a : Nat) (ha : a < 64)
    {dom : Domain F} (hdom : Domain.new (2 ^ (a + b)) = some dom) {sh : Nat → List F} {coeffs : List F}
    (hsh : HoldsInput pp a b sh coeffs) (rearrange : Bool) {masks : Nat → FftMask F}
    (hm : IsFftMasks pp rearrange 1 dom.groupGen (2 ^ (a + b)) masks) (sid : Sid) (rng : Nat → Nat → F) :
    ∃ outs : Nat → List F,
      Runs (Sized (8 + 2 ^ a * FixedWire.width F)) (only sid) (fun i : Fin (4 * 2 ^ b) => pp.dFft dbg (4 * 2 ^ b) i (sh i) (masks i) rearrange dom sid rng)
        (fun i => outs i) ∧
      HoldsOutput pp rearrange a b outs (dom.fft coeffs) :=
  dFft_few hpp dbg (Or.inl rfl) a ha hdom hsh rearrange hm sid rng

theorem dIfft_few {dbg₀ : Bool} {b : Nat} {pp : PSS F} (hpp : PSS.new dbg₀ (2 ^ b) = .ok pp) (dbg : Bool) {n : Nat}
    (hn : n = 4 * 2 ^ b ∨ n + 1 = 4 * 2 ^ b) (a : Nat) (ha : a < 64)
    {dom : Domain F} (hdom : Domain.new (2 ^ (a + b)) = some dom) {sh : Nat → List F} {evals : List F}
    (hsh : HoldsInput pp a b sh evals) (g : F) (rearrange : Bool) {masks : Nat → FftMask F}
    (hm : IsFftMasks pp rearrange g dom.groupGenInv (2 ^ (a + b)) masks) (sid : Sid) (rng : Nat → Nat → F) :
    ∃ outs : Nat → List F,
      Runs (Sized (8 + 2 ^ a * FixedWire.width F)) (only sid) (fun i : Fin n => pp.dIfft dbg n i (sh i) (masks i) rearrange dom g sid rng)
        (fun i => outs i) ∧
      HoldsOutput pp rearrange a b outs ((List.range (2 ^ (a + b))).map fun k => g ^ k * (dom.ifft evals).getD k 0) := by
  have hle := l_eq hpp
  have hg := PSS.good_of_new hpp
  obtain ⟨hwf, -, hoff, hsize⟩ := Domain.new_pow2 hdom
  have hprim : IsPrimitiveRoot dom.groupGenInv (2 ^ (a + b)) := by
    rw [hwf.ginv]; exact hsize ▸ hwf.prim.inv
  obtain ⟨hc, d, hd2, hd4, hs⟩ := hsh
  rw [← hle] at hs hd2 hd4
  obtain ⟨outs, hr, ho⟩ := PSS.dIfft_few (n := n) hg dbg (by have := hg.lpos; omega) (by omega) ha hle hsize hprim hd2 hd4 (decodable_range hpp dbg hn (by omega)) _ hs g
    rearrange (hm.ok hpp hprim) sid rng
  refine ⟨outs, hr, by simp, ?_⟩
  rw [← hle]
  refine SharedVec.congr ho (fun _ _ => rfl) fun c hc => packed_congr _ hc fun i hi => ?_
  rw [Domain.sum_eq_ifft hoff hsize _ hi, getD_map_range, if_pos hi]

theorem dIfft_runs {dbg₀ : Bool} {b : Nat} {pp : PSS F} (hpp : PSS.new dbg₀ (2 ^ b) = .ok pp) (dbg : Bool) (a : Nat) (ha : a < 64)
    {dom : Domain F} (hdom : Domain.new (2 ^ (a + b)) = some dom) {sh : Nat → List F} {evals : List F}
    (hsh : HoldsInput pp a b sh evals) (g : F) (rearrange : Bool) {masks : Nat → FftMask F}
    (hm : IsFftMasks pp rearrange g dom.groupGenInv (2 ^ (a + b)) masks) (sid : Sid) (rng : Nat → Nat → F) :
    ∃ outs : Nat → List F,
      Runs (Sized (8 + 2 ^ a * FixedWire.width F)) (only sid) (fun i : Fin (4 * 2 ^ b) => pp.dIfft dbg (4 * 2 ^ b) i (sh i) (masks i) rearrange dom g sid rng)
        (fun i => outs i) ∧
      HoldsOutput pp rearrange a b outs ((List.range (2 ^ (a + b))).map fun k => g ^ k * (dom.ifft evals).getD k 0) :=
  dIfft_few hpp dbg (Or.inl rfl) a ha hdom hsh g rearrange hm sid rng

/-- **C19** `d_fft`: under every schedule every party ends with its share of the Fourier transform of the coefficients,
in the layout asked for. -/
theorem C19_d_fft {dbg₀ : Bool} {b : Nat} {pp : PSS F} (hpp : PSS.new dbg₀ (2 ^ b) = .ok pp) (dbg : Bool) (a : Nat) (ha : a < 64)
    {dom : Domain F} (hdom : Domain.new (2 ^ (a + b)) = some dom) (sh : Nat → List F) (coeffs : List F)
    (hsh : HoldsInput pp a b sh coeffs) (rearrange : Bool) (masks : Nat → FftMask F)
    (hm : IsFftMasks pp rearrange 1 dom.groupGen (2 ^ (a + b)) masks) (sid : Sid) (rng : Nat → Nat → F) :
    ∃ outs : Nat → List F,
      AlwaysYields (Net.init fun i : Fin (4 * 2 ^ b) => pp.dFft dbg (4 * 2 ^ b) i (sh i) (masks i) rearrange dom sid rng)
        (fun i => outs i) ∧
      HoldsOutput pp rearrange a b outs (dom.fft coeffs) := by
  obtain ⟨outs, hr, ho⟩ := dFft_runs hpp dbg a ha hdom hsh rearrange hm sid rng
  exact ⟨outs, hr.alwaysYields fun i => PSS.dFft_wf _ (by positivity) _ _ _ _ _ _ _, ho⟩

/-- **C19** From the coefficients to the opened result: rearrange, pack, transpose, run `d_fft` without rearranging, unpack
chunk by chunk. -/
theorem C19_d_fft_end_to_end {dbg₀ : Bool} {b : Nat} {pp : PSS F} (hpp : PSS.new dbg₀ (2 ^ b) = .ok pp) (dbg : Bool)
    (a : Nat) (ha : a < 64) {dom : Domain F} (hdom : Domain.new (2 ^ (a + b)) = some dom) (coeffs : List F)
    (hc : coeffs.length = 2 ^ (a + b)) (masks : Nat → FftMask F)
    (hm : IsFftMasks pp false 1 dom.groupGen (2 ^ (a + b)) masks) (sid : Sid) (rng₀ rng : Nat → Nat → F) :
    ∃ (shares : List (List F)) (outs : Nat → List F), (do
        let v ← fftInPlaceRearrange coeffs
        let rows ← pp.packStrided dbg v rng₀
        transpose rows) = .ok shares ∧
      AlwaysYields (Net.init fun i : Fin (4 * 2 ^ b) =>
        pp.dFft dbg (4 * 2 ^ b) i (shares.getD i []) (masks i) false dom sid rng) (fun i => outs i) ∧
      opened pp (2 ^ a) outs = dom.fft coeffs := by
  obtain ⟨shares, e, -, hs⟩ := C19_input_is_packed hpp dbg a coeffs hc rng₀
  obtain ⟨outs, h1, h2⟩ := C19_d_fft hpp dbg a ha hdom _ coeffs hs false masks hm sid rng
  exact ⟨shares, outs, e, h1, h2.opened hpp⟩

/-- **C20** `d_ifft`: under every schedule every party ends with its share of the interpolating coefficients, the `k`-th
multiplied by `g^k`. -/
theorem C20_d_ifft {dbg₀ : Bool} {b : Nat} {pp : PSS F} (hpp : PSS.new dbg₀ (2 ^ b) = .ok pp) (dbg : Bool) (a : Nat) (ha : a < 64)
    {dom : Domain F} (hdom : Domain.new (2 ^ (a + b)) = some dom) (sh : Nat → List F) (evals : List F)
    (hsh : HoldsInput pp a b sh evals) (g : F) (rearrange : Bool) (masks : Nat → FftMask F)
    (hm : IsFftMasks pp rearrange g dom.groupGenInv (2 ^ (a + b)) masks) (sid : Sid) (rng : Nat → Nat → F) :
    ∃ outs : Nat → List F,
      AlwaysYields (Net.init fun i : Fin (4 * 2 ^ b) =>
        pp.dIfft dbg (4 * 2 ^ b) i (sh i) (masks i) rearrange dom g sid rng) (fun i => outs i) ∧
      HoldsOutput pp rearrange a b outs ((List.range (2 ^ (a + b))).map fun k => g ^ k * (dom.ifft evals).getD k 0) := by
  obtain ⟨outs, hr, ho⟩ := dIfft_runs hpp dbg a ha hdom hsh g rearrange hm sid rng
  exact ⟨outs, hr.alwaysYields fun i => PSS.dIfft_wf _ (by positivity) _ _ _ _ _ _ _ _, ho⟩

/-- **C20** From the evaluations to the opened result. With `g = 1` it is `ifft(evals)`. -/
theorem C20_d_ifft_end_to_end {dbg₀ : Bool} {b : Nat} {pp : PSS F} (hpp : PSS.new dbg₀ (2 ^ b) = .ok pp) (dbg : Bool)
    (a : Nat) (ha : a < 64) {dom : Domain F} (hdom : Domain.new (2 ^ (a + b)) = some dom) (evals : List F)
    (he : evals.length = 2 ^ (a + b)) (g : F) (masks : Nat → FftMask F)
    (hm : IsFftMasks pp false g dom.groupGenInv (2 ^ (a + b)) masks) (sid : Sid) (rng₀ rng : Nat → Nat → F) :
    ∃ (shares : List (List F)) (outs : Nat → List F), (do
        let v ← fftInPlaceRearrange evals
        let rows ← pp.packStrided dbg v rng₀
        transpose rows) = .ok shares ∧
      AlwaysYields (Net.init fun i : Fin (4 * 2 ^ b) =>
        pp.dIfft dbg (4 * 2 ^ b) i (shares.getD i []) (masks i) false dom g sid rng) (fun i => outs i) ∧
      (opened pp (2 ^ a) outs).length = 2 ^ (a + b) ∧
      (∀ k < 2 ^ (a + b), (opened pp (2 ^ a) outs).getD k 0 = g ^ k * (dom.ifft evals).getD k 0) ∧
      (g = 1 → opened pp (2 ^ a) outs = dom.ifft evals) := by
  obtain ⟨shares, e, -, hs⟩ := C19_input_is_packed hpp dbg a evals he rng₀
  obtain ⟨outs, h1, h2⟩ := C20_d_ifft hpp dbg a ha hdom _ evals hs g false masks hm sid rng
  have ho := h2.opened hpp
  refine ⟨shares, outs, e, h1, by simp [ho], ?_, ?_⟩
  · intro k hk
    rw [ho, getD_map_range, if_pos hk]
  · rintro rfl
    rw [ho]
    simp only [one_pow, one_mul]
    obtain ⟨-, -, -, hsize⟩ := Domain.new_pow2 hdom
    rw [show 2 ^ (a + b) = (dom.ifft evals).length by simp [hsize]]
    exact (list_eq_map_range _ 0).symm

/-- `d_ifft` with rearrangement, then `d_fft`, by one party. -/
def ifftThenFft (pp : PSS F) (dbg : Bool) (n me : Nat) (sh : List F) (m1 m2 : FftMask F) (rearrange : Bool) (dom : Domain F)
    (g : F) (sid sid' : Sid) (rng1 rng2 : Nat → Nat → F) : Proc (List F) := do
  let c ← pp.dIfft dbg n me sh m1 true dom g sid rng1
  pp.dFft dbg n me c m2 rearrange dom sid' rng2

theorem ifftThenFft_runs {dbg₀ : Bool} {b : Nat} {pp : PSS F} (hpp : PSS.new dbg₀ (2 ^ b) = .ok pp) (dbg : Bool) (a : Nat)
    (ha : a < 64) {dom : Domain F} (hdom : Domain.new (2 ^ (a + b)) = some dom) {sh : Nat → List F} {evals : List F}
    (hsh : HoldsInput pp a b sh evals) (g : F) (rearrange : Bool) {m1 m2 : Nat → FftMask F}
    (hm1 : IsFftMasks pp true g dom.groupGenInv (2 ^ (a + b)) m1)
    (hm2 : IsFftMasks pp rearrange 1 dom.groupGen (2 ^ (a + b)) m2) (sid sid' : Sid) (rng1 rng2 : Nat → Nat → F)
    {p : List F} (hp : p.length = 2 ^ (a + b)) (hpe : dom.fft p = evals) :
    ∃ outs : Nat → List F,
      Runs (Sized (8 + 2 ^ a * FixedWire.width F)) (fun _ => True) (fun i : Fin (4 * 2 ^ b) =>
        ifftThenFft pp dbg (4 * 2 ^ b) i (sh i) (m1 i) (m2 i) rearrange dom g sid sid' rng1 rng2) (fun i => outs i) ∧
      HoldsOutput pp rearrange a b outs ((List.range (2 ^ (a + b))).map fun i => evalAt p (g * dom.groupGen ^ i)) := by
  obtain ⟨hwf, hoff, -, hsize⟩ := Domain.new_pow2 hdom
  obtain ⟨o1, r1, h1⟩ := dIfft_runs hpp dbg a ha hdom hsh g true hm1 sid rng1
  obtain ⟨o2, r2, h2⟩ := dFft_runs hpp dbg a ha hdom h1.input rearrange hm2 sid' rng2
  refine ⟨o2, (r1.mono fun _ _ => trivial).bind (r2.mono fun _ _ => trivial), ?_⟩
  have hcoeff : dom.ifft evals = p := Domain.ifft_of_evals hwf (hp.trans hsize.symm) hpe
  have : dom.fft ((List.range (2 ^ (a + b))).map fun k => g ^ k * (dom.ifft evals).getD k 0) =
      (List.range (2 ^ (a + b))).map fun i => evalAt p (g * dom.groupGen ^ i) := by
    apply list_ext_getD 0 (by simp [hsize])
    intro i hi
    rw [Domain.fft_length] at hi
    rw [Domain.fft_getD _ _ hi, getD_map_range, if_pos (by omega), evalAt, hp, hsize, hcoeff]
    apply sum_congr rfl
    intro j hj
    rw [getD_map_range, if_pos (mem_range.1 hj), Domain.element, hoff]
    simp only [smul_eq_mul]
    ring
  rw [this] at h2
  exact h2

theorem ifftThenFft_wf {pp : PSS F} (dbg : Bool) {n : Nat} (hn : 0 < n) (me : Nat) (sh : List F) (m1 m2 : FftMask F) (rearrange : Bool)
    (dom : Domain F) (g : F) (sid sid' : Sid) (rng1 rng2 : Nat → Nat → F) :
    (ifftThenFft pp dbg n me sh m1 m2 rearrange dom g sid sid' rng1 rng2).WF (fun _ => True) :=
  ((PSS.dIfft_wf dbg hn _ _ _ _ _ _ _ _).mono fun _ _ => trivial).bind fun _ =>
    (PSS.dFft_wf dbg hn _ _ _ _ _ _ _).mono fun _ _ => trivial

/-- **C21** `d_ifft` with `g` (rearranged) followed by `d_fft` moves evaluations of any polynomial `p` of degree below the
domain size from `H` to the coset `g·H`. -/
theorem C21_ifft_then_fft {dbg₀ : Bool} {b : Nat} {pp : PSS F} (hpp : PSS.new dbg₀ (2 ^ b) = .ok pp) (dbg : Bool) (a : Nat)
    (ha : a < 64) {dom : Domain F} (hdom : Domain.new (2 ^ (a + b)) = some dom) (sh : Nat → List F) (p : List F)
    (hp : p.length = 2 ^ (a + b)) (hsh : HoldsInput pp a b sh (dom.fft p)) (g : F) (m1 m2 : Nat → FftMask F)
    (hm1 : IsFftMasks pp true g dom.groupGenInv (2 ^ (a + b)) m1)
    (hm2 : IsFftMasks pp false 1 dom.groupGen (2 ^ (a + b)) m2) (sid sid' : Sid) (rng1 rng2 : Nat → Nat → F) :
    ∃ outs : Nat → List F,
      AlwaysYields (Net.init fun i : Fin (4 * 2 ^ b) =>
        ifftThenFft pp dbg (4 * 2 ^ b) i (sh i) (m1 i) (m2 i) false dom g sid sid' rng1 rng2) (fun i => outs i) ∧
      opened pp (2 ^ a) outs = (List.range (2 ^ (a + b))).map (fun i => evalAt p (g * dom.groupGen ^ i)) ∧
      (g = 1 → opened pp (2 ^ a) outs = dom.fft p) := by
  obtain ⟨outs, hr, ho⟩ := ifftThenFft_runs hpp dbg a ha hdom hsh g false hm1 hm2 sid sid' rng1 rng2 hp rfl
  refine ⟨outs, hr.alwaysYields fun i => ifftThenFft_wf _ (by positivity) _ _ _ _ _ _ _ _ _ _ _, ho.opened hpp, ?_⟩
  rintro rfl
  obtain ⟨-, hoff, -, hsize⟩ := Domain.new_pow2 hdom
  rw [ho.opened hpp, Domain.fft, hsize, resize_eq_of_length 0 hp]
  simp only [Domain.element, hoff]

theorem roundTrip_runs {dbg₀ : Bool} {b : Nat} {pp : PSS F} (hpp : PSS.new dbg₀ (2 ^ b) = .ok pp) (dbg : Bool) (a : Nat)
    (ha : a < 64) {dom : Domain F} (hdom : Domain.new (2 ^ (a + b)) = some dom) {sh : Nat → List F} {evals : List F}
    (hsh : HoldsInput pp a b sh evals) {g : F} (hg0 : g ≠ 0) {m1 m2 m3 m4 : Nat → FftMask F}
    (hm1 : IsFftMasks pp true g dom.groupGenInv (2 ^ (a + b)) m1)
    (hm2 : IsFftMasks pp true 1 dom.groupGen (2 ^ (a + b)) m2)
    (hm3 : IsFftMasks pp true g⁻¹ dom.groupGenInv (2 ^ (a + b)) m3)
    (hm4 : IsFftMasks pp false 1 dom.groupGen (2 ^ (a + b)) m4)
    (sid : Sid) (rng1 rng2 rng3 rng4 : Nat → Nat → F) :
    ∃ outs : Nat → List F,
      Runs (Sized (8 + 2 ^ a * FixedWire.width F)) (fun _ => True) (fun i : Fin (4 * 2 ^ b) => do
        let e ← ifftThenFft pp dbg (4 * 2 ^ b) i (sh i) (m1 i) (m2 i) true dom g sid sid rng1 rng2
        ifftThenFft pp dbg (4 * 2 ^ b) i e (m3 i) (m4 i) false dom g⁻¹ sid sid rng3 rng4) (fun i => outs i) ∧
      HoldsOutput pp false a b outs evals := by
  obtain ⟨hwf, hoff, -, hsize⟩ := Domain.new_pow2 hdom
  have he : evals.length = 2 ^ (a + b) := hsh.1
  have hp : (dom.ifft evals).length = 2 ^ (a + b) := by simp [hsize]
  obtain ⟨o1, r1, h1⟩ := ifftThenFft_runs hpp dbg a ha hdom hsh g true hm1 hm2 sid sid rng1 rng2 hp
    (Domain.fft_ifft hwf (he.trans hsize.symm))
  have hq : dom.fft ((List.range (2 ^ (a + b))).map fun k => g ^ k * (dom.ifft evals).getD k 0) =
      (List.range (2 ^ (a + b))).map fun i => evalAt (dom.ifft evals) (g * dom.groupGen ^ i) := by
    apply list_ext_getD 0 (by simp [hsize])
    intro i hi
    rw [Domain.fft_length] at hi
    rw [Domain.fft_getD _ _ hi, getD_map_range, if_pos (by omega), evalAt, hp, hsize]
    apply sum_congr rfl
    intro j hj
    rw [getD_map_range, if_pos (mem_range.1 hj), Domain.element, hoff]
    simp only [smul_eq_mul]
    ring
  obtain ⟨o2, r2, h2⟩ := ifftThenFft_runs hpp dbg a ha hdom h1.input g⁻¹ false hm3 hm4 sid sid rng3 rng4 (by simp) hq
  refine ⟨o2, r1.bind r2, ?_⟩
  refine cast (congrArg (HoldsOutput pp false a b o2) ?_) h2
  apply list_ext_getD 0 (by simp [he])
  intro i hi
  simp only [List.length_map, List.length_range] at hi
  rw [getD_map_range, if_pos hi, ← Domain.eval_ifft hwf evals (by omega), hsize]
  unfold evalAt
  simp only [List.length_map, List.length_range]
  apply sum_congr rfl
  intro j hj
  rw [getD_map_range, if_pos (mem_range.1 hj), Domain.element, hoff, mul_pow, one_mul, smul_eq_mul, smul_eq_mul]
  rw [inv_pow]
  have : g ^ j ≠ 0 := pow_ne_zero _ hg0
  field_simp

/-- **C21** Going to the coset `g·H` and back with `g⁻¹` returns the original evaluations. -/
theorem C21_round_trip {dbg₀ : Bool} {b : Nat} {pp : PSS F} (hpp : PSS.new dbg₀ (2 ^ b) = .ok pp) (dbg : Bool) (a : Nat)
    (ha : a < 64) {dom : Domain F} (hdom : Domain.new (2 ^ (a + b)) = some dom) (sh : Nat → List F) (evals : List F)
    (hsh : HoldsInput pp a b sh evals) (g : F) (hg0 : g ≠ 0) (m1 m2 m3 m4 : Nat → FftMask F)
    (hm1 : IsFftMasks pp true g dom.groupGenInv (2 ^ (a + b)) m1)
    (hm2 : IsFftMasks pp true 1 dom.groupGen (2 ^ (a + b)) m2)
    (hm3 : IsFftMasks pp true g⁻¹ dom.groupGenInv (2 ^ (a + b)) m3)
    (hm4 : IsFftMasks pp false 1 dom.groupGen (2 ^ (a + b)) m4)
    (sid : Sid) (rng1 rng2 rng3 rng4 : Nat → Nat → F) :
    ∃ outs : Nat → List F,
      AlwaysYields (Net.init fun i : Fin (4 * 2 ^ b) => do
        let e ← ifftThenFft pp dbg (4 * 2 ^ b) i (sh i) (m1 i) (m2 i) true dom g sid sid rng1 rng2
        ifftThenFft pp dbg (4 * 2 ^ b) i e (m3 i) (m4 i) false dom g⁻¹ sid sid rng3 rng4) (fun i => outs i) ∧
      opened pp (2 ^ a) outs = evals := by
  obtain ⟨outs, hr, ho⟩ := roundTrip_runs hpp dbg a ha hdom hsh hg0 hm1 hm2 hm3 hm4 sid rng1 rng2 rng3 rng4
  exact ⟨outs, hr.alwaysYields fun i => (ifftThenFft_wf _ (by positivity) _ _ _ _ _ _ _ _ _ _ _).bind
    fun _ => ifftThenFft_wf _ (by positivity) _ _ _ _ _ _ _ _ _ _ _, ho.opened hpp⟩

/-- **C22** Masks cancel: the opened result of `d_fft` is the same for all masks (sampled with any values and randomness, or
zero), all sharings of the input and all randomness of the king. -/
theorem C22_fft_masks_cancel {dbg₀ : Bool} {b : Nat} {pp : PSS F} (hpp : PSS.new dbg₀ (2 ^ b) = .ok pp) (dbg dbg' : Bool) (a : Nat)
    (ha : a < 64) {dom : Domain F} (hdom : Domain.new (2 ^ (a + b)) = some dom) (sh sh' : Nat → List F) (coeffs : List F)
    (hsh : HoldsInput pp a b sh coeffs) (hsh' : HoldsInput pp a b sh' coeffs) (masks masks' : Nat → FftMask F)
    (hm : IsFftMasks pp false 1 dom.groupGen (2 ^ (a + b)) masks)
    (hm' : IsFftMasks pp false 1 dom.groupGen (2 ^ (a + b)) masks') (sid : Sid) (rng rng' : Nat → Nat → F)
    (outs outs' : Fin (4 * 2 ^ b) → List F)
    (ho : AlwaysYields (Net.init fun i : Fin (4 * 2 ^ b) => pp.dFft dbg (4 * 2 ^ b) i (sh i) (masks i) false dom sid rng) outs)
    (ho' : AlwaysYields (Net.init fun i : Fin (4 * 2 ^ b) => pp.dFft dbg' (4 * 2 ^ b) i (sh' i) (masks' i) false dom sid rng') outs') :
    opened pp (2 ^ a) (fun p => if h : p < 4 * 2 ^ b then outs ⟨p, h⟩ else []) =
      opened pp (2 ^ a) (fun p => if h : p < 4 * 2 ^ b then outs' ⟨p, h⟩ else []) := by
  have hle := l_eq hpp
  have key : ∀ dbg sh masks rng (outs : Fin (4 * 2 ^ b) → List F), HoldsInput pp a b sh coeffs →
      IsFftMasks pp false 1 dom.groupGen (2 ^ (a + b)) masks →
      AlwaysYields (Net.init fun i : Fin (4 * 2 ^ b) => pp.dFft dbg (4 * 2 ^ b) i (sh i) (masks i) false dom sid rng) outs →
      opened pp (2 ^ a) (fun p => if h : p < 4 * 2 ^ b then outs ⟨p, h⟩ else []) = dom.fft coeffs := by
    intro dbg sh masks rng outs hsh hm ho
    obtain ⟨o, h1, h2⟩ := C19_d_fft hpp dbg a ha hdom sh coeffs hsh false masks hm sid rng
    obtain rfl := AlwaysYields.unique ho h1
    rw [← h2.opened hpp]
    unfold opened
    congr 1
    apply List.map_congr_left
    intro c _
    congr 1
    apply List.map_congr_left
    intro p hp
    simp only
    rw [dif_pos (by have := List.mem_range.1 hp; rwa [hle] at this)]
  rw [key dbg sh masks rng outs hsh hm ho, key dbg' sh' masks' rng' outs' hsh' hm' ho']

/-- **C22** The same for `d_ifft`. -/
theorem C22_ifft_masks_cancel {dbg₀ : Bool} {b : Nat} {pp : PSS F} (hpp : PSS.new dbg₀ (2 ^ b) = .ok pp) (dbg dbg' : Bool) (a : Nat)
    (ha : a < 64) {dom : Domain F} (hdom : Domain.new (2 ^ (a + b)) = some dom) (sh sh' : Nat → List F) (evals : List F)
    (hsh : HoldsInput pp a b sh evals) (hsh' : HoldsInput pp a b sh' evals) (g : F) (masks masks' : Nat → FftMask F)
    (hm : IsFftMasks pp false g dom.groupGenInv (2 ^ (a + b)) masks)
    (hm' : IsFftMasks pp false g dom.groupGenInv (2 ^ (a + b)) masks') (sid : Sid) (rng rng' : Nat → Nat → F)
    (outs outs' : Fin (4 * 2 ^ b) → List F)
    (ho : AlwaysYields (Net.init fun i : Fin (4 * 2 ^ b) => pp.dIfft dbg (4 * 2 ^ b) i (sh i) (masks i) false dom g sid rng) outs)
    (ho' : AlwaysYields (Net.init fun i : Fin (4 * 2 ^ b) =>
      pp.dIfft dbg' (4 * 2 ^ b) i (sh' i) (masks' i) false dom g sid rng') outs') :
    opened pp (2 ^ a) (fun p => if h : p < 4 * 2 ^ b then outs ⟨p, h⟩ else []) =
      opened pp (2 ^ a) (fun p => if h : p < 4 * 2 ^ b then outs' ⟨p, h⟩ else []) := by
  have hle := l_eq hpp
  have key : ∀ dbg sh masks rng (outs : Fin (4 * 2 ^ b) → List F), HoldsInput pp a b sh evals →
      IsFftMasks pp false g dom.groupGenInv (2 ^ (a + b)) masks →
      AlwaysYields (Net.init fun i : Fin (4 * 2 ^ b) => pp.dIfft dbg (4 * 2 ^ b) i (sh i) (masks i) false dom g sid rng) outs →
      opened pp (2 ^ a) (fun p => if h : p < 4 * 2 ^ b then outs ⟨p, h⟩ else []) =
        (List.range (2 ^ (a + b))).map fun k => g ^ k * (dom.ifft evals).getD k 0 := by
    intro dbg sh masks rng outs hsh hm ho
    obtain ⟨o, h1, h2⟩ := C20_d_ifft hpp dbg a ha hdom sh evals hsh g false masks hm sid rng
    obtain rfl := AlwaysYields.unique ho h1
    rw [← h2.opened hpp]
    unfold opened
    congr 1
    apply List.map_congr_left
    intro c _
    congr 1
    apply List.map_congr_left
    intro p hp
    simp only
    rw [dif_pos (by have := List.mem_range.1 hp; rwa [hle] at this)]
  rw [key dbg sh masks rng outs hsh hm ho, key dbg' sh' masks' rng' outs' hsh' hm' ho']

end net

/-- The domain of size 4 of the example field. -/
def dom17 : Domain (ZMod 17) := ⟨4, 13, 4, 13, 1, 1⟩

theorem dom17_eq : Domain.new (F := ZMod 17) (2 ^ (1 + 1)) = some dom17 := by decide +kernel

/-- Sampled masks exist. -/
example : ∃ masks, IsFftMasks pp17 false 1 dom17.groupGen (2 ^ (1 + 1)) masks ∧ masks 0 ≠ FftMask.zero 2 := by
  have e : ∃ ms, FftMask.sample pp17 true false 1 dom17.groupGen (2 ^ (1 + 1)) (fun i => i + 3) (fun i j => i + 2 * j)
      (fun i j => 5 * i + j + 1) = .ok ms ∧ ms.length = 8 ∧ (ms.map FftMask.inMask).getD 0 [] ≠ [0, 0] := by
    refine ⟨_, rfl, ?_⟩
    decide +kernel
  obtain ⟨ms, e, hl, h0⟩ := e
  refine ⟨fun p => ms.getD p (FftMask.zero 0), Or.inl ⟨true, _, _, _, ms, e, fun p hp => ?_⟩, ?_⟩
  · have hp : p < 8 := hp
    simp only
    rw [List.getD_eq_getElem?_getD, List.getElem?_eq_getElem (by omega)]
    rfl
  · intro h
    apply h0
    rw [getD_map_of_lt _ _ _ (FftMask.zero 0) _ (by omega)]
    simp only at h
    rw [h]
    rfl

/-- The hypotheses of C19 are met by a concrete run with 8 parties: the transform of `1 + 2X + 3X² + 4X³` on the domain
`1, 13, 16, 4` of `F17`. -/
example : ∃ (shares : List (List (ZMod 17))) (outs : Nat → List (ZMod 17)),
    AlwaysYields (Net.init fun i : Fin (4 * 2 ^ 1) =>
      pp17.dFft true (4 * 2 ^ 1) i (shares.getD i []) (FftMask.zero 2) false dom17 .zero (fun i j => i + j)) (fun i => outs i) ∧
    opened pp17 2 outs = [10, 6, 15, 7] := by
  obtain ⟨shares, outs, -, h1, h2⟩ := C19_d_fft_end_to_end (pp17_eq true) true 1 (by norm_num) dom17_eq [1, 2, 3, 4] rfl
    (fun _ => FftMask.zero 2) (Or.inr fun _ => rfl) .zero (fun i j => 3 * i + j) (fun i j => i + j)
  exact ⟨shares, outs, h1, h2.trans (by decide +kernel)⟩

example : ∃ (shares : List (List (ZMod 17))) (outs : Nat → List (ZMod 17)),
    AlwaysYields (Net.init fun i : Fin (4 * 2 ^ 1) =>
      pp17.dIfft true (4 * 2 ^ 1) i (shares.getD i []) (FftMask.zero 2) false dom17 1 .one (fun i j => i + j)) (fun i => outs i) ∧
    opened pp17 2 outs = [1, 2, 3, 4] := by
  obtain ⟨shares, outs, -, h1, -, -, h2⟩ := C20_d_ifft_end_to_end (pp17_eq true) true 1 (by norm_num) dom17_eq [10, 6, 15, 7] rfl
    1 (fun _ => FftMask.zero 2) (Or.inr fun _ => rfl) .one (fun i j => 3 * i + j) (fun i j => i + j)
  exact ⟨shares, outs, h1, (h2 rfl).trans (by decide +kernel)⟩

/-- C21 and C22 on concrete values. -/
example : ∃ (sh : Nat → List (ZMod 17)) (outs : Nat → List (ZMod 17)), HoldsInput pp17 1 1 sh (dom17.fft [1, 2, 3, 4]) ∧
    AlwaysYields (Net.init fun i : Fin (4 * 2 ^ 1) =>
      ifftThenFft pp17 true (4 * 2 ^ 1) i (sh i) (FftMask.zero 2) (FftMask.zero 2) false dom17 3 .one .two (fun i j => i + j)
        (fun i j => i + j)) (fun i => outs i) ∧
    opened pp17 2 outs = [6, 8, 16, 8] := by
  obtain ⟨shares, -, -, hs⟩ := C19_input_is_packed (pp17_eq true) true 1 (dom17.fft [1, 2, 3, 4]) rfl fun i j => 3 * i + j
  obtain ⟨outs, h1, h2, -⟩ := C21_ifft_then_fft (pp17_eq true) true 1 (by norm_num) dom17_eq _ [1, 2, 3, 4] rfl hs 3
    (fun _ => FftMask.zero 2) (fun _ => FftMask.zero 2) (Or.inr fun _ => rfl) (Or.inr fun _ => rfl) .one .two
    (fun i j => i + j) (fun i j => i + j)
  exact ⟨_, outs, hs, h1, h2.trans (by decide +kernel)⟩

/-- Example for C21: there and back again on the coset of `3`. -/
example : ∃ (sh : Nat → List (ZMod 17)) (outs : Nat → List (ZMod 17)), HoldsInput pp17 1 1 sh [10, 6, 15, 7] ∧
    AlwaysYields (Net.init fun i : Fin (4 * 2 ^ 1) => do
      let e ← ifftThenFft pp17 true (4 * 2 ^ 1) i (sh i) (FftMask.zero 2) (FftMask.zero 2) true dom17 3 .zero .zero (fun i j => i + j)
        (fun i j => i + j)
      ifftThenFft pp17 true (4 * 2 ^ 1) i e (FftMask.zero 2) (FftMask.zero 2) false dom17 3⁻¹ .zero .zero (fun i j => i + j)
        (fun i j => i + j)) (fun i => outs i) ∧
    opened pp17 2 outs = [10, 6, 15, 7] := by
  obtain ⟨shares, -, -, hs⟩ := C19_input_is_packed (pp17_eq true) true 1 ([10, 6, 15, 7] : List (ZMod 17)) rfl fun i j => 3 * (i : ZMod 17) + j
  obtain ⟨outs, h1, h2⟩ := C21_round_trip (pp17_eq true) true 1 (by norm_num) dom17_eq _ _ hs 3 (by decide) (fun _ => FftMask.zero 2)
    (fun _ => FftMask.zero 2) (fun _ => FftMask.zero 2) (fun _ => FftMask.zero 2) (Or.inr fun _ => rfl) (Or.inr fun _ => rfl)
    (Or.inr fun _ => rfl) (Or.inr fun _ => rfl) .zero (fun i j => i + j) (fun i j => i + j) (fun i j => i + j) (fun i j => i + j)
  exact ⟨_, outs, hs, h1, h2⟩

/-- Example for C22: two sessions with different shares of the same vector, one in a debug and one in a release build. -/
example : ∃ (sh sh' : Nat → List (ZMod 17)) (outs outs' : Fin (4 * 2 ^ 1) → List (ZMod 17)),
    AlwaysYields (Net.init fun i : Fin (4 * 2 ^ 1) => pp17.dFft true (4 * 2 ^ 1) i (sh i) (FftMask.zero 2) false dom17 .zero
      (fun i j => i + j)) outs ∧
    AlwaysYields (Net.init fun i : Fin (4 * 2 ^ 1) => pp17.dFft false (4 * 2 ^ 1) i (sh' i) (FftMask.zero 2) false dom17 .zero
      (fun i j => i * j)) outs' ∧
    opened pp17 (2 ^ 1) (fun p => if h : p < 4 * 2 ^ 1 then outs ⟨p, h⟩ else []) =
      opened pp17 (2 ^ 1) (fun p => if h : p < 4 * 2 ^ 1 then outs' ⟨p, h⟩ else []) := by
  obtain ⟨s, -, -, hs⟩ := C19_input_is_packed (pp17_eq true) true 1 ([1, 2, 3, 4] : List (ZMod 17)) rfl fun i j => 3 * (i : ZMod 17) + j
  obtain ⟨s', -, -, hs'⟩ := C19_input_is_packed (pp17_eq true) true 1 ([1, 2, 3, 4] : List (ZMod 17)) rfl fun i j => (i : ZMod 17) + 7 * j
  obtain ⟨outs, h1, -⟩ := C19_d_fft (pp17_eq true) true 1 (by norm_num) dom17_eq _ _ hs false (fun _ => FftMask.zero 2)
    (Or.inr fun _ => rfl) .zero fun i j => i + j
  obtain ⟨outs', h1', -⟩ := C19_d_fft (pp17_eq true) false 1 (by norm_num) dom17_eq _ _ hs' false (fun _ => FftMask.zero 2)
    (Or.inr fun _ => rfl) .zero fun i j => i * j
  have h22 := C22_fft_masks_cancel (pp17_eq true) true false 1 (by norm_num) dom17_eq (fun p => s.getD p []) (fun p => s'.getD p [])
    [1, 2, 3, 4] hs hs' (fun _ => FftMask.zero 2) (fun _ => FftMask.zero 2) (Or.inr fun _ => rfl) (Or.inr fun _ => rfl) .zero
    (fun i j => i + j) (fun i j => i * j) (fun i => outs i) (fun i => outs' i) h1 h1'
  exact ⟨fun p => s.getD p [], fun p => s'.getD p [], fun i => outs i, fun i => outs' i, h1, h1', h22⟩

example : ∃ (sh sh' : Nat → List (ZMod 17)) (outs outs' : Fin (4 * 2 ^ 1) → List (ZMod 17)),
    AlwaysYields (Net.init fun i : Fin (4 * 2 ^ 1) => pp17.dIfft true (4 * 2 ^ 1) i (sh i) (FftMask.zero 2) false dom17 3 .zero
      (fun i j => i + j)) outs ∧
    AlwaysYields (Net.init fun i : Fin (4 * 2 ^ 1) => pp17.dIfft false (4 * 2 ^ 1) i (sh' i) (FftMask.zero 2) false dom17 3 .zero
      (fun i j => i * j)) outs' ∧
    opened pp17 (2 ^ 1) (fun p => if h : p < 4 * 2 ^ 1 then outs ⟨p, h⟩ else []) =
      opened pp17 (2 ^ 1) (fun p => if h : p < 4 * 2 ^ 1 then outs' ⟨p, h⟩ else []) := by
  obtain ⟨s, -, -, hs⟩ := C19_input_is_packed (pp17_eq true) true 1 ([1, 2, 3, 4] : List (ZMod 17)) rfl fun i j => 3 * (i : ZMod 17) + j
  obtain ⟨s', -, -, hs'⟩ := C19_input_is_packed (pp17_eq true) true 1 ([1, 2, 3, 4] : List (ZMod 17)) rfl fun i j => (i : ZMod 17) + 7 * j
  obtain ⟨outs, h1, -⟩ := C20_d_ifft (pp17_eq true) true 1 (by norm_num) dom17_eq _ _ hs 3 false (fun _ => FftMask.zero 2)
    (Or.inr fun _ => rfl) .zero fun i j => i + j
  obtain ⟨outs', h1', -⟩ := C20_d_ifft (pp17_eq true) false 1 (by norm_num) dom17_eq _ _ hs' 3 false (fun _ => FftMask.zero 2)
    (Or.inr fun _ => rfl) .zero fun i j => i * j
  have h22 := C22_ifft_masks_cancel (pp17_eq true) true false 1 (by norm_num) dom17_eq (fun p => s.getD p []) (fun p => s'.getD p [])
    [1, 2, 3, 4] hs hs' 3 (fun _ => FftMask.zero 2) (fun _ => FftMask.zero 2) (Or.inr fun _ => rfl) (Or.inr fun _ => rfl) .zero
    (fun i j => i + j) (fun i j => i * j) (fun i => outs i) (fun i => outs' i) h1 h1'
  exact ⟨fun p => s.getD p [], fun p => s'.getD p [], fun i => outs i, fun i => outs' i, h1, h1', h22⟩

end ZkSaas.Properties
