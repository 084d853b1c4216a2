import Verif.Lemmas.Runs
import Verif.Lemmas.Dfft

/-! Runs of the protocols of `dist-primitives`. -/

set_option linter.unusedSectionVars false

namespace ZkSaas

open Finset Spec

variable {F : Type} [Field F] [DecidableEq F]

/-! ### d_fft, d_ifft -/

/-- The masks of the parties belong to one transform and cancel. -/
def MasksOk (pp : PSS F) (a b : Nat) (rearrange : Bool) (g gen : F) (mask : Nat → FftMask F) : Prop :=
  ∃ φ : Nat → Nat → F → F,
    (∀ s ≥ a, ∀ j x, φ (s + 1) j x = φ s (2 * j) (x ^ 2) + x * φ s (2 * j + 1) (x ^ 2)) ∧
    pp.SharedVec (2 * pp.l) (2 ^ a) (fun p => (mask p).inMask)
      (fun c => (List.range (2 ^ b)).map fun j => φ a j (gen ^ (2 ^ b * (c + 1)))) ∧
    pp.SharedVec (2 * pp.l) (2 ^ a) (fun p => (mask p).outMask)
      (packed rearrange a b fun k => -(g ^ k * φ (a + b) 0 (gen ^ k)))

theorem MasksOk.of_sample {pp : PSS F} (hg : pp.Good) (dbg : Bool) {a b : Nat} (hlb : pp.l = 2 ^ b) {gen : F}
    (hprim : IsPrimitiveRoot gen (2 ^ (a + b))) (rearrange : Bool) (g : F) (vals : Nat → F)
    (rngIn rngOut : Nat → Nat → F) :
    ∃ masks, FftMask.sample pp dbg rearrange g gen (2 ^ (a + b)) vals rngIn rngOut = .ok masks ∧
      masks.length = 4 * pp.l ∧ MasksOk pp a b rearrange g gen fun p => masks.getD p (FftMask.zero 0) := by
  obtain ⟨masks, φ, e, hl, h1, -, h2, h3⟩ := FftMask.sample_ok hg dbg hlb hprim rearrange g vals rngIn rngOut
  exact ⟨masks, e, hl, φ, h1, h2, h3⟩

theorem MasksOk.zero {pp : PSS F} {a b : Nat} (hlb : pp.l = 2 ^ b) (rearrange : Bool) (g gen : F) :
    MasksOk pp a b rearrange g gen fun _ => FftMask.zero (2 ^ a) := by
  have hz : ∀ (N : Nat) (sec : Nat → List F), (∀ c < N, sec c = List.replicate (2 ^ b) 0) →
      pp.SharedVec (2 * pp.l) N (fun _ => List.replicate N (0 : F)) sec := by
    intro N sec hsec
    refine ⟨fun p _ => by simp, fun c hc => ⟨by simp, by rw [hsec c hc, hlb]; simp, fun _ => 0, ?_, ?_⟩⟩
    · intro i hi
      rw [getD_map_range, if_pos hi, getD_replicate_self, pval_zero]
    · intro k hk
      rw [hsec c hc, getD_replicate_self, pval_zero]
  refine ⟨fun _ _ _ => 0, by simp, hz _ _ ?_, hz _ _ ?_⟩
  · intro c _
    apply list_ext_getD 0 (by simp)
    intro i hi
    simp at hi
    rw [getD_map_range, if_pos hi, getD_replicate_self]
  · intro c _
    apply list_ext_getD 0 (by simp [packed])
    intro i hi
    simp [packed] at hi
    rw [packed, getD_map_range, if_pos hi, getD_replicate_self]
    simp

section net
variable [FixedWire F] {n : Nat}

theorem map_getD_range {T : Type} (v : List T) (d : T) (h : v.length = n) :
    (List.range n).map (fun i => v.getD i d) = v := by
  rw [← h]; exact (list_eq_map_range v d).symm

/-- The interactive half of a distributed transform, with `n` parties whose shares suffice to decode. -/
theorem PSS.fft2WithRearrange_few {pp : PSS F} (hg : pp.Good) (dbg : Bool) (hn0 : 0 < n) (hn : n ≤ 4 * pp.l) {a b : Nat}
    (ha : a < 64) (hlb : pp.l = 2 ^ b) {gen : F}
    (hprim : IsPrimitiveRoot gen (2 ^ (a + b))) (φ : Nat → Nat → F → F)
    (hφ : ∀ s ≥ a, ∀ j x, φ (s + 1) j x = φ s (2 * j) (x ^ 2) + x * φ s (2 * j + 1) (x ^ 2))
    {d : Nat} (hd2 : 2 * pp.l ≤ d) (hd4 : d ≤ 4 * pp.l - 1) (hp : pp.Decodable dbg d (List.range n))
    {px : Nat → List F} (hpx : pp.SharedVec d (2 ^ a) px
      (fun c => (List.range (2 ^ b)).map fun j => φ a j (gen ^ (2 ^ b * (c + 1)))))
    (g : F) (rearrange : Bool) {mask : Nat → FftMask F} (hm : MasksOk pp a b rearrange g gen mask) (sid : Sid)
    (rng : Nat → Nat → F) :
    ∃ outs : Nat → List F,
      Runs (Sized (8 + 2 ^ a * FixedWire.width F)) (only sid) (fun i : Fin n => pp.fft2WithRearrange dbg n i (px i) (mask i) rearrange g gen sid rng)
        (fun i => outs i) ∧
      pp.SharedVec (2 * pp.l) (2 ^ a) outs (packed rearrange a b fun k => g ^ k * φ (a + b) 0 (gen ^ k)) := by
  have hl := hg.lpos
  obtain ⟨ψ, hψ, hin, hout⟩ := hm
  have hsum := SharedVec.add hpx (SharedVec.mono hd2 hin)
  have hsum' : pp.SharedVec d (2 ^ a) (fun p => addMask (px p) (mask p).inMask)
      (fun c => (List.range (2 ^ b)).map fun j => (φ a j (gen ^ (2 ^ b * (c + 1))) + ψ a j (gen ^ (2 ^ b * (c + 1))))) := by
    refine SharedVec.congr hsum (fun _ _ => rfl) fun c hc => ?_
    rw [List.zipWith_map_left, List.zipWith_map_right, List.zipWith_self]
  obtain ⟨out, hK, hol, hos⟩ := PSS.fft2King_ok hg dbg hlb hprim (fun s j x => φ s j x + ψ s j x)
    (fun s hs j x => by rw [hφ s hs, hψ s hs]; ring) (by omega : 0 < d) hd4 hp hsum' g rearrange rng
  have hlen : ∀ p < 4 * pp.l, (addMask (px p) (mask p).inMask).length = 2 ^ a := hsum'.1
  have h2a : 2 ^ a < 2 ^ 64 := Nat.pow_lt_pow_right (by norm_num) ha
  refine ⟨fun p => addMask (out.getD p []) (mask p).outMask, ?_, ?_⟩
  · refine (runs_round_more hn0 sid pp.t (fun i => addMask (px i) (mask i).inMask)
      (fun i hi => Wire.ok_list _ (by rw [hlen i (by omega)]; exact h2a))
      (fun i rs => pp.fft2King dbg (addMask (px i) (mask i).inMask).length (px i).length g gen rearrange rs.shares rs.parties rng)
      (fun i => out.getD i []) (8 + 2 ^ a * FixedWire.width F) (4 * pp.l) hn ?_ ?_
      (fun i y => .done (.ok (addMask y (mask i).outMask))) (Runs.done _)
      (fun i hi _ => by rw [Sized, Wire.enc_list_length, hlen i (by omega)])
      (fun i hi _ => by rw [Sized, Wire.enc_list_length, hos.1 i (by omega)])).congr (fun i => rfl) (fun i => rfl)
    · simp only
      rw [hlen 0 (by omega), hpx.1 0 (by omega), hK, map_getD_range _ _ hol]
    · intro i hi
      have := hos.1 i (by omega)
      exact ⟨Wire.ok_list _ (by rw [this]; exact h2a), by rw [Wire.enc_list_length, this]⟩
  · refine SharedVec.congr (SharedVec.add hos hout) (fun _ _ => rfl) fun c hc => ?_
    rw [packed_zipWith]
    congr 1
    funext k
    ring

/-- The interactive half of a distributed transform. -/
theorem PSS.fft2WithRearrange_runs {pp : PSS F} (hg : pp.Good) (dbg : Bool) (hn : n = 4 * pp.l) {a b : Nat}
    (ha : a < 64) (hlb : pp.l = 2 ^ b) {gen : F}
    (hprim : IsPrimitiveRoot gen (2 ^ (a + b))) (φ : Nat → Nat → F → F)
    (hφ : ∀ s ≥ a, ∀ j x, φ (s + 1) j x = φ s (2 * j) (x ^ 2) + x * φ s (2 * j + 1) (x ^ 2))
    {d : Nat} (hd2 : 2 * pp.l ≤ d) (hd4 : d ≤ 4 * pp.l - 1)
    {px : Nat → List F} (hpx : pp.SharedVec d (2 ^ a) px
      (fun c => (List.range (2 ^ b)).map fun j => φ a j (gen ^ (2 ^ b * (c + 1)))))
    (g : F) (rearrange : Bool) {mask : Nat → FftMask F} (hm : MasksOk pp a b rearrange g gen mask) (sid : Sid)
    (rng : Nat → Nat → F) :
    ∃ outs : Nat → List F,
      Runs (Sized (8 + 2 ^ a * FixedWire.width F)) (only sid) (fun i : Fin n => pp.fft2WithRearrange dbg n i (px i) (mask i) rearrange g gen sid rng)
        (fun i => outs i) ∧
      pp.SharedVec (2 * pp.l) (2 ^ a) outs (packed rearrange a b fun k => g ^ k * φ (a + b) 0 (gen ^ k)) :=
  PSS.fft2WithRearrange_few hg dbg (by have := hg.lpos; omega) hn.le ha hlb hprim φ hφ hd2 hd4 (Or.inl (by rw [hn])) hpx g rearrange hm sid rng

/-- The local half: FFT1 on shares. -/
theorem PSS.fft1_shared {pp : PSS F} {a b : Nat} (hlb : pp.l = 2 ^ b) {gen : F}
    (hprim : IsPrimitiveRoot gen (2 ^ (a + b))) {d : Nat} {sh : Nat → List F} (x : Nat → F)
    (h : pp.SharedVec d (2 ^ a) sh (packed true a b x)) :
    ∃ px : Nat → List F, (∀ p < 4 * pp.l, pp.fft1InPlace (sh p) gen = .ok (px p)) ∧
      pp.SharedVec d (2 ^ a) px (fun c => (List.range (2 ^ b)).map fun j =>
        bp (fun i => x (bitRev (a + b) i)) a j (gen ^ (2 ^ b * (c + 1)))) := by
  have hlin := SharedVec.linear (N' := 2 ^ a) (U := 2 ^ a) h (fun k u => (gen ^ (2 ^ b * (k + 1))) ^ u) (bitRev a)
    (fun u _ => bitRev_lt a u)
  refine ⟨fun p => (List.range (2 ^ a)).map fun k => ∑ u ∈ range (2 ^ a),
    (gen ^ (2 ^ b * (k + 1))) ^ u • (sh p).getD (bitRev a u) 0, ?_, ?_⟩
  · intro p hp
    rw [PSS.fft1InPlace_eq hlb hprim (sh p) (h.1 p hp)]
    congr 1
    apply List.map_congr_left
    intro k _
    rw [bp_eq]
    apply sum_congr rfl
    intro u _
    simp
  · refine SharedVec.congr hlin (fun _ _ => rfl) fun c hc => ?_
    rw [hlb]
    apply List.map_congr_left
    intro j hj
    rw [bp_eq]
    apply sum_congr rfl
    intro u _
    rw [packed, getD_map_range, if_pos (List.mem_range.1 hj)]
    simp only [slot, if_true, smul_eq_mul]
    rw [Nat.add_comm (bitRev a u)]

/-- The butterflies compute the Fourier transform. -/
theorem bp_top (x : Nat → F) (k : Nat) (w : F) :
    bp (fun i => x (bitRev k i)) k 0 w = ∑ u ∈ range (2 ^ k), w ^ u * x u := by
  rw [bp_eq]
  apply sum_congr rfl
  intro u hu
  rw [Nat.zero_mul, Nat.zero_add, bitRev_bitRev k u (mem_range.1 hu)]

/-- `d_fft`, with `n` parties whose shares suffice to decode. -/
theorem PSS.dFft_few {pp : PSS F} (hg : pp.Good) (dbg : Bool) (hn0 : 0 < n) (hn : n ≤ 4 * pp.l) {a b : Nat}
    (ha : a < 64) (hlb : pp.l = 2 ^ b) {dom : Domain F} (hsize : dom.size = 2 ^ (a + b))
    (hprim : IsPrimitiveRoot dom.groupGen (2 ^ (a + b)))
    {d : Nat} (hd2 : 2 * pp.l ≤ d) (hd4 : d ≤ 4 * pp.l - 1) (hp : pp.Decodable dbg d (List.range n))
    {sh : Nat → List F} (x : Nat → F) (hsh : pp.SharedVec d (2 ^ a) sh (packed true a b x))
    (rearrange : Bool) {mask : Nat → FftMask F} (hm : MasksOk pp a b rearrange 1 dom.groupGen mask) (sid : Sid)
    (rng : Nat → Nat → F) :
    ∃ outs : Nat → List F,
      Runs (Sized (8 + 2 ^ a * FixedWire.width F)) (only sid) (fun i : Fin n => pp.dFft dbg n i (sh i) (mask i) rearrange dom sid rng) (fun i => outs i) ∧
      pp.SharedVec (2 * pp.l) (2 ^ a) outs
        (packed rearrange a b fun k => ∑ u ∈ range (2 ^ (a + b)), (dom.groupGen ^ k) ^ u * x u) := by
  obtain ⟨px, e1, hpx⟩ := PSS.fft1_shared hlb hprim x hsh
  obtain ⟨outs, hr, ho⟩ := PSS.fft2WithRearrange_few hg dbg hn0 hn ha hlb hprim
    (bp (fun i => x (bitRev (a + b) i))) (fun _ _ _ _ => rfl) hd2 hd4 hp hpx 1 rearrange hm sid rng
  refine ⟨outs, ?_, ?_⟩
  · refine hr.congr (fun i => ?_) fun _ => rfl
    have hi : i.val < 4 * pp.l := by omega
    unfold PSS.dFft
    rw [debugAssert_of (by rw [hsh.1 i hi, hlb, hsize, pow_add]; simp), e1 i hi]
    rfl
  · refine SharedVec.congr ho (fun _ _ => rfl) fun c hc => ?_
    congr 1
    funext k
    rw [bp_top, one_pow, one_mul]

/-- `d_fft`. -/
theorem PSS.dFft_runs {pp : PSS F} (hg : pp.Good) (dbg : Bool) (hn : n = 4 * pp.l) {a b : Nat}
    (ha : a < 64) (hlb : pp.l = 2 ^ b) {dom : Domain F} (hsize : dom.size = 2 ^ (a + b))
    (hprim : IsPrimitiveRoot dom.groupGen (2 ^ (a + b)))
    {d : Nat} (hd2 : 2 * pp.l ≤ d) (hd4 : d ≤ 4 * pp.l - 1)
    {sh : Nat → List F} (x : Nat → F) (hsh : pp.SharedVec d (2 ^ a) sh (packed true a b x))
    (rearrange : Bool) {mask : Nat → FftMask F} (hm : MasksOk pp a b rearrange 1 dom.groupGen mask) (sid : Sid)
    (rng : Nat → Nat → F) :
    ∃ outs : Nat → List F,
      Runs (Sized (8 + 2 ^ a * FixedWire.width F)) (only sid) (fun i : Fin n => pp.dFft dbg n i (sh i) (mask i) rearrange dom sid rng) (fun i => outs i) ∧
      pp.SharedVec (2 * pp.l) (2 ^ a) outs
        (packed rearrange a b fun k => ∑ u ∈ range (2 ^ (a + b)), (dom.groupGen ^ k) ^ u * x u) :=
  PSS.dFft_few hg dbg (by have := hg.lpos; omega) hn.le ha hlb hsize hprim hd2 hd4 (Or.inl (by rw [hn])) x hsh rearrange hm sid rng

theorem packed_smul (rev : Bool) (a b : Nat) (x : Nat → F) (y : F) (c : Nat) :
    (packed rev a b x c).map (fun z => z * y) = packed rev a b (fun i => x i * y) c := by
  simp [packed]

theorem SharedVec.scale {pp : PSS F} {d N : Nat} {sh sec : Nat → List F} (h : pp.SharedVec d N sh sec) (y : F) :
    pp.SharedVec d N (fun p => (sh p).map fun z => z * y) (fun c => (sec c).map fun z => z * y) := by
  refine ⟨fun p hp => by simp [h.1 p hp], fun c hc => ?_⟩
  have := Shares.smul y (h.2 c hc)
  rw [List.map_map] at this
  have e1 : (List.range (4 * pp.l)).map (fun p => ((sh p).map fun z => z * y).getD c 0) =
      (List.range (4 * pp.l)).map ((y • ·) ∘ fun p => (sh p).getD c 0) := by
    apply List.map_congr_left
    intro p hp
    have hp := List.mem_range.1 hp
    rw [getD_map_of_lt _ _ _ 0 0 (by rw [h.1 p hp]; exact hc)]
    simp [mul_comm]
  have e2 : (sec c).map (fun z => z * y) = (sec c).map (y • ·) := by
    apply List.map_congr_left
    intro z _
    simp [mul_comm]
  rw [e1]
  show pp.Shares _ _ ((sec c).map fun z => z * y)
  rw [e2]
  exact this

/-- `d_ifft`, with `n` parties whose shares suffice to decode. -/
theorem PSS.dIfft_few {pp : PSS F} (hg : pp.Good) (dbg : Bool) (hn0 : 0 < n) (hn : n ≤ 4 * pp.l) {a b : Nat}
    (ha : a < 64) (hlb : pp.l = 2 ^ b) {dom : Domain F} (hsize : dom.size = 2 ^ (a + b))
    (hprim : IsPrimitiveRoot dom.groupGenInv (2 ^ (a + b)))
    {d : Nat} (hd2 : 2 * pp.l ≤ d) (hd4 : d ≤ 4 * pp.l - 1) (hp : pp.Decodable dbg d (List.range n))
    {sh : Nat → List F} (x : Nat → F) (hsh : pp.SharedVec d (2 ^ a) sh (packed true a b x)) (g : F)
    (rearrange : Bool) {mask : Nat → FftMask F} (hm : MasksOk pp a b rearrange g dom.groupGenInv mask) (sid : Sid)
    (rng : Nat → Nat → F) :
    ∃ outs : Nat → List F,
      Runs (Sized (8 + 2 ^ a * FixedWire.width F)) (only sid) (fun i : Fin n => pp.dIfft dbg n i (sh i) (mask i) rearrange dom g sid rng) (fun i => outs i) ∧
      pp.SharedVec (2 * pp.l) (2 ^ a) outs
        (packed rearrange a b fun k => g ^ k * ∑ u ∈ range (2 ^ (a + b)), (dom.groupGenInv ^ k) ^ u * (x u * dom.sizeInv)) := by
  have hsh' : pp.SharedVec d (2 ^ a) (fun p => (sh p).map fun z => z * dom.sizeInv) (packed true a b fun i => x i * dom.sizeInv) :=
    SharedVec.congr (SharedVec.scale hsh dom.sizeInv) (fun _ _ => rfl) fun c hc => packed_smul _ _ _ _ _ _
  obtain ⟨px, e1, hpx⟩ := PSS.fft1_shared hlb hprim _ hsh'
  obtain ⟨outs, hr, ho⟩ := PSS.fft2WithRearrange_few hg dbg hn0 hn ha hlb hprim
    (bp (fun i => (fun i => x i * dom.sizeInv) (bitRev (a + b) i))) (fun _ _ _ _ => rfl) hd2 hd4 hp hpx g rearrange hm sid rng
  refine ⟨outs, ?_, ?_⟩
  · refine hr.congr (fun i => ?_) fun _ => rfl
    have hi : i.val < 4 * pp.l := by omega
    unfold PSS.dIfft
    have e := e1 i hi
    rw [debugAssert_of (by rw [hsh.1 i hi, hlb, hsize, pow_add]; simp)]
    dsimp only
    rw [e]
    rfl
  · refine SharedVec.congr ho (fun _ _ => rfl) fun c hc => ?_
    congr 1
    funext k
    rw [bp_top fun i => x i * dom.sizeInv]

/-- `d_ifft`. -/
theorem PSS.dIfft_runs {pp : PSS F} (hg : pp.Good) (dbg : Bool) (hn : n = 4 * pp.l) {a b : Nat}
    (ha : a < 64) (hlb : pp.l = 2 ^ b) {dom : Domain F} (hsize : dom.size = 2 ^ (a + b))
    (hprim : IsPrimitiveRoot dom.groupGenInv (2 ^ (a + b)))
    {d : Nat} (hd2 : 2 * pp.l ≤ d) (hd4 : d ≤ 4 * pp.l - 1)
    {sh : Nat → List F} (x : Nat → F) (hsh : pp.SharedVec d (2 ^ a) sh (packed true a b x)) (g : F)
    (rearrange : Bool) {mask : Nat → FftMask F} (hm : MasksOk pp a b rearrange g dom.groupGenInv mask) (sid : Sid)
    (rng : Nat → Nat → F) :
    ∃ outs : Nat → List F,
      Runs (Sized (8 + 2 ^ a * FixedWire.width F)) (only sid) (fun i : Fin n => pp.dIfft dbg n i (sh i) (mask i) rearrange dom g sid rng) (fun i => outs i) ∧
      pp.SharedVec (2 * pp.l) (2 ^ a) outs
        (packed rearrange a b fun k => g ^ k * ∑ u ∈ range (2 ^ (a + b)), (dom.groupGenInv ^ k) ^ u * (x u * dom.sizeInv)) :=
  PSS.dIfft_few hg dbg (by have := hg.lpos; omega) hn.le ha hlb hsize hprim hd2 hd4 (Or.inl (by rw [hn])) x hsh g rearrange hm sid rng

theorem PSS.fft2WithRearrange_wf {pp : PSS F} (dbg : Bool) (hn : 0 < n) (me : Nat) (px : List F) (mask : FftMask F)
    (rearrange : Bool) (g gen : F) (sid : Sid) (rng : Nat → Nat → F) :
    (pp.fft2WithRearrange dbg n me px mask rearrange g gen sid rng).WF (only sid) :=
  round_wf hn sid _ _ _ _ _ fun _ => .done _ _

theorem PSS.dFft_wf {pp : PSS F} (dbg : Bool) (hn : 0 < n) (me : Nat) (px : List F) (mask : FftMask F)
    (rearrange : Bool) (dom : Domain F) (sid : Sid) (rng : Nat → Nat → F) :
    (pp.dFft dbg n me px mask rearrange dom sid rng).WF (only sid) :=
  (Proc.WF.done _ _).bind fun _ => (Proc.WF.done _ _).bind fun _ => PSS.fft2WithRearrange_wf _ hn _ _ _ _ _ _ _ _

theorem PSS.dIfft_wf {pp : PSS F} (dbg : Bool) (hn : 0 < n) (me : Nat) (px : List F) (mask : FftMask F)
    (rearrange : Bool) (dom : Domain F) (g : F) (sid : Sid) (rng : Nat → Nat → F) :
    (pp.dIfft dbg n me px mask rearrange dom g sid rng).WF (only sid) :=
  (Proc.WF.done _ _).bind fun _ => (Proc.WF.done _ _).bind fun _ => PSS.fft2WithRearrange_wf _ hn _ _ _ _ _ _ _ _

end net

/-! ### deg_red -/

section degred
variable {T : Type} [AddCommGroup T] [Module F T] [DecidableEq T]

theorem PSS.degRedKing_ok {pp : PSS F} (hg : pp.Good) (dbg : Bool) {d N : Nat} (hN : 0 < N) (hd : 0 < d)
    (hd4 : d ≤ 4 * pp.l - 1) {parties : List Nat} (hp : pp.Decodable dbg d parties) {sh sec : Nat → List T}
    (hsh : pp.SharedVec d N sh sec) (rng : Nat → Nat → T) :
    ∃ out, pp.degRedKing dbg (parties.map sh) parties rng = .ok out ∧ out.length = 4 * pp.l ∧
      pp.SharedVec (2 * pp.l) N (fun p => out.getD p []) sec := by
  unfold PSS.degRedKing
  rw [transpose_received hg hd hN hp hsh.1, ok_bind]
  obtain ⟨rows, e, hlen, h⟩ := mapM_exists (xs := List.range ((List.range N).map fun c => parties.map fun p => (sh p).getD c 0).length)
    (f := fun c => do
      let xShare ← rd ((List.range N).map fun c => parties.map fun p => (sh p).getD c 0) c
      let xi ← pp.unpackMissingShares dbg xShare parties
      pp.pack dbg xi (rng c)) (R := fun c row => pp.Shares (2 * pp.l) row (sec c))
    (by
      intro c hc
      rw [List.length_map, List.length_range] at hc
      have hc := List.mem_range.1 hc
      have hs := hsh.2 c hc
      obtain ⟨row, e, hr⟩ := PSS.pack_shares hg dbg hs.2.1 (rng c)
      refine ⟨row, ?_, hr⟩
      rw [rd_ok (by simpa using hc) [], ok_bind, getD_map_range, if_pos hc,
        PSS.unpackMissing_of_shares hg dbg hp hd4 _ hs, ok_bind, e])
  rw [e, ok_bind]
  rw [List.length_range, List.length_map, List.length_range] at hlen
  exact SharedVec.of_rows hg hN hlen fun c hc => by
    have := h c (by simpa using hc)
    rw [List.getElem_range] at this
    exact this

/-- The masks of the parties cancel. -/
def DegRedMasksOk (pp : PSS F) (N : Nat) (mask : Nat → DegRedMask T) : Prop :=
  ∃ v : Nat → List T, pp.SharedVec (2 * pp.l) N (fun p => (mask p).inMask) v ∧
    pp.SharedVec (2 * pp.l) N (fun p => (mask p).outMask) (fun c => (v c).map fun z => -z)

theorem DegRedMasksOk.of_sample {pp : PSS F} (hg : pp.Good) (dbg : Bool) (gen : T) {N : Nat} (hN : 0 < N)
    (vals : Nat → F) (rngIn rngOut : Nat → Nat → T) :
    ∃ masks, DegRedMask.sample pp dbg gen N vals rngIn rngOut = .ok masks ∧ masks.length = 4 * pp.l ∧
      DegRedMasksOk pp N fun p => masks.getD p (DegRedMask.zero 0) := by
  have hl := hg.lpos
  obtain ⟨rowsI, eI, hlI, hI⟩ := PSS.packVec_shares hg dbg (v := (List.range (N * pp.l)).map fun i => vals i • gen)
    (N := N) (by simp) rngIn
  obtain ⟨outI, tI, hoI, hsI⟩ := SharedVec.of_rows hg hN hlI hI
  obtain ⟨rowsO, eO, hlO, hO⟩ := PSS.packVec_shares hg dbg (v := (List.range (N * pp.l)).map fun i => 0 - vals i • gen)
    (N := N) (by simp) rngOut
  obtain ⟨outO, tO, hoO, hsO⟩ := SharedVec.of_rows hg hN hlO hO
  have hmap : (List.zip outI outO).mapM (fun (x : List T × List T) => DegRedMask.new dbg x.1 x.2) =
      .ok ((List.zip outI outO).map fun x => DegRedMask.mk x.1 x.2) := by
    apply mapM_ok
    intro x hx
    obtain ⟨p, hp, rfl⟩ := List.getElem_of_mem hx
    have hp' : p < 4 * pp.l := by simp at hp; omega
    have h1 := hsI.1 p hp'
    have h2 := hsO.1 p hp'
    simp only at h1 h2
    rw [List.getD_eq_getElem _ _ (by omega)] at h1 h2
    unfold DegRedMask.new
    rw [debugAssert_of (by simp [h1, h2])]
    rfl
  refine ⟨(List.zip outI outO).map fun x => DegRedMask.mk x.1 x.2, ?_, by simp [hoI, hoO],
    chunk ((List.range (N * pp.l)).map fun i => vals i • gen) pp.l, ?_, ?_⟩
  · unfold DegRedMask.sample
    simp only
    rw [eI, ok_bind, tI, ok_bind, eO, ok_bind, tO, ok_bind]
    exact hmap
  · refine SharedVec.congr hsI (fun p hp => ?_) fun _ _ => rfl
    simp only
    rw [List.getD_eq_getElem _ _ (by omega), List.getD_eq_getElem _ _ (by simp; omega)]
    simp
  · refine SharedVec.congr hsO (fun p hp => ?_) fun c _ => ?_
    · simp only
      rw [List.getD_eq_getElem _ _ (by omega), List.getD_eq_getElem _ _ (by simp; omega)]
      simp
    · simp only [chunk, List.map_take, List.map_drop, List.map_map]
      congr 2
      apply List.map_congr_left
      intro i _
      simp

theorem SharedVec.zero {pp : PSS F} (N d : Nat) :
    pp.SharedVec d N (fun _ => List.replicate N (0 : T)) (fun _ => List.replicate pp.l 0) := by
  refine ⟨fun p _ => by simp, fun c hc => ⟨by simp, by simp, fun _ => 0, ?_, ?_⟩⟩
  · intro i hi
    rw [getD_map_range, if_pos hi, getD_replicate_self, pval_zero]
  · intro k hk
    rw [getD_replicate_self, pval_zero]

theorem DegRedMasksOk.zero {pp : PSS F} (N : Nat) : DegRedMasksOk pp N fun _ => DegRedMask.zero (T := T) N :=
  ⟨_, SharedVec.zero N _, SharedVec.congr (SharedVec.zero N _) (fun _ _ => rfl) fun c _ => by simp⟩

variable [FixedWire T] {n : Nat}

theorem zipWith_add_neg (x y : List T) (h : x.length = y.length) :
    List.zipWith (· + ·) (List.zipWith (· + ·) x y) (y.map fun z => -z) = x := by
  apply list_ext_getD 0 (by simp [h])
  intro i hi
  simp [h] at hi
  rw [getD_zipWith _ _ _ _ 0 0 _ (by simp; omega) (by simpa using hi), getD_zipWith _ _ _ _ 0 0 _ (by omega) hi,
    getD_map_of_lt _ _ _ 0 0 hi]
  simp

/-- `deg_red`, with `n` parties whose shares suffice to decode. -/
theorem PSS.degRed_few {pp : PSS F} (hg : pp.Good) (dbg : Bool) (hn0 : 0 < n) (hn : n ≤ 4 * pp.l) {d N : Nat} (hN : 0 < N)
    (hN64 : N < 2 ^ 64) (hd2 : 2 * pp.l ≤ d) (hd4 : d ≤ 4 * pp.l - 1) (hp : pp.Decodable dbg d (List.range n)) {sh sec : Nat → List T}
    (hsh : pp.SharedVec d N sh sec) {mask : Nat → DegRedMask T} (hm : DegRedMasksOk pp N mask) (sid : Sid)
    (rng : Nat → Nat → T) :
    ∃ outs : Nat → List T,
      Runs (Sized (8 + N * FixedWire.width T)) (only sid) (fun i : Fin n => pp.degRed dbg n i (sh i) (mask i) sid rng) (fun i => outs i) ∧
      pp.SharedVec (2 * pp.l) N outs sec := by
  have hl := hg.lpos
  obtain ⟨v, hin, hout⟩ := hm
  have hsum := SharedVec.add hsh (SharedVec.mono hd2 hin)
  obtain ⟨out, hK, hol, hos⟩ := PSS.degRedKing_ok hg dbg hN (by omega : 0 < d) hd4 hp hsum rng
  refine ⟨fun p => addMask (out.getD p []) (mask p).outMask, ?_, ?_⟩
  · refine (runs_round_more hn0 sid pp.t (fun i => addMask (sh i) (mask i).inMask)
      (fun i hi => Wire.ok_list _ (by rw [hsum.1 i (by omega)]; exact hN64))
      (fun i rs => pp.degRedKing dbg rs.shares rs.parties rng)
      (fun i => out.getD i []) (8 + N * FixedWire.width T) (4 * pp.l) hn ?_ ?_
      (fun i y => .done (.ok (addMask y (mask i).outMask))) (Runs.done _)
      (fun i hi _ => by rw [Sized, Wire.enc_list_length, hsum.1 i (by omega)])
      (fun i hi _ => by rw [Sized, Wire.enc_list_length, hos.1 i (by omega)])).congr (fun i => ?_) (fun i => rfl)
    · rw [hK, map_getD_range _ _ hol]
    · intro i hi
      have := hos.1 i (by omega)
      exact ⟨Wire.ok_list _ (by rw [this]; exact hN64), by rw [Wire.enc_list_length, this]⟩
    · have hi : i.val < 4 * pp.l := by omega
      unfold PSS.degRed
      rw [debugAssert_of (by rw [hsh.1 i hi, hin.1 i hi]; simp), debugAssert_of (by rw [hsh.1 i hi, hout.1 i hi]; simp)]
      rfl
  · refine SharedVec.congr (SharedVec.add hos hout) (fun _ _ => rfl) fun c hc => ?_
    exact zipWith_add_neg _ _ (by rw [(hsh.2 c hc).2.1, (hin.2 c hc).2.1])

/-- `deg_red`. -/
theorem PSS.degRed_runs {pp : PSS F} (hg : pp.Good) (dbg : Bool) (hn : n = 4 * pp.l) {d N : Nat} (hN : 0 < N)
    (hN64 : N < 2 ^ 64) (hd2 : 2 * pp.l ≤ d) (hd4 : d ≤ 4 * pp.l - 1) {sh sec : Nat → List T}
    (hsh : pp.SharedVec d N sh sec) {mask : Nat → DegRedMask T} (hm : DegRedMasksOk pp N mask) (sid : Sid)
    (rng : Nat → Nat → T) :
    ∃ outs : Nat → List T,
      Runs (Sized (8 + N * FixedWire.width T)) (only sid) (fun i : Fin n => pp.degRed dbg n i (sh i) (mask i) sid rng) (fun i => outs i) ∧
      pp.SharedVec (2 * pp.l) N outs sec :=
  PSS.degRed_few hg dbg (by have := hg.lpos; omega) hn.le hN hN64 hd2 hd4 (Or.inl (by rw [hn])) hsh hm sid rng

theorem PSS.degRed_wf {pp : PSS F} (dbg : Bool) (hn : 0 < n) (me : Nat) (x : List T) (mask : DegRedMask T)
    (sid : Sid) (rng : Nat → Nat → T) : (pp.degRed dbg n me x mask sid rng).WF (only sid) :=
  (Proc.WF.done _ _).bind fun _ => (Proc.WF.done _ _).bind fun _ => round_wf hn sid _ _ _ _ _ fun _ => .done _ _

end degred

/-! ### d_msm -/

section dmsm
variable {G : Type} [AddCommGroup G] [Module F G] [DecidableEq G]

theorem Shares.sum {pp : PSS F} {d N : Nat} {row sec : Nat → List G} (h : ∀ c < N, pp.Shares d (row c) (sec c)) :
    pp.Shares d ((List.range (4 * pp.l)).map fun p => ∑ c ∈ range N, (row c).getD p 0)
      ((List.range pp.l).map fun k => ∑ c ∈ range N, (sec c).getD k 0) := by
  refine ⟨by simp, by simp, ?_⟩
  have hc : ∀ c, ∃ e : Nat → G, c < N →
      (∀ i < 4 * pp.l, (row c).getD i 0 = pval e d (pp.share.groupGen ^ i)) ∧
      (∀ k < pp.l, (sec c).getD k 0 = pval e d (pp.secret.offset * (pp.share.groupGen ^ 2) ^ k)) := by
    intro c
    by_cases hc : c < N
    · obtain ⟨_, _, e, h1, h2⟩ := h c hc
      exact ⟨e, fun _ => ⟨h1, h2⟩⟩
    · exact ⟨fun _ => 0, fun h => absurd h hc⟩
  choose e he using hc
  refine ⟨fun j => ∑ c ∈ range N, e c j, ?_, ?_⟩
  · intro i hi
    rw [getD_map_range, if_pos hi, ← pval_sum]
    exact sum_congr rfl fun c hc => (he c (mem_range.1 hc)).1 i hi
  · intro k hk
    rw [getD_map_range, if_pos hk, ← pval_sum]
    exact sum_congr rfl fun c hc => (he c (mem_range.1 hc)).2 k hk

theorem sum_map_range {T : Type} [AddCommMonoid T] (N : Nat) (f : Nat → T) :
    ((List.range N).map f).sum = ∑ c ∈ range N, f c := by
  induction N with
  | zero => simp
  | succ N ih => simp [List.range_succ, sum_range_succ, ih]

theorem msm_eq {N : Nat} {bases : List G} {scalars : List F} (hb : bases.length = N) (hs : scalars.length = N) :
    msm bases scalars = .ok (∑ c ∈ range N, scalars.getD c 0 • bases.getD c 0) := by
  unfold msm
  rw [if_pos (by omega)]
  congr 1
  have : ((scalars.zip bases).map fun p => p.1 • p.2) = (List.range N).map fun c => scalars.getD c 0 • bases.getD c 0 := by
    apply list_ext_getD 0 (by simp [hb, hs])
    intro i hi
    simp [hb, hs] at hi
    rw [getD_map_range, if_pos hi, List.map_zip_eq_zipWith, getD_zipWith _ _ _ _ 0 0 _ (by omega) (by omega)]
    rfl
  rw [this, sum_map_range]

/-- The local products. -/
theorem msm_shared {pp : PSS F} {d1 d2 N : Nat} {bs bsec : Nat → List G} {ss ssec : Nat → List F}
    (hb : pp.SharedVec d1 N bs bsec) (hs : pp.SharedVec d2 N ss ssec) :
    ∃ c : Nat → G, (∀ p < 4 * pp.l, msm (bs p) (ss p) = .ok (c p)) ∧
      pp.Shares (d2 + d1 - 1) ((List.range (4 * pp.l)).map c)
        ((List.range pp.l).map fun k => ∑ c ∈ range N, (ssec c).getD k 0 • (bsec c).getD k 0) := by
  refine ⟨fun p => ∑ c ∈ range N, (ss p).getD c 0 • (bs p).getD c 0, fun p hp => msm_eq (hb.1 p hp) (hs.1 p hp), ?_⟩
  have := Shares.sum (N := N) fun c hc => Shares.mul (hs.2 c hc) (hb.2 c hc)
  refine cast ?_ this
  congr 1
  · apply List.map_congr_left
    intro p hp
    have hp := List.mem_range.1 hp
    apply sum_congr rfl
    intro c _
    rw [getD_zipWith _ _ _ _ 0 0 _ (by simpa using hp) (by simpa using hp), getD_map_range, if_pos hp, getD_map_range, if_pos hp]
  · apply List.map_congr_left
    intro k hk
    have hk := List.mem_range.1 hk
    apply sum_congr rfl
    intro c hc
    have hc := mem_range.1 hc
    rw [getD_zipWith _ _ _ _ 0 0 _ (by rw [(hs.2 c hc).2.1]; exact hk) (by rw [(hb.2 c hc).2.1]; exact hk)]

/-- A public value is a sharing of copies of itself. -/
theorem Shares.const {pp : PSS F} {d : Nat} (hd : 0 < d) (v : G) :
    pp.Shares d (List.replicate (4 * pp.l) v) (List.replicate pp.l v) := by
  have : ∀ x : F, pval (fun j => if j = 0 then v else 0) d x = v := by
    intro x
    unfold pval
    rw [sum_eq_single 0]
    · simp
    · intro j _ hj; simp [hj]
    · intro h; simp at h; omega
  refine ⟨by simp, by simp, fun j => if j = 0 then v else 0, ?_, ?_⟩
  · intro i hi
    rw [getD_replicate', if_pos hi, this]
  · intro i hi
    rw [getD_replicate', if_pos hi, this]

/-- The masks of the parties cancel. -/
def MsmMasksOk (pp : PSS F) (mask : Nat → MsmMask G) : Prop :=
  ∃ v : List G, pp.Shares (2 * pp.l) ((List.range (4 * pp.l)).map fun p => (mask p).inMask) v ∧
    pp.Shares (2 * pp.l) ((List.range (4 * pp.l)).map fun p => (mask p).outMask) (List.replicate pp.l (-v.sum))

theorem MsmMasksOk.of_sample {pp : PSS F} (hg : pp.Good) (dbg : Bool) (gen : G) (vals : Nat → F) (rngIn rngOut : Nat → G) :
    ∃ masks, MsmMask.sample pp dbg gen vals rngIn rngOut = .ok masks ∧ masks.length = 4 * pp.l ∧
      MsmMasksOk pp fun p => masks.getD p MsmMask.zero := by
  obtain ⟨sI, eI, hI⟩ := PSS.pack_shares hg dbg (secrets := (List.range pp.l).map fun i => vals i • gen) (by simp) rngIn
  obtain ⟨sO, eO, hO⟩ := PSS.pack_shares hg dbg
    (secrets := List.replicate pp.l (-((List.range pp.l).map fun i => vals i • gen).sum)) (by simp) rngOut
  have hget : ∀ p < 4 * pp.l, (List.zipWith MsmMask.mk sI sO).getD p MsmMask.zero = ⟨sI.getD p 0, sO.getD p 0⟩ :=
    fun p hp => getD_zipWith _ _ _ _ 0 0 _ (by rw [hI.1]; exact hp) (by rw [hO.1]; exact hp)
  refine ⟨List.zipWith MsmMask.mk sI sO, ?_, by simp [hI.1, hO.1], (List.range pp.l).map fun i => vals i • gen, ?_, ?_⟩
  · unfold MsmMask.sample
    simp only
    rw [eI, ok_bind, eO]
    rfl
  · refine cast ?_ hI
    congr 1
    refine (list_eq_map_range sI 0).trans ?_
    rw [hI.1]
    apply List.map_congr_left
    intro p hp
    simp only
    rw [hget p (List.mem_range.1 hp)]
  · refine cast ?_ hO
    congr 1
    refine (list_eq_map_range sO 0).trans ?_
    rw [hO.1]
    apply List.map_congr_left
    intro p hp
    simp only
    rw [hget p (List.mem_range.1 hp)]

theorem MsmMasksOk.zero {pp : PSS F} (hg : pp.Good) : MsmMasksOk pp fun _ => MsmMask.zero (G := G) := by
  have hl := hg.lpos
  have h := Shares.const (pp := pp) (by omega : 0 < 2 * pp.l) (0 : G)
  refine ⟨List.replicate pp.l 0, ?_, ?_⟩
  · simpa [MsmMask.zero] using h
  · simpa [MsmMask.zero] using h

theorem PSS.msmKing_ok {pp : PSS F} (hg : pp.Good) (dbg : Bool) (n : Nat) {d : Nat}
    (hd4 : d ≤ 4 * pp.l - 1) {parties : List Nat} (hp : pp.Decodable dbg d parties) {c : Nat → G} {sec : List G}
    (h : pp.Shares d ((List.range (4 * pp.l)).map c) sec) :
    pp.msmKing dbg n (parties.map c) parties = .ok (List.replicate n sec.sum) := by
  unfold PSS.msmKing
  rw [PSS.unpackMissing_of_shares hg dbg hp hd4 c h]
  rfl

theorem sum_zipWith_add (x y : List G) (h : x.length = y.length) :
    (List.zipWith (· + ·) x y).sum = x.sum + y.sum := by
  induction x generalizing y with
  | nil => cases y with
    | nil => simp
    | cons => simp at h
  | cons a x ih => cases y with
    | nil => simp at h
    | cons b y =>
      simp only [List.zipWith_cons_cons, List.sum_cons]
      rw [ih y (by simpa using h)]
      abel

/-- The masks come off. -/
theorem msm_unmask {pp : PSS F} (hg : pp.Good) (tot : G) {v : List G} {mask : Nat → MsmMask G}
    (hout : pp.Shares (2 * pp.l) ((List.range (4 * pp.l)).map fun p => (mask p).outMask) (List.replicate pp.l (-v.sum))) :
    pp.Shares (2 * pp.l) ((List.range (4 * pp.l)).map fun p => (tot + v.sum) + (mask p).outMask) (List.replicate pp.l tot) := by
  have hl := hg.lpos
  have := Shares.add (Shares.const (pp := pp) (by omega : 0 < 2 * pp.l) (tot + v.sum)) hout
  refine cast ?_ this
  congr 1
  · apply list_ext_getD 0 (by simp)
    intro i hi
    simp at hi
    rw [getD_zipWith _ _ _ _ 0 0 _ (by simpa using hi) (by simpa using hi), getD_replicate', if_pos hi, getD_map_range,
      if_pos hi, getD_map_range, if_pos hi]
  · apply list_ext_getD 0 (by simp)
    intro i hi
    simp at hi
    rw [getD_zipWith _ _ _ _ 0 0 _ (by simpa using hi) (by simpa using hi), getD_replicate', if_pos hi, getD_replicate',
      if_pos hi, getD_replicate', if_pos hi]
    simp

variable [FixedWire G] {n : Nat}

/-- `d_msm`, with `n` parties whose shares suffice to decode. -/
theorem PSS.dMsm_few {pp : PSS F} (hg : pp.Good) (dbg : Bool) (hn0 : 0 < n) (hn : n ≤ 4 * pp.l) {N d1 d2 : Nat}
    (hd2 : 2 * pp.l ≤ d2 + d1 - 1) (hd4 : d2 + d1 - 1 ≤ 4 * pp.l - 1) (hp : pp.Decodable dbg (d2 + d1 - 1) (List.range n)) {bs bsec : Nat → List G} {ss ssec : Nat → List F}
    (hb : pp.SharedVec d1 N bs bsec) (hs : pp.SharedVec d2 N ss ssec) {mask : Nat → MsmMask G} (hm : MsmMasksOk pp mask)
    (sid : Sid) :
    ∃ outs : Nat → G,
      Runs (Sized (FixedWire.width G)) (only sid) (fun i : Fin n => pp.dMsm dbg n i (bs i) (ss i) (mask i) sid) (fun i => outs i) ∧
      pp.Shares (2 * pp.l) ((List.range (4 * pp.l)).map outs)
        (List.replicate pp.l (∑ k ∈ range pp.l, ∑ c ∈ range N, (ssec c).getD k 0 • (bsec c).getD k 0)) := by
  have hl := hg.lpos
  obtain ⟨c, e1, hc⟩ := msm_shared hb hs
  obtain ⟨v, hin, hout⟩ := hm
  have hsum := Shares.add hc (Shares.mono hd2 hin)
  rw [List.zipWith_map_left, List.zipWith_map_right, List.zipWith_self] at hsum
  have hK := PSS.msmKing_ok hg dbg n hd4 hp hsum
  rw [sum_zipWith_add _ _ (by simp [hin.2.1]), sum_map_range] at hK
  set tot := ∑ k ∈ range pp.l, ∑ c ∈ range N, (ssec c).getD k 0 • (bsec c).getD k 0
  refine ⟨fun p => (tot + v.sum) + (mask p).outMask, ?_, ?_⟩
  · refine (runs_round hn0 sid pp.t (fun i => c i + (mask i).inMask) (fun i hi => Wire.ok_fixed _)
      (fun i rs => pp.msmKing dbg n rs.shares rs.parties) (fun i => tot + v.sum) (FixedWire.width G) ?_
      (fun i hi => ⟨Wire.ok_fixed _, FixedWire.enc_length _⟩)
      (fun i y => .done (.ok (y + (mask i).outMask))) (Runs.done _)
      (fun i hi _ => FixedWire.enc_length _) (fun i hi _ => FixedWire.enc_length _)).congr (fun i => ?_) (fun i => rfl)
    · rw [hK]
      simp
    · have hi : i.val < 4 * pp.l := by omega
      unfold PSS.dMsm
      rw [debugAssert_of (by rw [hb.1 i hi, hs.1 i hi]; simp), e1 i hi]
      rfl
  · exact msm_unmask (v := v) hg tot hout

/-- `d_msm`. -/
theorem PSS.dMsm_runs {pp : PSS F} (hg : pp.Good) (dbg : Bool) (hn : n = 4 * pp.l) {N d1 d2 : Nat}
    (hd2 : 2 * pp.l ≤ d2 + d1 - 1) (hd4 : d2 + d1 - 1 ≤ 4 * pp.l - 1) {bs bsec : Nat → List G} {ss ssec : Nat → List F}
    (hb : pp.SharedVec d1 N bs bsec) (hs : pp.SharedVec d2 N ss ssec) {mask : Nat → MsmMask G} (hm : MsmMasksOk pp mask)
    (sid : Sid) :
    ∃ outs : Nat → G,
      Runs (Sized (FixedWire.width G)) (only sid) (fun i : Fin n => pp.dMsm dbg n i (bs i) (ss i) (mask i) sid) (fun i => outs i) ∧
      pp.Shares (2 * pp.l) ((List.range (4 * pp.l)).map outs)
        (List.replicate pp.l (∑ k ∈ range pp.l, ∑ c ∈ range N, (ssec c).getD k 0 • (bsec c).getD k 0)) :=
  PSS.dMsm_few hg dbg (by have := hg.lpos; omega) hn.le hd2 hd4 (Or.inl (by rw [hn])) hb hs hm sid

theorem PSS.dMsm_wf {pp : PSS F} (dbg : Bool) (hn : 0 < n) (me : Nat) (bases : List G) (scalars : List F)
    (mask : MsmMask G) (sid : Sid) : (pp.dMsm dbg n me bases scalars mask sid).WF (only sid) :=
  (Proc.WF.done _ _).bind fun _ => (Proc.WF.done _ _).bind fun _ => round_wf hn sid _ _ _ _ _ fun _ => .done _ _

end dmsm

/-! ### d_pp -/

theorem SharedVec.append {T : Type} [AddCommGroup T] [Module F T] {pp : PSS F} {d N M : Nat} {sh sh' sec sec' : Nat → List T}
    (h : pp.SharedVec d N sh sec) (h' : pp.SharedVec d M sh' sec') :
    pp.SharedVec d (N + M) (fun p => sh p ++ sh' p) (fun c => if c < N then sec c else sec' (c - N)) := by
  refine ⟨fun p hp => by simp [h.1 p hp, h'.1 p hp], fun c hc => ?_⟩
  simp only
  by_cases h1 : c < N
  · rw [if_pos h1]
    refine cast ?_ (h.2 c h1)
    congr 1
    apply List.map_congr_left
    intro p hp
    rw [getD_append', if_pos (by rw [h.1 p (List.mem_range.1 hp)]; exact h1)]
  · rw [if_neg h1]
    refine cast ?_ (h'.2 (c - N) (by omega))
    congr 1
    apply List.map_congr_left
    intro p hp
    rw [getD_append', if_neg (by rw [h.1 p (List.mem_range.1 hp)]; exact h1), h.1 p (List.mem_range.1 hp)]

theorem flatten_chunks {T : Type} (l N : Nat) (x : Nat → T) :
    ((List.range N).map fun c => chunks l x c).flatten = (List.range (N * l)).map x := by
  induction N with
  | zero => simp
  | succ N ih =>
    rw [List.range_succ, List.map_append, List.flatten_append, ih, Nat.add_mul, Nat.one_mul, List.range_add, List.map_append]
    congr 1
    simp [chunks]

theorem chunk_eq_chunks {T : Type} (l N : Nat) (x : Nat → T) {c : Nat} (hc : c < N) :
    chunk ((List.range (N * l)).map x) l c = chunks l x c := by
  have h : (c + 1) * l ≤ N * l := Nat.mul_le_mul_right _ hc
  rw [Nat.add_mul, Nat.one_mul] at h
  apply List.ext_getElem
  · simp [chunk, chunks]; omega
  · intro i h1 h2
    simp [chunk, chunks]

/-- Running products of quotients. -/
def runProd (x y : Nat → F) (i : Nat) : F := ∏ j ∈ range (i + 1), x j / y j

theorem ppProducts_ok (m : Nat) (x y : Nat → F) (hy : ∀ i < m, y i ≠ 0) :
    ppProducts ((List.range m).map x ++ (List.range m).map y) = .ok ((List.range m).map (runProd x y)) := by
  unfold ppProducts
  have hhalf : ((List.range (m)).map x ++ (List.range (m)).map y).length / 2 = m := by simp; omega
  simp only
  rw [hhalf]
  obtain ⟨v1, e1, h1l, h1⟩ := forUp_inv (n := m) (s := (List.range (m)).map x ++ (List.range (m)).map y)
    (body := fun i (numden : List F) => do
      let d ← rd numden (i + m)
      let d ← unwrap (fieldInverse d)
      let x ← rd numden i
      wr numden i (x * d))
    (P := fun i (v : List F) => v.length = m + m ∧
      ∀ k, v.getD k 0 = if k < i then x k / y k else
        if k < m then x k else if k < m + m then y (k - m) else 0)
    ⟨by simp, by
      intro k
      rw [getD_append', List.length_map, List.length_range, getD_map_range, getD_map_range, if_neg (Nat.not_lt_zero k)]
      by_cases h : k < m
      · rw [if_pos h, if_pos h, if_pos h]
      · rw [if_neg h, if_neg h]
        by_cases h2 : k < m + m
        · rw [if_pos (by omega), if_pos h2]
        · rw [if_neg (by omega), if_neg h2]⟩
    (by
      rintro i hi v ⟨vl, hv⟩
      rw [rd_ok (by omega) 0, ok_bind, hv, if_neg (by omega), if_neg (by omega), if_pos (by omega), Nat.add_sub_cancel]
      have : unwrap (fieldInverse (y i)) = .ok (y i)⁻¹ := by
        unfold fieldInverse
        rw [if_neg (hy i hi)]
        rfl
      rw [this, ok_bind, rd_ok (by omega) 0, ok_bind, hv, if_neg (by omega), if_pos hi, wr_ok (by omega)]
      refine ⟨_, rfl, by simpa using vl, fun k => ?_⟩
      rw [getD_set, hv]
      by_cases h : i = k
      · subst h
        rw [if_pos ⟨rfl, by omega⟩, if_pos (by omega), div_eq_mul_inv]
      · rw [if_neg (by simp [h])]
        by_cases h2 : k < i
        · rw [if_pos h2, if_pos (by omega)]
        · rw [if_neg h2, if_neg (by omega : ¬ k < i + 1)])
  rw [e1, ok_bind]
  have htake : v1.take (m) = (List.range (m)).map fun i => x i / y i := by
    apply list_ext_getD 0 (by simp; omega)
    intro i hi
    have hi : i < m := by simp at hi; omega
    rw [getD_take, if_pos hi, h1, if_pos hi, getD_map_range, if_pos hi]
  rw [htake]
  simp only [List.length_map, List.length_range]
  obtain ⟨v2, e2, h2l, h2⟩ := forUp_inv (n := m - 1) (s := (List.range (m)).map fun i => x i / y i)
    (body := fun i' (numden : List F) => do
      let i := i' + 1
      let last ← rd numden (i - 1)
      let x ← rd numden i
      wr numden i (x * last))
    (P := fun i (v : List F) => v.length = m ∧
      ∀ k < m, v.getD k 0 = if k ≤ i then runProd x y k else x k / y k)
    ⟨by simp, by
      intro k hk
      rw [getD_map_range, if_pos hk]
      by_cases h : k ≤ 0
      · obtain rfl : k = 0 := by omega
        simp [runProd]
      · rw [if_neg h]⟩
    (by
      rintro i hi v ⟨vl, hv⟩
      simp only [Nat.add_sub_cancel]
      rw [rd_ok (by omega) 0, ok_bind, rd_ok (by omega) 0, ok_bind, wr_ok (by omega), hv i (by omega), hv (i + 1) (by omega),
        if_pos le_rfl, if_neg (by omega)]
      refine ⟨_, rfl, by simpa using vl, fun k hk => ?_⟩
      rw [getD_set]
      by_cases h : i + 1 = k
      · subst h
        rw [if_pos ⟨rfl, by omega⟩, if_pos le_rfl]
        unfold runProd
        rw [prod_range_succ _ (i + 1), mul_comm]
      · rw [if_neg (by simp [h]), hv k hk]
        by_cases h2 : k ≤ i
        · rw [if_pos h2, if_pos (by omega)]
        · rw [if_neg h2, if_neg (by omega)])
  rw [e2]
  have hv2 : v2 = (List.range (m)).map (runProd x y) := by
    apply list_ext_getD 0 (by simp [h2l])
    intro i hi
    rw [h2l] at hi
    rw [h2 i hi, if_pos (by omega), getD_map_range, if_pos hi]
  rw [hv2]

theorem ppProducts_panic (m : Nat) (x y : Nat → F) {i₀ : Nat} (hi₀ : i₀ < m) (hy : y i₀ = 0) :
    ppProducts ((List.range m).map x ++ (List.range m).map y) = panic' := by
  unfold ppProducts
  have hhalf : ((List.range m).map x ++ (List.range m).map y).length / 2 = m := by simp; omega
  simp only
  rw [hhalf]
  rcases forUp_panic_inv (n := m) (s := (List.range m).map x ++ (List.range m).map y)
    (body := fun i (numden : List F) => do
      let d ← rd numden (i + m)
      let d ← unwrap (fieldInverse d)
      let x ← rd numden i
      wr numden i (x * d))
    (P := fun i (v : List F) => v.length = m + m ∧ i ≤ i₀ ∧ v.getD (i₀ + m) 0 = 0)
    ⟨by simp, by omega, by
      rw [getD_append', List.length_map, List.length_range, if_neg (by omega), Nat.add_sub_cancel, getD_map_range, if_pos hi₀, hy]⟩
    (by
      rintro i hi v ⟨vl, hle, hv⟩
      rw [rd_ok (by omega) 0, ok_bind]
      by_cases h0 : v.getD (i + m) 0 = 0
      · left
        rw [h0]
        unfold fieldInverse
        rw [if_pos rfl]
        rfl
      · right
        have : unwrap (fieldInverse (v.getD (i + m) 0)) = .ok (v.getD (i + m) 0)⁻¹ := by
          unfold fieldInverse
          rw [if_neg h0]
          rfl
        rw [this, ok_bind, rd_ok (by omega) 0, ok_bind, wr_ok (by omega)]
        refine ⟨_, rfl, by simpa using vl, ?_, ?_⟩
        · rcases Nat.lt_or_ge i i₀ with h | h
          · omega
          · obtain rfl : i = i₀ := by omega
            exact absurd hv h0
        · rw [getD_set, if_neg (by omega), hv]) with h | ⟨v, -, -, h, -⟩
  · rw [h]; rfl
  · omega

theorem flatten_numden (l N : Nat) (x y : Nat → F) :
    ((List.range (N + N)).map fun c => if c < N then chunks l x c else chunks l y (c - N)).flatten =
      (List.range (N * l)).map x ++ (List.range (N * l)).map y := by
  rw [List.range_add, List.map_append, List.flatten_append, ← flatten_chunks, ← flatten_chunks, List.map_map]
  congr 2
  · apply List.map_congr_left
    intro c hc
    rw [if_pos (List.mem_range.1 hc)]
  · apply List.map_congr_left
    intro c hc
    simp

theorem PSS.ppKing_eq {pp : PSS F} (hg : pp.Good) (dbg : Bool) {d N : Nat} (hN : 0 < N) (hd : 0 < d)
    (hd4 : d ≤ 4 * pp.l - 1) {sh : Nat → List F} (x y : Nat → F)
    (hsh : pp.SharedVec d (N + N) sh (fun c => if c < N then chunks pp.l x c else chunks pp.l y (c - N)))
    (rng : Nat → Nat → F) :
    pp.ppKing dbg ((List.range (4 * pp.l)).map sh) (List.range (4 * pp.l)) rng = (do
      let numden ← ppProducts ((List.range (N * pp.l)).map x ++ (List.range (N * pp.l)).map y)
      let ppShares ← pp.packVec dbg numden rng
      transpose ppShares) := by
  have hp : pp.Decodable dbg d (List.range (4 * pp.l)) := Or.inl rfl
  unfold PSS.ppKing
  rw [debugAssert_of (by simp [hg.n_eq]), ok_bind, transpose_received hg hd (by omega) hp hsh.1, ok_bind, List.mapM_map]
  have := mapM_ok (g := fun c => if c < N then chunks pp.l x c else chunks pp.l y (c - N)) (xs := List.range (N + N))
    (fun c hc => PSS.unpackMissing_of_shares hg dbg hp hd4 _ (hsh.2 c (List.mem_range.1 hc)))
  simp only [Function.comp_def]
  rw [this, ok_bind, flatten_numden]

theorem PSS.ppKing_ok {pp : PSS F} (hg : pp.Good) (dbg : Bool) {d N : Nat} (hN : 0 < N) (hd : 0 < d)
    (hd4 : d ≤ 4 * pp.l - 1) {sh : Nat → List F} (x y : Nat → F) (hy : ∀ i < N * pp.l, y i ≠ 0)
    (hsh : pp.SharedVec d (N + N) sh (fun c => if c < N then chunks pp.l x c else chunks pp.l y (c - N)))
    (rng : Nat → Nat → F) :
    ∃ out, pp.ppKing dbg ((List.range (4 * pp.l)).map sh) (List.range (4 * pp.l)) rng = .ok out ∧ out.length = 4 * pp.l ∧
      pp.SharedVec (2 * pp.l) N (fun p => out.getD p []) (chunks pp.l (runProd x y)) := by
  rw [PSS.ppKing_eq hg dbg hN hd hd4 x y hsh rng, ppProducts_ok _ _ _ hy, ok_bind]
  obtain ⟨rows, e3, hl3, h3⟩ := PSS.packVec_shares hg dbg (N := N) (v := (List.range (N * pp.l)).map (runProd x y)) (by simp) rng
  rw [e3, ok_bind]
  obtain ⟨out, e4, ho, hs⟩ := SharedVec.of_rows hg hN hl3 h3
  exact ⟨out, e4, ho, SharedVec.congr hs (fun _ _ => rfl) fun c hc => chunk_eq_chunks _ _ _ hc⟩

/-- A zero denominator makes the king panic. -/
theorem PSS.ppKing_panic {pp : PSS F} (hg : pp.Good) (dbg : Bool) {d N : Nat} (hN : 0 < N) (hd : 0 < d)
    (hd4 : d ≤ 4 * pp.l - 1) {sh : Nat → List F} (x y : Nat → F) {i₀ : Nat} (hi₀ : i₀ < N * pp.l) (hy : y i₀ = 0)
    (hsh : pp.SharedVec d (N + N) sh (fun c => if c < N then chunks pp.l x c else chunks pp.l y (c - N)))
    (rng : Nat → Nat → F) :
    pp.ppKing dbg ((List.range (4 * pp.l)).map sh) (List.range (4 * pp.l)) rng = panic' := by
  rw [PSS.ppKing_eq hg dbg hN hd hd4 x y hsh rng, ppProducts_panic _ _ _ hi₀ hy]
  rfl

section
variable [FixedWire F] {n : Nat}

theorem PSS.dPp_eq (pp : PSS F) (dbg : Bool) (n me : Nat) (num den : List F) (mask : DegRedMask F) (sid : Sid)
    (rng rng' : Nat → Nat → F) :
    pp.dPp dbg n me num den mask sid rng rng' = (clientSendOrKingReceiveSer n me (num ++ den) sid pp.t).bind fun r =>
      (Proc.done (kingDo (fun rs : ReceivedShares (List F) => pp.ppKing dbg rs.shares rs.parties rng) r)).bind fun a =>
        (clientReceiveOrKingSendSer n me a sid).bind fun y => pp.degRed dbg n me y mask sid rng' := by
  unfold PSS.dPp
  have : unwrap (fieldInverse (1 : F)) = .ok 1 := by simp [fieldInverse, unwrap]
  dsimp only
  rw [this]
  show (clientSendOrKingReceiveSer n me ((num.map fun x => x * 1) ++ den.map fun x => x * 1) sid pp.t).bind (fun r =>
    (Proc.done (kingDo (fun rs => pp.ppKing dbg rs.shares rs.parties rng) r)).bind fun a =>
      (clientReceiveOrKingSendSer n me a sid).bind fun y => pp.degRed dbg n me (y.map fun x => x * 1) mask sid rng') = _
  simp only [mul_one, List.map_id']

/-- `d_pp`. -/
theorem PSS.dPp_runs {pp : PSS F} (hg : pp.Good) (dbg : Bool) (hn : n = 4 * pp.l) {N d : Nat} (hN : 0 < N)
    (hN64 : N + N < 2 ^ 64) (hd : 0 < d) (hd4 : d ≤ 4 * pp.l - 1) {num den : Nat → List F} (x y : Nat → F)
    (hy : ∀ i < N * pp.l, y i ≠ 0)
    (hnum : pp.SharedVec d N num (chunks pp.l x)) (hden : pp.SharedVec d N den (chunks pp.l y))
    {mask : Nat → DegRedMask F} (hm : DegRedMasksOk pp N mask) (sid : Sid) (rng rng' : Nat → Nat → F) :
    ∃ outs : Nat → List F,
      Runs (Upto (8 + (N + N) * FixedWire.width F)) (only sid) (fun i : Fin n => pp.dPp dbg n i (num i) (den i) (mask i) sid rng rng') (fun i => outs i) ∧
      pp.SharedVec (2 * pp.l) N outs (chunks pp.l (runProd x y)) := by
  have hl := hg.lpos
  have hn0 : 0 < n := by omega
  have hsh := SharedVec.append hnum hden
  obtain ⟨out, hK, hol, hos⟩ := PSS.ppKing_ok hg dbg hN hd hd4 x y hy hsh rng
  obtain ⟨outs, hr, ho⟩ := PSS.degRed_runs hg dbg hn hN (by omega : N < 2 ^ 64) le_rfl (by omega) hos hm sid rng'
  refine ⟨outs, ?_, ho⟩
  refine (runs_round hn0 sid pp.t (fun i => num i ++ den i)
    (fun i hi => Wire.ok_list _ (by rw [hsh.1 i (by omega)]; exact hN64))
    (fun i rs => pp.ppKing dbg rs.shares rs.parties rng)
    (fun i => out.getD i []) (8 + N * FixedWire.width F) ?_ ?_
    (fun i y => pp.degRed dbg n i y (mask i) sid rng') (hr.upto (by gcongr; omega))
    (fun i hi _ => by rw [Upto, Wire.enc_list_length, hsh.1 i (by omega)])
    (fun i hi _ => by rw [Upto, Wire.enc_list_length, hos.1 i (by omega)]; gcongr; omega)).congr (fun i => ?_) (fun i => rfl)
  · rw [hn, hK, map_getD_range _ _ hol]
  · intro i hi
    have := hos.1 i (by omega)
    exact ⟨Wire.ok_list _ (by rw [this]; omega), by rw [Wire.enc_list_length, this]⟩
  · exact PSS.dPp_eq _ _ _ _ _ _ _ _ _ _

theorem PSS.dPp_wf {pp : PSS F} (dbg : Bool) (hn : 0 < n) (me : Nat) (num den : List F) (mask : DegRedMask F)
    (sid : Sid) (rng rng' : Nat → Nat → F) : (pp.dPp dbg n me num den mask sid rng rng').WF (only sid) :=
  (Proc.WF.done _ _).bind fun _ => round_wf hn sid _ _ _ _ _ fun _ => PSS.degRed_wf _ hn _ _ _ _ _

end

end ZkSaas
