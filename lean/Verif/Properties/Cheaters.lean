import Verif.Properties.Guess
import Verif.Spec.Cheaters

/-!
# C107: `l` servers who cheat see no more than `l` servers who do not
-/

set_option linter.unusedSectionVars false

namespace ZkSaas.Properties

open Finset Polynomial Spec

variable {F : Type} [Field F] [FftField F] [DecidableEq F] [FixedWire F]

/-! ### What the king makes of messages with errors -/

section unpack
variable {T : Type} [AddCommGroup T] [Module F T] [DecidableEq T]

/-- What the errors `e` add to the secrets. -/
def errSec (pp : PSS F) (b : Nat) (e : Nat → T) : List T := (List.range (2 ^ b)).map fun k => ∑ i ∈ range (4 * 2 ^ b),
  weight pp.share.groupGen (4 * 2 ^ b) i (pp.secret.offset * (pp.share.groupGen ^ 2) ^ k) • e i

theorem unpack_err {dbg₀ : Bool} {b : Nat} {pp : PSS F} (hpp : PSS.new dbg₀ (2 ^ b) = .ok pp)
    (hgen : (FftField.GENERATOR : F) ^ (4 * 2 ^ b) ≠ 1) (dbg : Bool) {d : Nat} (hd : d ≤ 4 * pp.l - 1) {x : Nat → T} {sec : List T}
    (hx : pp.Shares d ((List.range (4 * pp.l)).map x) sec) {e : Nat → T}
    (he : dbg = true → ∑ p ∈ range (4 * 2 ^ b), pp.share.groupGen ^ p • e p = 0) :
    pp.unpackMissingShares dbg ((List.range (4 * pp.l)).map fun i => x i + e i) (List.range (4 * pp.l)) =
      .ok (List.zipWith (· + ·) sec (errSec pp b e)) := by
  have hg := PSS.good_of_new hpp
  have hle := l_eq hpp
  have h0 := PSS.unpack2_of_shares hg true (by omega) hx
  have h0' := PSS.unpack2_of_shares hg false (by omega) hx
  obtain ⟨a1, a2⟩ := C88_unpack2 hpp hgen x
  obtain ⟨b1, b2⟩ := C88_unpack2 hpp hgen fun i => x i + e i
  rw [← hle] at a1 a2 b1 b2 he
  have hck : ∑ i ∈ range (4 * pp.l), pp.share.groupGen ^ i • x i = 0 := by
    by_contra h
    rw [a2, if_neg h] at h0
    cases h0
  rw [h0'] at a1
  have hsec := Except.ok.inj a1
  have hrel : pp.unpack2 dbg ((List.range (4 * pp.l)).map fun i => x i + e i) = pp.unpack2 false ((List.range (4 * pp.l)).map fun i => x i + e i) := by
    cases dbg with
    | false => rfl
    | true =>
      rw [b2, if_pos]
      simp only [smul_add, sum_add_distrib]
      rw [hck, he rfl, add_zero]
  unfold PSS.unpackMissingShares
  rw [debugAssert_of (by simp), ok_bind, if_pos (by simp [hg.n_eq]), hrel, b1, hsec, errSec, ← hle, List.zipWith_map_left, List.zipWith_map_right,
    List.zipWith_self]
  simp only [smul_add, sum_add_distrib]

end unpack

theorem addErr_length (v : List F) (e : Nat → F) : (addErr v e).length = v.length := by simp [addErr]

theorem addErr_getD {v : List F} (e : Nat → F) {c : Nat} (hc : c < v.length) : (addErr v e).getD c 0 = v.getD c 0 + e c := by
  rw [addErr, getD_map_range, if_pos hc]

theorem addMask_addErr {v m : List F} (h : v.length = m.length) (e : Nat → F) : addMask v (addErr m e) = addErr (addMask v m) e := by
  have hl : (addMask v m).length = v.length := by simp [addMask, h]
  apply list_ext_getD 0 (by simp [addMask, addErr, h])
  intro c hc
  have hc : c < v.length := by simpa [addMask, addErr, h] using hc
  rw [addErr_getD _ (by rw [hl]; exact hc), addMask, addMask, getD_zipWith _ _ _ _ 0 0 _ hc (by rw [addErr_length, ← h]; exact hc),
    getD_zipWith _ _ _ _ 0 0 _ hc (by rw [← h]; exact hc), addErr_getD _ (by rw [← h]; exact hc), add_assoc]

theorem fft2King_err {dbg₀ : Bool} {b : Nat} {pp : PSS F} (hpp : PSS.new dbg₀ (2 ^ b) = .ok pp)
    (hgen : (FftField.GENERATOR : F) ^ (4 * 2 ^ b) ≠ 1) (dbg : Bool) {d N : Nat} (hN : 0 < N) (hd : d ≤ 4 * pp.l - 1) {x sec y : Nat → List F}
    (hx : pp.SharedVec d N x sec) {e : Nat → Nat → F} (he : dbg = true → ∀ c, ∑ p ∈ range (4 * 2 ^ b), pp.share.groupGen ^ p • e p c = 0)
    (hy : pp.SharedVec (2 * pp.l) N y fun c => List.zipWith (· + ·) (sec c) (errSec pp b fun p => e p c)) (M K : Nat) (g gen : F) (rearrange : Bool)
    (rng : Nat → Nat → F) :
    pp.fft2King dbg M K g gen rearrange ((List.range (4 * pp.l)).map fun p => addErr (x p) (e p)) (List.range (4 * pp.l)) rng =
      pp.fft2King dbg M K g gen rearrange ((List.range (4 * pp.l)).map y) (List.range (4 * pp.l)) rng := by
  have hg := PSS.good_of_new hpp
  have hl := hg.lpos
  have hq : pp.Decodable dbg (2 * pp.l) (List.range (4 * pp.l)) := Or.inl rfl
  unfold PSS.fft2King
  rw [transpose_received hg (by omega) hN hq hy.1, transpose_received (N := N) hg (by omega) hN hq fun p hp => by
    rw [addErr_length]; exact hx.1 p hp, ok_bind, ok_bind]
  dsimp only
  rw [List.length_map, List.length_map, List.length_range]
  rw [forUp_congr]
  intro c hc
  have hc : c < N := by omega
  funext s
  rw [rd_ok (by simpa using hc) [], rd_ok (by simpa using hc) [], ok_bind, ok_bind, getD_map_range, if_pos hc, getD_map_range, if_pos hc,
    PSS.unpackMissing_of_shares hg dbg hq (by omega) _ (hy.2 c hc), ← unpack_err hpp hgen dbg hd (hx.2 c hc) (e := fun p => e p c) fun h => he h c]
  congr 2
  apply List.map_congr_left
  intro p hp
  rw [addErr_getD _ (by rw [hx.1 p (List.mem_range.1 hp)]; exact hc)]

theorem degRedKing_err {dbg₀ : Bool} {b : Nat} {pp : PSS F} (hpp : PSS.new dbg₀ (2 ^ b) = .ok pp)
    (hgen : (FftField.GENERATOR : F) ^ (4 * 2 ^ b) ≠ 1) (dbg : Bool) {d N : Nat} (hN : 0 < N) (hd : d ≤ 4 * pp.l - 1) {x sec : Nat → List F}
    (hx : pp.SharedVec d N x sec) {e : Nat → Nat → F} (he : dbg = true → ∀ c, ∑ p ∈ range (4 * 2 ^ b), pp.share.groupGen ^ p • e p c = 0)
    (rng : Nat → Nat → F) :
    pp.degRedKing dbg ((List.range (4 * pp.l)).map fun p => addErr (x p) (e p)) (List.range (4 * pp.l)) rng =
      .ok ((List.range (4 * pp.l)).map (pp.freshVec N (fun c => List.zipWith (· + ·) (sec c) (errSec pp b fun p => e p c)) rng)) := by
  have hg := PSS.good_of_new hpp
  have hl := hg.lpos
  have hle := l_eq hpp
  have hq : pp.Decodable dbg (2 * pp.l) (List.range (4 * pp.l)) := Or.inl rfl
  unfold PSS.degRedKing
  rw [transpose_received (N := N) hg (by omega) hN hq fun p hp => by rw [addErr_length]; exact hx.1 p hp, ok_bind, List.length_map, List.length_range,
    mapM_ok (g := fun c => pp.share.fft (pp.packCoeffs (List.zipWith (· + ·) (sec c) (errSec pp b fun p => e p c)) (rng c))), ok_bind,
    PSS.transpose_fresh hg hN]
  intro c hc
  have hc := List.mem_range.1 hc
  rw [rd_ok (by simpa using hc) [], ok_bind, getD_map_range, if_pos hc, ← PSS.pack_eq hg dbg (by simp [(hx.2 c hc).2.1, errSec, hle]), ← ok_bind (f := fun s => pp.pack dbg s (rng c)),
    ← unpack_err hpp hgen dbg hd (hx.2 c hc) (e := fun p => e p c) fun h => he h c]
  congr 2
  apply List.map_congr_left
  intro p hp
  rw [addErr_getD _ (by rw [hx.1 p (List.mem_range.1 hp)]; exact hc)]

/-! ### Two runs of the transforms -/

/-- The errors of a transform as a vector. -/
def errVec (pp : PSS F) (b : Nat) (e : Nat → Nat → F) (i : Nat) : F := (errSec pp b fun p => e p (i / 2 ^ b)).getD (i % 2 ^ b) 0

theorem errSec_eq (pp : PSS F) {a b : Nat} (e : Nat → Nat → F) {gen : F} {ψ : Nat → Nat → F → F}
    (hψ : ∀ k < 2 ^ a, ∀ j < 2 ^ b, errVec pp b e (k * 2 ^ b + j) = ψ a j (gen ^ (2 ^ b * (k + 1)))) {c : Nat} (hc : c < 2 ^ a) :
    (errSec pp b fun p => e p c) = (List.range (2 ^ b)).map fun j => ψ a j (gen ^ (2 ^ b * (c + 1))) := by
  have hb0 : 0 < 2 ^ b := by positivity
  apply list_ext_getD 0 (by simp [errSec])
  intro j hj
  have hj : j < 2 ^ b := by simpa [errSec] using hj
  rw [getD_map_range, if_pos hj, ← hψ c hc j hj, errVec, show (c * 2 ^ b + j) / 2 ^ b = c by
      rw [Nat.mul_comm, Nat.mul_add_div hb0, Nat.div_eq_of_lt hj, Nat.add_zero], show (c * 2 ^ b + j) % 2 ^ b = j by
      rw [Nat.mul_comm, Nat.mul_add_mod, Nat.mod_eq_of_lt hj]]

/-- The mask with errors in what is sent. -/
def spoilFft (m : FftMask F) (e : Nat → F) : FftMask F := ⟨addErr m.inMask e, m.outMask⟩

theorem fft2_view_err {dbg₀ : Bool} {a b : Nat} {pp : PSS F} (hpp : PSS.new dbg₀ (2 ^ b) = .ok pp)
    (hgen : (FftField.GENERATOR : F) ^ (4 * 2 ^ b) ≠ 1) (dbg : Bool) (ha : a < 64) {gen : F}
    (hprim : IsPrimitiveRoot gen (2 ^ (a + b))) (φ : Nat → Nat → F → F)
    (hφ : ∀ s ≥ a, ∀ j x, φ (s + 1) j x = φ s (2 * j) (x ^ 2) + x * φ s (2 * j + 1) (x ^ 2))
    {d : Nat} (hd2 : 2 * pp.l ≤ d) (hd4 : d ≤ 4 * pp.l - 1)
    {px : Nat → List F} (hpx : pp.SharedVec d (2 ^ a) px
      (fun c => (List.range (2 ^ b)).map fun j => φ a j (gen ^ (2 ^ b * (c + 1)))))
    {e : Nat → Nat → F} (he : dbg = true → ∀ c, ∑ p ∈ range (4 * 2 ^ b), pp.share.groupGen ^ p • e p c = 0)
    {χ : Nat → Nat → F → F} (hχ : ∀ s ≥ a, ∀ j x, χ (s + 1) j x = χ s (2 * j) (x ^ 2) + x * χ s (2 * j + 1) (x ^ 2))
    (hχe : ∀ k < 2 ^ a, ∀ j < 2 ^ b, errVec pp b e (k * 2 ^ b + j) = χ a j (gen ^ (2 ^ b * (k + 1))))
    (g : F) (rearrange : Bool) (t : VecTape F) (sid : Sid) (rng : Nat → Nat → F) :
    let ans := pp.freshVec (2 ^ a) (pp.finishSec a b (kingVec a b gen (fun s j x => φ s j x + χ s j x) t.vals) g gen rearrange id) rng
    let mask := pp.fftDealt a b rearrange g gen t
    ∃ v0, RunsV All (only sid) (fun i : Fin (4 * 2 ^ b) => pp.fft2WithRearrange dbg (4 * 2 ^ b) i (px i) (spoilFft (mask i) (e i)) rearrange g gen sid rng)
        (fun i => addMask (ans i) (mask i).outMask) (fun i => if i.val = 0 then v0 else [(0, Wire.enc (ans i))]) ∧
      pp.SharedVec (2 * pp.l) (2 ^ a) (fun p => addMask (ans p) (mask p).outMask)
        (packed rearrange a b fun k => g ^ k * (φ (a + b) 0 (gen ^ k) + χ (a + b) 0 (gen ^ k))) := by
  intro ans mask
  have hg := PSS.good_of_new hpp
  have hlb := l_eq hpp
  have hl := hg.lpos
  have hn : 4 * 2 ^ b = 4 * pp.l := by rw [hlb]
  have hn0 : 0 < 4 * 2 ^ b := by positivity
  obtain ⟨ψ, hψ, hv⟩ := exists_layout (a := a) (b := b) hprim t.vals
  have hin : pp.SharedVec (2 * pp.l) (2 ^ a) (fun p => (mask p).inMask)
      (fun c => (List.range (2 ^ b)).map fun j => ψ a j (gen ^ (2 ^ b * (c + 1)))) := by
    refine SharedVec.congr (PSS.freshVec_shared hg (sec := packed false a b t.vals) (fun c _ => by rw [packed_length, hlb]) t.rngIn)
      (fun _ _ => rfl) fun c hc => ?_
    unfold packed
    apply List.map_congr_left
    intro j hj
    rw [slot, if_neg (by simp), hv c hc j (List.mem_range.1 hj)]
  have hsum := SharedVec.add hpx (SharedVec.mono hd2 hin)
  have hsum' : pp.SharedVec d (2 ^ a) (fun p => addMask (px p) (mask p).inMask)
      (fun c => (List.range (2 ^ b)).map fun j => (φ a j (gen ^ (2 ^ b * (c + 1))) + ψ a j (gen ^ (2 ^ b * (c + 1))))) := by
    refine SharedVec.congr hsum (fun _ _ => rfl) fun c hc => ?_
    rw [List.zipWith_map_left, List.zipWith_map_right, List.zipWith_self]
  -- a sharing of what the king opens
  have hy := PSS.freshVec_shared hg (N := 2 ^ a) (sec := fun c => (List.range (2 ^ b)).map fun j => (φ a j (gen ^ (2 ^ b * (c + 1))) +
    χ a j (gen ^ (2 ^ b * (c + 1)))) + ψ a j (gen ^ (2 ^ b * (c + 1)))) (fun c _ => by simp [hlb]) fun _ _ => (0 : F)
  have hy' := SharedVec.congr hy (fun _ _ => rfl) (sec' := fun c => List.zipWith (· + ·) ((List.range (2 ^ b)).map fun j =>
      (φ a j (gen ^ (2 ^ b * (c + 1))) + ψ a j (gen ^ (2 ^ b * (c + 1))))) (errSec pp b fun p => e p c)) fun c hc => by
    rw [errSec_eq pp e hχe hc, List.zipWith_map_left, List.zipWith_map_right, List.zipWith_self]
    apply List.map_congr_left
    intro j _
    ring
  obtain ⟨s1, h1, h2, hK⟩ := PSS.fft2King_eq hg dbg hlb (fun s j x => (φ s j x + χ s j x) + ψ s j x)
    (by omega : 0 < 2 * pp.l) (by omega) (Or.inl rfl : pp.Decodable dbg (2 * pp.l) _) hy g rearrange
  have hφχ := layout_add hφ hχ
  have hb0 : 0 < 2 ^ b := by positivity
  have hs1 : s1 = kingVec a b gen (fun s j x => φ s j x + χ s j x) t.vals := by
    apply list_ext_getD 0 (by simp [h1, kingVec])
    intro i hi
    rw [h1] at hi
    have hk : i / 2 ^ b < 2 ^ a := by rw [Nat.div_lt_iff_lt_mul hb0, ← pow_add]; exact hi
    have hj := Nat.mod_lt i hb0
    have := h2 _ hk _ hj
    rw [Nat.div_add_mod' i (2 ^ b)] at this
    rw [this, kingVec, getD_map_range, if_pos hi, ← hv _ hk _ hj, Nat.div_add_mod' i (2 ^ b)]
  have hlen : ∀ p < 4 * pp.l, (addMask (px p) (mask p).inMask).length = 2 ^ a := hsum'.1
  have hmsg : ∀ p < 4 * pp.l, addMask (px p) (spoilFft (mask p) (e p)).inMask = addErr (addMask (px p) (mask p).inMask) (e p) := fun p hp =>
    addMask_addErr (by rw [hpx.1 p hp, hin.1 p hp]) _
  have h2a : 2 ^ a < 2 ^ 64 := Nat.pow_lt_pow_right (by norm_num) ha
  have hkl : (kingVec a b gen (fun s j x => φ s j x + χ s j x) t.vals).length = 2 ^ (a + b) := by simp [kingVec]
  refine ⟨_, RunsV.congr (runsV_round hn0 sid pp.t (fun i => addMask (px i) (spoilFft (mask i) (e i)).inMask)
      (fun i hi => Wire.ok_list _ (by rw [hmsg i (by omega), addErr_length, hlen i (by omega)]; exact h2a))
      (fun i rs => pp.fft2King dbg (addMask (px i) (spoilFft (mask i) (e i)).inMask).length (px i).length g gen rearrange rs.shares rs.parties rng)
      ans (8 + 2 ^ a * FixedWire.width F) ?_ ?_
      (fun i y => .done (.ok (addMask y (mask i).outMask))) (RunsV.done _)) (fun i => rfl) (fun i => rfl) (fun i => by simp only [List.append_nil]; rfl), ?_⟩
  · simp only
    rw [hmsg 0 (by omega), addErr_length, hlen 0 (by omega), hpx.1 0 (by omega), hn, List.map_congr_left fun p hp => hmsg p (List.mem_range.1 hp),
      fft2King_err hpp hgen dbg (by positivity) hd4 hsum' he hy', hK, hs1, PSS.fft2Finish_dealt hg dbg hlb hprim hkl]
  · intro i hi
    have := pp.freshVec_length (2 ^ a) (pp.finishSec a b (kingVec a b gen (fun s j x => φ s j x + χ s j x) t.vals) g gen rearrange id) rng i
    exact ⟨Wire.ok_list _ (by rw [this]; exact h2a), by rw [Wire.enc_list_length, this]⟩
  · have hA := PSS.freshVec_shared hg (N := 2 ^ a) (sec := pp.finishSec a b (kingVec a b gen (fun s j x => φ s j x + χ s j x) t.vals) g gen rearrange id)
      (fun c hc => by rw [PSS.finishSec_length hlb hprim hkl _ _ _ hc, hlb]) rng
    have hB := PSS.freshVec_shared hg (N := 2 ^ a)
      (sec := pp.finishSec a b ((List.range (2 ^ (a + b))).map t.vals) g gen rearrange fun x => -x)
      (fun c hc => by rw [PSS.finishSec_length hlb hprim (by simp) _ _ _ hc, hlb]) t.rngOut
    refine SharedVec.congr (SharedVec.add hA hB) (fun _ _ => rfl) fun c hc => ?_
    rw [PSS.finishSec_eq hlb hprim (fun s j x => (φ s j x + χ s j x) + ψ s j x) (layout_add (φ := fun s j x => φ s j x + χ s j x) (ψ := ψ) hφχ hψ) hkl
        (fun k hk j hj => by rw [← hs1, h2 k hk j hj]) g rearrange _ hc,
      PSS.finishSec_eq hlb hprim ψ hψ (by simp) (fun k hk j hj => by rw [getD_range_slot _ hk hj, hv k hk j hj]) g rearrange _ hc,
      packed_zipWith]
    congr 1
    funext k
    simp only [id]
    ring

theorem fft2_couple_err {dbg₀ : Bool} {a b : Nat} {pp : PSS F} (hpp : PSS.new dbg₀ (2 ^ b) = .ok pp)
    (hgen : (FftField.GENERATOR : F) ^ (4 * 2 ^ b) ≠ 1) (dbg : Bool) (ha : a < 64) {gen : F}
    (hprim : IsPrimitiveRoot gen (2 ^ (a + b))) (φ φ' : Nat → Nat → F → F)
    (hφ : ∀ s ≥ a, ∀ j x, φ (s + 1) j x = φ s (2 * j) (x ^ 2) + x * φ s (2 * j + 1) (x ^ 2))
    (hφ' : ∀ s ≥ a, ∀ j x, φ' (s + 1) j x = φ' s (2 * j) (x ^ 2) + x * φ' s (2 * j + 1) (x ^ 2))
    {e : Nat → Nat → F} (he : dbg = true → ∀ c, ∑ p ∈ range (4 * 2 ^ b), pp.share.groupGen ^ p • e p c = 0)
    {χ : Nat → Nat → F → F} (hχ : ∀ s ≥ a, ∀ j x, χ (s + 1) j x = χ s (2 * j) (x ^ 2) + x * χ s (2 * j + 1) (x ^ 2))
    (hχe : ∀ k < 2 ^ a, ∀ j < 2 ^ b, errVec pp b e (k * 2 ^ b + j) = χ a j (gen ^ (2 ^ b * (k + 1))))
    (g : F) (rearrange : Bool) (P : Fin (2 ^ b) → Nat) (hinj : Function.Injective P) (hlt : ∀ i, P i < 4 * 2 ^ b) :
    ∃ δ : VecTape F, (∀ t i, pp.fftDealt a b rearrange g gen (t.add δ) (P i) = pp.fftDealt a b rearrange g gen t (P i)) ∧
      ∀ (t : VecTape F) (sid : Sid) (rng : Nat → Nat → F) (d : Nat) (px px' : Nat → List F), 2 * pp.l ≤ d → d ≤ 4 * pp.l - 1 →
        pp.SharedVec d (2 ^ a) px (fun c => (List.range (2 ^ b)).map fun j => φ a j (gen ^ (2 ^ b * (c + 1)))) →
        pp.SharedVec d (2 ^ a) px' (fun c => (List.range (2 ^ b)).map fun j => φ' a j (gen ^ (2 ^ b * (c + 1)))) →
        Couple (only sid) P
          (fun i : Fin (4 * 2 ^ b) => pp.fft2WithRearrange dbg (4 * 2 ^ b) i (px i) (spoilFft (pp.fftDealt a b rearrange g gen t i) (e i)) rearrange g gen sid rng)
          (fun i : Fin (4 * 2 ^ b) => pp.fft2WithRearrange dbg (4 * 2 ^ b) i (px' i) (spoilFft (pp.fftDealt a b rearrange g gen (t.add δ) i) (e i)) rearrange g gen sid rng)
          (fun o => pp.SharedVec (2 * pp.l) (2 ^ a) o (packed rearrange a b fun k => g ^ k * (φ (a + b) 0 (gen ^ k) + χ (a + b) 0 (gen ^ k))))
          (fun o => pp.SharedVec (2 * pp.l) (2 ^ a) o (packed rearrange a b fun k => g ^ k * (φ' (a + b) 0 (gen ^ k) + χ (a + b) 0 (gen ^ k)))) := by
  have hgen' := hgen
  rw [← offset_eq hpp] at hgen'
  obtain ⟨δ, hδ, hm⟩ := PSS.fftDealt_shift (PSS.good_of_new hpp) (l_eq hpp) hgen' hprim rearrange g P hinj hlt (fun i =>
    φ a (i % 2 ^ b) (gen ^ (2 ^ b * (i / 2 ^ b + 1))) - φ' a (i % 2 ^ b) (gen ^ (2 ^ b * (i / 2 ^ b + 1))))
  refine ⟨δ, hm, fun t sid rng d px px' hd2 hd4 hpx hpx' => ?_⟩
  obtain ⟨v0, r, h⟩ := fft2_view_err hpp hgen dbg ha hprim φ hφ hd2 hd4 hpx he hχ hχe g rearrange t sid rng
  obtain ⟨v0', r', h'⟩ := fft2_view_err hpp hgen dbg ha hprim φ' hφ' hd2 hd4 hpx' he hχ hχe g rearrange (t.add δ) sid rng
  have e : kingVec a b gen (fun s j x => φ' s j x + χ s j x) (t.add δ).vals = kingVec a b gen (fun s j x => φ s j x + χ s j x) t.vals := by
    unfold kingVec
    apply List.map_congr_left
    intro i _
    show _ + (t.vals i + δ.vals i) = _
    rw [hδ]
    ring
  rw [e] at r' h'
  exact ⟨_, _, _, _, r, r', fun i hi => by rw [if_neg hi, if_neg hi], h, h', fun i => by rw [hm]⟩

theorem dFft_couple_err {dbg₀ : Bool} {a b : Nat} {pp : PSS F} (hpp : PSS.new dbg₀ (2 ^ b) = .ok pp)
    (hgen : (FftField.GENERATOR : F) ^ (4 * 2 ^ b) ≠ 1) (dbg : Bool) (ha : a < 64) {dom : Domain F} (hsize : dom.size = 2 ^ (a + b))
    (hprim : IsPrimitiveRoot dom.groupGen (2 ^ (a + b))) (x x' : Nat → F) {e : Nat → Nat → F}
    (he : dbg = true → ∀ c, ∑ p ∈ range (4 * 2 ^ b), pp.share.groupGen ^ p • e p c = 0) (rearrange : Bool)
    (P : Fin (2 ^ b) → Nat) (hinj : Function.Injective P) (hlt : ∀ i, P i < 4 * 2 ^ b) :
    ∃ δ : VecTape F, (∀ t i, pp.fftDealt a b rearrange 1 dom.groupGen (t.add δ) (P i) = pp.fftDealt a b rearrange 1 dom.groupGen t (P i)) ∧
      ∃ y y' : Nat → F, ∀ (t : VecTape F) (sid : Sid) (rng : Nat → Nat → F) (d : Nat) (sh sh' : Nat → List F), 2 * pp.l ≤ d → d ≤ 4 * pp.l - 1 →
        pp.SharedVec d (2 ^ a) sh (packed true a b x) → pp.SharedVec d (2 ^ a) sh' (packed true a b x') →
        Couple (only sid) P
          (fun i : Fin (4 * 2 ^ b) => pp.dFft dbg (4 * 2 ^ b) i (sh i) (spoilFft (pp.fftDealt a b rearrange 1 dom.groupGen t i) (e i)) rearrange dom
            sid rng)
          (fun i : Fin (4 * 2 ^ b) => pp.dFft dbg (4 * 2 ^ b) i (sh' i) (spoilFft (pp.fftDealt a b rearrange 1 dom.groupGen (t.add δ) i) (e i))
            rearrange dom sid rng)
          (fun o => pp.SharedVec (2 * pp.l) (2 ^ a) o (packed rearrange a b y))
          (fun o => pp.SharedVec (2 * pp.l) (2 ^ a) o (packed rearrange a b y')) := by
  have hlb := l_eq hpp
  obtain ⟨χ, hχ, hχe⟩ := exists_layout (a := a) (b := b) hprim (errVec pp b e)
  obtain ⟨δ, hm, h⟩ := fft2_couple_err hpp hgen dbg ha hprim (bp (fun i => x (bitRev (a + b) i)))
    (bp (fun i => x' (bitRev (a + b) i))) (fun _ _ _ _ => rfl) (fun _ _ _ _ => rfl) he hχ hχe 1 rearrange P hinj hlt
  refine ⟨δ, hm, fun k => 1 ^ k * (bp (fun i => x (bitRev (a + b) i)) (a + b) 0 (dom.groupGen ^ k) + χ (a + b) 0 (dom.groupGen ^ k)),
    fun k => 1 ^ k * (bp (fun i => x' (bitRev (a + b) i)) (a + b) 0 (dom.groupGen ^ k) + χ (a + b) 0 (dom.groupGen ^ k)),
    fun t sid rng d sh sh' hd2 hd4 hsh hsh' => ?_⟩
  obtain ⟨px, e1, hpx⟩ := PSS.fft1_shared hlb hprim x hsh
  obtain ⟨px', e1', hpx'⟩ := PSS.fft1_shared hlb hprim x' hsh'
  refine (h t sid rng d px px' hd2 hd4 hpx hpx').congr (fun i => ?_) (fun i => ?_)
  · have hi : i.val < 4 * pp.l := by have := i.2; omega
    unfold PSS.dFft
    rw [debugAssert_of (by rw [hsh.1 i hi, hlb, hsize, pow_add]; simp), e1 i hi]
    rfl
  · have hi : i.val < 4 * pp.l := by have := i.2; omega
    unfold PSS.dFft
    rw [debugAssert_of (by rw [hsh'.1 i hi, hlb, hsize, pow_add]; simp), e1' i hi]
    rfl

theorem dIfft_couple_err {dbg₀ : Bool} {a b : Nat} {pp : PSS F} (hpp : PSS.new dbg₀ (2 ^ b) = .ok pp)
    (hgen : (FftField.GENERATOR : F) ^ (4 * 2 ^ b) ≠ 1) (dbg : Bool) (ha : a < 64) {dom : Domain F} (hsize : dom.size = 2 ^ (a + b))
    (hprim : IsPrimitiveRoot dom.groupGenInv (2 ^ (a + b))) (x x' : Nat → F) {e : Nat → Nat → F}
    (he : dbg = true → ∀ c, ∑ p ∈ range (4 * 2 ^ b), pp.share.groupGen ^ p • e p c = 0) (g : F) (rearrange : Bool)
    (P : Fin (2 ^ b) → Nat) (hinj : Function.Injective P) (hlt : ∀ i, P i < 4 * 2 ^ b) :
    ∃ δ : VecTape F, (∀ t i, pp.fftDealt a b rearrange g dom.groupGenInv (t.add δ) (P i) =
        pp.fftDealt a b rearrange g dom.groupGenInv t (P i)) ∧
      ∃ y y' : Nat → F, ∀ (t : VecTape F) (sid : Sid) (rng : Nat → Nat → F) (d : Nat) (sh sh' : Nat → List F), 2 * pp.l ≤ d → d ≤ 4 * pp.l - 1 →
        pp.SharedVec d (2 ^ a) sh (packed true a b x) → pp.SharedVec d (2 ^ a) sh' (packed true a b x') →
        Couple (only sid) P
          (fun i : Fin (4 * 2 ^ b) => pp.dIfft dbg (4 * 2 ^ b) i (sh i) (spoilFft (pp.fftDealt a b rearrange g dom.groupGenInv t i) (e i))
            rearrange dom g sid rng)
          (fun i : Fin (4 * 2 ^ b) => pp.dIfft dbg (4 * 2 ^ b) i (sh' i) (spoilFft (pp.fftDealt a b rearrange g dom.groupGenInv (t.add δ) i) (e i))
            rearrange dom g sid rng)
          (fun o => pp.SharedVec (2 * pp.l) (2 ^ a) o (packed rearrange a b y))
          (fun o => pp.SharedVec (2 * pp.l) (2 ^ a) o (packed rearrange a b y')) := by
  have hlb := l_eq hpp
  obtain ⟨χ, hχ, hχe⟩ := exists_layout (a := a) (b := b) hprim (errVec pp b e)
  obtain ⟨δ, hm, h⟩ := fft2_couple_err hpp hgen dbg ha hprim
    (bp (fun i => (fun i => x i * dom.sizeInv) (bitRev (a + b) i)))
    (bp (fun i => (fun i => x' i * dom.sizeInv) (bitRev (a + b) i))) (fun _ _ _ _ => rfl) (fun _ _ _ _ => rfl) he hχ hχe g rearrange P hinj hlt
  refine ⟨δ, hm, fun k => g ^ k * (bp (fun i => x (bitRev (a + b) i) * dom.sizeInv) (a + b) 0 (dom.groupGenInv ^ k) +
      χ (a + b) 0 (dom.groupGenInv ^ k)),
    fun k => g ^ k * (bp (fun i => x' (bitRev (a + b) i) * dom.sizeInv) (a + b) 0 (dom.groupGenInv ^ k) + χ (a + b) 0 (dom.groupGenInv ^ k)),
    fun t sid rng d sh sh' hd2 hd4 hsh hsh' => ?_⟩
  have scaled : ∀ (x : Nat → F) (sh : Nat → List F), pp.SharedVec d (2 ^ a) sh (packed true a b x) →
      pp.SharedVec d (2 ^ a) (fun p => (sh p).map fun z => z * dom.sizeInv) (packed true a b fun i => x i * dom.sizeInv) := fun x sh hsh =>
    SharedVec.congr (SharedVec.scale hsh dom.sizeInv) (fun _ _ => rfl) fun c hc => packed_smul _ _ _ _ _ _
  obtain ⟨px, e1, hpx⟩ := PSS.fft1_shared hlb hprim _ (scaled x sh hsh)
  obtain ⟨px', e1', hpx'⟩ := PSS.fft1_shared hlb hprim _ (scaled x' sh' hsh')
  refine (h t sid rng d px px' hd2 hd4 hpx hpx').congr (fun i => ?_) (fun i => ?_)
  · have hi : i.val < 4 * pp.l := by have := i.2; omega
    unfold PSS.dIfft
    have e := e1 i hi
    rw [debugAssert_of (by rw [hsh.1 i hi, hlb, hsize, pow_add]; simp)]
    dsimp only
    rw [e]
    rfl
  · have hi : i.val < 4 * pp.l := by have := i.2; omega
    unfold PSS.dIfft
    have e := e1' i hi
    rw [debugAssert_of (by rw [hsh'.1 i hi, hlb, hsize, pow_add]; simp)]
    dsimp only
    rw [e]
    rfl

/-! ### Two runs of the degree reduction -/

/-- The mask with errors in what is sent. -/
def spoilDeg (m : DegRedMask F) (e : Nat → F) : DegRedMask F := ⟨addErr m.inMask e, m.outMask⟩

theorem degRed_view_err {dbg₀ : Bool} {b : Nat} {pp : PSS F} (hpp : PSS.new dbg₀ (2 ^ b) = .ok pp)
    (hgen : (FftField.GENERATOR : F) ^ (4 * 2 ^ b) ≠ 1) (dbg : Bool) {d N : Nat} (hN : 0 < N)
    (hN64 : N < 2 ^ 64) (hd2 : 2 * pp.l ≤ d) (hd4 : d ≤ 4 * pp.l - 1) {sh sec : Nat → List F}
    (hsh : pp.SharedVec d N sh sec) {e : Nat → Nat → F} (he : dbg = true → ∀ c, ∑ p ∈ range (4 * 2 ^ b), pp.share.groupGen ^ p • e p c = 0)
    (t : VecTape F) (sid : Sid) (rng : Nat → Nat → F) :
    let sec' := fun c => List.zipWith (· + ·) (sec c) (errSec pp b fun p => e p c)
    let ans := pp.freshVec N (fun c => List.zipWith (· + ·) (sec' c) (chunks pp.l t.vals c)) rng
    let mask := pp.degDealt N t
    ∃ v0, RunsV All (only sid) (fun i : Fin (4 * 2 ^ b) => pp.degRed dbg (4 * 2 ^ b) i (sh i) (spoilDeg (mask i) (e i)) sid rng)
        (fun i => addMask (ans i) (mask i).outMask) (fun i => if i.val = 0 then v0 else [(0, Wire.enc (ans i))]) ∧
      pp.SharedVec (2 * pp.l) N (fun p => addMask (ans p) (mask p).outMask) sec' := by
  intro sec' ans mask
  have hg := PSS.good_of_new hpp
  have hle := l_eq hpp
  have hl := hg.lpos
  have hn : 4 * 2 ^ b = 4 * pp.l := by rw [hle]
  have hn0 : 0 < 4 * 2 ^ b := by positivity
  have hin : pp.SharedVec (2 * pp.l) N (fun p => (mask p).inMask) (chunks pp.l t.vals) :=
    PSS.freshVec_shared hg (fun c _ => chunks_length _ _ _) _
  have hout : pp.SharedVec (2 * pp.l) N (fun p => (mask p).outMask) (chunks pp.l fun i => -t.vals i) :=
    PSS.freshVec_shared hg (fun c _ => chunks_length _ _ _) _
  have hsum := SharedVec.add hsh (SharedVec.mono hd2 hin)
  have hK := degRedKing_err hpp hgen dbg hN hd4 hsum he rng
  have hlen : ∀ c < N, (sec' c).length = pp.l := fun c hc => by simp [sec', errSec, (hsh.2 c hc).2.1, hle]
  have hans : ∀ p, pp.freshVec N (fun c => List.zipWith (· + ·) (List.zipWith (· + ·) (sec c) (chunks pp.l t.vals c))
      (errSec pp b fun p => e p c)) rng p = ans p := by
    refine fun p => PSS.freshVec_congr (fun c hc => ?_) _ _
    have hsl := (hsh.2 c hc).2.1
    have hel : (errSec pp b fun p => e p c).length = pp.l := by simp [errSec, hle]
    apply list_ext_getD 0 (by simp [sec', hsl, hel, chunks])
    intro j hj
    have hj : j < pp.l := by simpa [hsl, hel, chunks] using hj
    dsimp only [sec']
    rw [getD_zipWith _ _ _ _ 0 0 _ (by simp [hsl, chunks, hj]) (by rw [hel]; exact hj),
      getD_zipWith _ _ _ _ 0 0 _ (by rw [hsl]; exact hj) (by rw [chunks_length]; exact hj),
      getD_zipWith _ _ _ _ 0 0 _ (by simp [hsl, hel, hj]) (by rw [chunks_length]; exact hj),
      getD_zipWith _ _ _ _ 0 0 _ (by rw [hsl]; exact hj) (by rw [hel]; exact hj)]
    ring
  have hmsg : ∀ p < 4 * pp.l, addMask (sh p) (spoilDeg (mask p) (e p)).inMask = addErr (addMask (sh p) (mask p).inMask) (e p) := fun p hp =>
    addMask_addErr (by rw [hsh.1 p hp, hin.1 p hp]) _
  refine ⟨_, RunsV.congr (runsV_round hn0 sid pp.t (fun i => addMask (sh i) (spoilDeg (mask i) (e i)).inMask)
      (fun i hi => Wire.ok_list _ (by rw [hmsg i (by omega), addErr_length]; exact (hsum.1 i (by omega)).symm ▸ hN64))
      (fun i rs => pp.degRedKing dbg rs.shares rs.parties rng)
      ans (8 + N * FixedWire.width F) ?_ ?_
      (fun i y => .done (.ok (addMask y (mask i).outMask))) (RunsV.done _)) (fun i => ?_) (fun i => rfl)
      (fun i => by simp only [List.append_nil]; rfl), ?_⟩
  · simp only
    rw [hn, List.map_congr_left fun p hp => hmsg p (List.mem_range.1 hp)]
    exact hK.trans (congrArg _ (List.map_congr_left fun p _ => hans p))
  · intro i hi
    have := pp.freshVec_length N (fun c => List.zipWith (· + ·) (sec' c) (chunks pp.l t.vals c)) rng i
    exact ⟨Wire.ok_list _ (by rw [this]; exact hN64), by rw [Wire.enc_list_length, this]⟩
  · have hi : i.val < 4 * pp.l := by have := i.2; omega
    have hil : (spoilDeg (mask i) (e i)).inMask.length = N := by rw [spoilDeg, addErr_length]; exact hin.1 i hi
    unfold PSS.degRed
    rw [debugAssert_of (by rw [hsh.1 i hi, hil]; simp), debugAssert_of (by rw [hsh.1 i hi]; simp [spoilDeg, hout.1 i hi])]
    rfl
  · have hA := PSS.freshVec_shared hg (N := N) (sec := fun c => List.zipWith (· + ·) (sec' c) (chunks pp.l t.vals c))
      (fun c hc => by simp [hlen c hc, chunks]) rng
    refine SharedVec.congr (SharedVec.add hA hout) (fun _ _ => rfl) fun c hc => ?_
    have : (chunks pp.l fun i => -t.vals i) c = (chunks pp.l t.vals c).map fun z => -z := by simp [chunks]
    rw [this]
    exact zipWith_add_neg _ _ (by rw [hlen c hc, chunks_length])

theorem degRed_couple_err {dbg₀ : Bool} {b : Nat} {pp : PSS F} (hpp : PSS.new dbg₀ (2 ^ b) = .ok pp)
    (hgen : (FftField.GENERATOR : F) ^ (4 * 2 ^ b) ≠ 1) (dbg : Bool) {N : Nat} (hN : 0 < N) (hN64 : N < 2 ^ 64) (sec sec' : Nat → List F)
    (hs : ∀ c < N, (sec c).length = 2 ^ b) (hs' : ∀ c < N, (sec' c).length = 2 ^ b) {e : Nat → Nat → F}
    (he : dbg = true → ∀ c, ∑ p ∈ range (4 * 2 ^ b), pp.share.groupGen ^ p • e p c = 0)
    (P : Fin (2 ^ b) → Nat) (hinj : Function.Injective P) (hlt : ∀ i, P i < 4 * 2 ^ b) :
    ∃ δ : VecTape F, (∀ t i, pp.degDealt N (t.add δ) (P i) = pp.degDealt N t (P i)) ∧
      ∀ (t : VecTape F) (sid : Sid) (rng : Nat → Nat → F) (d : Nat) (sh sh' : Nat → List F), 2 * pp.l ≤ d → d ≤ 4 * pp.l - 1 →
        pp.SharedVec d N sh sec → pp.SharedVec d N sh' sec' →
        Couple (only sid) P (fun i : Fin (4 * 2 ^ b) => pp.degRed dbg (4 * 2 ^ b) i (sh i) (spoilDeg (pp.degDealt N t i) (e i)) sid rng)
          (fun i : Fin (4 * 2 ^ b) => pp.degRed dbg (4 * 2 ^ b) i (sh' i) (spoilDeg (pp.degDealt N (t.add δ) i) (e i)) sid rng)
          (fun o => pp.SharedVec (2 * pp.l) N o fun c => List.zipWith (· + ·) (sec c) (errSec pp b fun p => e p c))
          (fun o => pp.SharedVec (2 * pp.l) N o fun c => List.zipWith (· + ·) (sec' c) (errSec pp b fun p => e p c)) := by
  have hg := PSS.good_of_new hpp
  have hle := l_eq hpp
  have hl := hg.lpos
  have hb0 : 0 < 2 ^ b := by positivity
  obtain ⟨δ, hδ, hm⟩ := PSS.degDealt_shift hg hle (by rw [offset_eq hpp]; exact hgen) N P hinj hlt
    (fun i => (sec (i / 2 ^ b)).getD (i % 2 ^ b) 0 - (sec' (i / 2 ^ b)).getD (i % 2 ^ b) 0)
  refine ⟨δ, hm, fun t sid rng d sh sh' hd2 hd4 hsh hsh' => ?_⟩
  obtain ⟨v0, r, h⟩ := degRed_view_err hpp hgen dbg hN hN64 hd2 hd4 hsh he t sid rng
  obtain ⟨v0', r', h'⟩ := degRed_view_err hpp hgen dbg hN hN64 hd2 hd4 hsh' he (t.add δ) sid rng
  have e : ∀ p, pp.freshVec N (fun c => List.zipWith (· + ·) (List.zipWith (· + ·) (sec' c) (errSec pp b fun p => e p c))
        (chunks pp.l (t.add δ).vals c)) rng p =
      pp.freshVec N (fun c => List.zipWith (· + ·) (List.zipWith (· + ·) (sec c) (errSec pp b fun p => e p c)) (chunks pp.l t.vals c)) rng p := by
    refine fun p => PSS.freshVec_congr (fun c hc => ?_) _ _
    rw [hle]
    have hel : (errSec pp b fun p => e p c).length = 2 ^ b := by simp [errSec]
    apply list_ext_getD 0 (by simp [hs c hc, hs' c hc, hel, chunks])
    intro j hj
    have hj : j < 2 ^ b := by simpa [hs' c hc, hel, chunks] using hj
    rw [getD_zipWith _ _ _ _ 0 0 _ (by simp [hs' c hc, hel, hj]) (by rw [chunks_length]; exact hj),
      getD_zipWith _ _ _ _ 0 0 _ (by rw [hs' c hc]; exact hj) (by rw [hel]; exact hj),
      getD_zipWith _ _ _ _ 0 0 _ (by simp [hs c hc, hel, hj]) (by rw [chunks_length]; exact hj),
      getD_zipWith _ _ _ _ 0 0 _ (by rw [hs c hc]; exact hj) (by rw [hel]; exact hj)]
    rw [chunks, getD_map_range, if_pos hj, chunks, getD_map_range, if_pos hj]
    show _ + (t.vals _ + δ.vals _) = _
    rw [hδ]
    dsimp only
    rw [show (c * 2 ^ b + j) / 2 ^ b = c by
      rw [Nat.mul_comm, Nat.mul_add_div hb0, Nat.div_eq_of_lt hj, Nat.add_zero], show (c * 2 ^ b + j) % 2 ^ b = j by
      rw [Nat.mul_comm, Nat.mul_add_mod, Nat.mod_eq_of_lt hj]]
    ring
  simp only [e] at r' h'
  exact ⟨_, _, _, _, r, r', fun i hi => by rw [if_neg hi, if_neg hi], h, h', fun i => by rw [hm]⟩

/-! ### Two runs of `circom_h` -/

theorem toCoset_couple_err {dbg₀ : Bool} {b : Nat} {pp : PSS F} (hpp : PSS.new dbg₀ (2 ^ b) = .ok pp)
    (hgen : (FftField.GENERATOR : F) ^ (4 * 2 ^ b) ≠ 1) (dbg : Bool) (a : Nat)
    (ha : a < 64) {dom : Domain F} (hdom : Domain.new (2 ^ (a + b)) = some dom) (x x' : Nat → F) {e f : Nat → Nat → F}
    (he : dbg = true → ∀ c, ∑ p ∈ range (4 * 2 ^ b), pp.share.groupGen ^ p • e p c = 0)
    (hf : dbg = true → ∀ c, ∑ p ∈ range (4 * 2 ^ b), pp.share.groupGen ^ p • f p c = 0) (g : F)
    (P : Fin (2 ^ b) → Nat) (hinj : Function.Injective P) (hlt : ∀ i, P i < 4 * 2 ^ b) :
    ∃ δ ε : VecTape F,
      (∀ t i, pp.fftDealt a b true g dom.groupGenInv (t.add δ) (P i) = pp.fftDealt a b true g dom.groupGenInv t (P i)) ∧
      (∀ t i, pp.fftDealt a b false 1 dom.groupGen (t.add ε) (P i) = pp.fftDealt a b false 1 dom.groupGen t (P i)) ∧
      ∃ R R' : (Nat → List F) → Prop, ∃ y y' : Nat → F,
      (∀ (t : VecTape F) (sid : Sid) (rng : Nat → Nat → F) (sh sh' : Nat → List F),
        pp.SharedVec (2 * pp.l) (2 ^ a) sh (packed true a b x) → pp.SharedVec (2 * pp.l) (2 ^ a) sh' (packed true a b x') →
        Couple (only sid) P
          (fun i : Fin (4 * 2 ^ b) => pp.dIfft dbg (4 * 2 ^ b) i (sh i) (spoilFft (pp.fftDealt a b true g dom.groupGenInv t i) (e i)) true dom g
            sid rng)
          (fun i : Fin (4 * 2 ^ b) => pp.dIfft dbg (4 * 2 ^ b) i (sh' i) (spoilFft (pp.fftDealt a b true g dom.groupGenInv (t.add δ) i) (e i)) true
            dom g sid rng) R R') ∧
      (∀ (t : VecTape F) (sid : Sid) (rng : Nat → Nat → F) (sh sh' : Nat → List F), R sh → R' sh' →
        Couple (only sid) P
          (fun i : Fin (4 * 2 ^ b) => pp.dFft dbg (4 * 2 ^ b) i (sh i) (spoilFft (pp.fftDealt a b false 1 dom.groupGen t i) (f i)) false dom sid rng)
          (fun i : Fin (4 * 2 ^ b) => pp.dFft dbg (4 * 2 ^ b) i (sh' i) (spoilFft (pp.fftDealt a b false 1 dom.groupGen (t.add ε) i) (f i)) false dom
            sid rng)
          (fun o => pp.SharedVec (2 * pp.l) (2 ^ a) o (packed false a b y))
          (fun o => pp.SharedVec (2 * pp.l) (2 ^ a) o (packed false a b y'))) := by
  have hg := PSS.good_of_new hpp
  have hl := hg.lpos
  obtain ⟨hwf, -, -, hsize⟩ := Domain.new_pow2 hdom
  have hprim : IsPrimitiveRoot dom.groupGen (2 ^ (a + b)) := by rw [← hsize]; exact hwf.prim
  have hprim' : IsPrimitiveRoot dom.groupGenInv (2 ^ (a + b)) := by rw [hwf.ginv]; exact hprim.inv
  obtain ⟨δ, hδ, w, w', h1⟩ := dIfft_couple_err hpp hgen dbg ha hsize hprim' x x' he g true P hinj hlt
  obtain ⟨ε, hε, y, y', h2⟩ := dFft_couple_err hpp hgen dbg ha hsize hprim w w' hf false P hinj hlt
  exact ⟨δ, ε, hδ, hε, _, _, y, y', fun t sid rng sh sh' h h' => h1 t sid rng _ sh sh' le_rfl (by omega) h h',
    fun t sid rng sh sh' h h' => h2 t sid rng _ sh sh' le_rfl (by omega) h h'⟩

/-- The masks of `circom_h` are dealt with the tapes `t 0`, …, `t 5` and spoiled with the errors `e`. -/
def CircomSpoiled (pp : PSS F) (a b : Nat) (root : F) (dom : Domain F) (e : Nat → Nat → Nat → F) (t : Nat → VecTape F)
    (masks : Nat → Nat → FftMask F) : Prop :=
  (∀ p, ∀ k < 3, masks p k = spoilFft (pp.fftDealt a b true root dom.groupGenInv (t k) p) (e p k)) ∧
  ∀ p, ∀ k < 3, masks p (3 + k) = spoilFft (pp.fftDealt a b false 1 dom.groupGen (t (3 + k)) p) (e p (3 + k))

theorem circomH_couple_err {dbg₀ : Bool} {b : Nat} {pp : PSS F} (hpp : PSS.new dbg₀ (2 ^ b) = .ok pp)
    (hgen : (FftField.GENERATOR : F) ^ (4 * 2 ^ b) ≠ 1) (dbg : Bool) (a : Nat)
    (ha : a < 64) {dom dom2 : Domain F} (hdom : Domain.new (2 ^ (a + b)) = some dom)
    (hdom2 : Domain.new (2 ^ (a + b + 1)) = some dom2) (xa xb xc xa' xb' xc' : Nat → F) {e : Nat → Nat → Nat → F} {f : Nat → Nat → F}
    (he : dbg = true → ∀ k c, ∑ p ∈ range (4 * 2 ^ b), pp.share.groupGen ^ p • e p k c = 0)
    (hf : dbg = true → ∀ c, ∑ p ∈ range (4 * 2 ^ b), pp.share.groupGen ^ p • f p c = 0)
    (P : Fin (2 ^ b) → Nat) (hinj : Function.Injective P) (hlt : ∀ i, P i < 4 * 2 ^ b) :
    ∃ (δ : Nat → VecTape F) (ε : VecTape F) (y y' : List F),
      y.length = 2 ^ (a + b) ∧ y'.length = 2 ^ (a + b) ∧
      (∀ k < 3, ∀ t i, pp.fftDealt a b true dom2.groupGen dom.groupGenInv (t.add (δ k)) (P i) =
        pp.fftDealt a b true dom2.groupGen dom.groupGenInv t (P i)) ∧
      (∀ k < 3, ∀ t i, pp.fftDealt a b false 1 dom.groupGen (t.add (δ (3 + k))) (P i) =
        pp.fftDealt a b false 1 dom.groupGen t (P i)) ∧
      (∀ t i, pp.degDealt (2 ^ a) (t.add ε) (P i) = pp.degDealt (2 ^ a) t (P i)) ∧
      ∀ (tf : Nat → VecTape F) (td : VecTape F) (rng : Nat → Nat → Nat → F) (q q' : Nat → PackedQAPShare F)
        (masks masks' : Nat → Nat → FftMask F), SharesProgram pp a b dom q xa xb xc → SharesProgram pp a b dom q' xa' xb' xc' →
        CircomSpoiled pp a b dom2.groupGen dom e tf masks →
        CircomSpoiled pp a b dom2.groupGen dom e (fun k => (tf k).add (δ k)) masks' →
        Couple (fun _ => True) P
          (fun i : Fin (4 * 2 ^ b) => pp.circomH dbg (4 * 2 ^ b) i (q i) (masks i) (spoilDeg (pp.degDealt (2 ^ a) td i) (f i)) rng)
          (fun i : Fin (4 * 2 ^ b) => pp.circomH dbg (4 * 2 ^ b) i (q' i) (masks' i) (spoilDeg (pp.degDealt (2 ^ a) (td.add ε) i) (f i)) rng)
          (fun o => HoldsChunks pp b o y) (fun o => HoldsChunks pp b o y') := by
  have hle := l_eq hpp
  have hg := PSS.good_of_new hpp
  have hl := hg.lpos
  obtain ⟨hwf, hoff, -, hsize⟩ := Domain.new_pow2 hdom
  obtain ⟨-, hoff2, -, hsize2⟩ := Domain.new_pow2 hdom2
  obtain ⟨δa, εa, da, ea, Ra, Ra', ya, ya', a1, a2⟩ := toCoset_couple_err hpp hgen dbg a ha hdom xa xa' (e := fun p => e p 0)
    (f := fun p => e p 3) (fun h => he h 0) (fun h => he h 3) dom2.groupGen P hinj hlt
  obtain ⟨δb, εb, db, eb, Rb, Rb', yb, yb', b1, b2⟩ := toCoset_couple_err hpp hgen dbg a ha hdom xb xb' (e := fun p => e p 1)
    (f := fun p => e p 4) (fun h => he h 1) (fun h => he h 4) dom2.groupGen P hinj hlt
  obtain ⟨δc, εc, dc, ec, Rc, Rc', yc, yc', c1, c2⟩ := toCoset_couple_err hpp hgen dbg a ha hdom xc xc' (e := fun p => e p 2)
    (f := fun p => e p 5) (fun h => he h 2) (fun h => he h 5) dom2.groupGen P hinj hlt
  obtain ⟨ε, dε, h3⟩ := degRed_couple_err hpp hgen dbg (N := 2 ^ a)
    (by positivity) (Nat.pow_lt_pow_right (by omega) ha) (packed false a b fun i => ya i * yb i - yc i)
    (packed false a b fun i => ya' i * yb' i - yc' i) (fun c _ => packed_length _ _ _ _ _) (fun c _ => packed_length _ _ _ _ _)
    hf P hinj hlt
  have hb0 : 0 < 2 ^ b := by positivity
  have herr : ∀ c, (errSec pp b fun p => f p c) = packed false a b (errVec pp b f) c := by
    intro c
    apply list_ext_getD 0 (by simp [errSec, packed])
    intro j hj
    have hj : j < 2 ^ b := by simpa [errSec] using hj
    rw [packed, getD_map_range, if_pos hj, slot, if_neg (by simp), errVec, show (c * 2 ^ b + j) / 2 ^ b = c by
      rw [Nat.mul_comm, Nat.mul_add_div hb0, Nat.div_eq_of_lt hj, Nat.add_zero], show (c * 2 ^ b + j) % 2 ^ b = j by
      rw [Nat.mul_comm, Nat.mul_add_mod, Nat.mod_eq_of_lt hj]]
  refine ⟨fun k => if k = 0 then δa else if k = 1 then δb else if k = 2 then δc else if k = 3 then εa else if k = 4 then εb else εc, ε,
    (List.range (2 ^ (a + b))).map fun i => (ya i * yb i - yc i) + errVec pp b f i,
    (List.range (2 ^ (a + b))).map fun i => (ya' i * yb' i - yc' i) + errVec pp b f i, by simp, by simp, ?_, ?_, dε, ?_⟩
  · intro k hk
    obtain rfl | rfl | rfl : k = 0 ∨ k = 1 ∨ k = 2 := by omega
    exacts [da, db, dc]
  · intro k hk
    obtain rfl | rfl | rfl : k = 0 ∨ k = 1 ∨ k = 2 := by omega
    exacts [ea, eb, ec]
  · rintro tf td rng q q' masks masks' ⟨hq, hqa, hqb, hqc⟩ ⟨hq', hqa', hqb', hqc'⟩ ⟨hm1, hm2⟩ ⟨hm1', hm2'⟩
    have unfolded : ∀ (q : Nat → PackedQAPShare F) (masks : Nat → Nat → FftMask F) (dm : Nat → DegRedMask F),
        (∀ p < 4 * 2 ^ b, (q p).domain = dom) → ∀ i : Fin (4 * 2 ^ b), pp.circomH dbg (4 * 2 ^ b) i (q i) (masks i) (dm i) rng =
      tryJoin3 (pp.dIfft dbg (4 * 2 ^ b) i (q i).a (masks i 0) true dom dom2.groupGen .zero (rng 0))
        (pp.dIfft dbg (4 * 2 ^ b) i (q i).b (masks i 1) true dom dom2.groupGen .one (rng 1))
        (pp.dIfft dbg (4 * 2 ^ b) i (q i).c (masks i 2) true dom dom2.groupGen .two (rng 2)) fun aCoeff bCoeff cCoeff =>
      tryJoin3 (pp.dFft dbg (4 * 2 ^ b) i aCoeff (masks i 3) false dom .zero (rng 3))
        (pp.dFft dbg (4 * 2 ^ b) i bCoeff (masks i 4) false dom .one (rng 4))
        (pp.dFft dbg (4 * 2 ^ b) i cCoeff (masks i 5) false dom .two (rng 5)) fun aEval bEval cEval =>
      pp.degRed dbg (4 * 2 ^ b) i (List.zipWith (fun ab c => ab.1 * ab.2 - c) (List.zip aEval bEval) cEval) (dm i) .zero (rng 6) := by
      intro q masks dm hq i
      have hroot : dom2.element 1 = dom2.groupGen := by rw [Domain.element, hoff2, one_mul, pow_one]
      rw [PSS.circomH, hq i i.2, hsize, ← pow_succ', hdom2, ← hroot]
      rfl
    have fin : ∀ (y : Nat → F) (o : Nat → List F), pp.SharedVec (2 * pp.l) (2 ^ a) o
        (fun c => List.zipWith (· + ·) (packed false a b y c) (errSec pp b fun p => f p c)) →
        HoldsChunks pp b o ((List.range (2 ^ (a + b))).map fun i => y i + errVec pp b f i) := by
      intro y o ho
      refine HoldsOutput.chunks (a := a) ⟨by simp, ?_⟩
      rw [← hle]
      refine SharedVec.congr ho (fun _ _ => rfl) fun c hc => ?_
      rw [herr, packed_zipWith]
      refine packed_congr _ hc fun i hi => ?_
      rw [getD_map_range, if_pos hi]
    refine (Couple.congr ?_ (unfolded q masks (fun p => spoilDeg (pp.degDealt (2 ^ a) td p) (f p)) hq)
      (unfolded q' masks' (fun p => spoilDeg (pp.degDealt (2 ^ a) (td.add ε) p) (f p)) hq')).imp (fin fun i => ya i * yb i - yc i)
        (fin fun i => ya' i * yb' i - yc' i)
    have k0 := fun i => hm1 i 0 (by omega)
    have k1 := fun i => hm1 i 1 (by omega)
    have k2 := fun i => hm1 i 2 (by omega)
    have k3 := fun i => hm2 i 0 (by omega)
    have k4 := fun i => hm2 i 1 (by omega)
    have k5 := fun i => hm2 i 2 (by omega)
    have k0' := fun i => hm1' i 0 (by omega)
    have k1' := fun i => hm1' i 1 (by omega)
    have k2' := fun i => hm1' i 2 (by omega)
    have k3' := fun i => hm2' i 0 (by omega)
    have k4' := fun i => hm2' i 1 (by omega)
    have k5' := fun i => hm2' i 2 (by omega)
    simp only [Nat.add_zero, Nat.reduceAdd, if_true, one_ne_zero, OfNat.ofNat_ne_zero, OfNat.ofNat_ne_one, if_false, Nat.reduceEqDiff]
      at k3 k4 k5 k0' k1' k2' k3' k4' k5'
    simp only [k0, k1, k2, k3, k4, k5, k0', k1', k2', k3', k4', k5']
    refine Couple.tryJoin3 (a1 (tf 0) .zero (rng 0) _ _ hqa hqa') (b1 (tf 1) .one (rng 1) _ _ hqb hqb')
      (c1 (tf 2) .two (rng 2) _ _ hqc hqc') (fun _ _ => trivial) (fun _ _ => trivial) (fun _ _ => trivial) ?_
    rintro oa oa' ob ob' oc oc' ra ra' - rb rb' - rc rc' -
    refine Couple.tryJoin3 (a2 (tf 3) .zero (rng 3) _ _ ra ra') (b2 (tf 4) .one (rng 4) _ _ rb rb')
      (c2 (tf 5) .two (rng 5) _ _ rc rc') (fun _ _ => trivial) (fun _ _ => trivial) (fun _ _ => trivial) ?_
    rintro pa pa' pb pb' pc pc' ra ra' - rb rb' - rc rc' -
    exact (h3 td .zero (rng 6) (4 * pp.l - 1) _ _ (by omega) le_rfl (SharedVec.mulSub hg hle false rfl ra rb rc)
      (SharedVec.mulSub hg hle false rfl ra' rb' rc')).mono fun _ _ => trivial

/-! ### Two runs of the sums -/

section groups

variable {G : Type} [AddCommGroup G] [Module F G] [DecidableEq G] [FixedWire G]

theorem dMsm_view_err {dbg₀ : Bool} {b : Nat} {pp : PSS F} (hpp : PSS.new dbg₀ (2 ^ b) = .ok pp)
    (hgen : (FftField.GENERATOR : F) ^ (4 * 2 ^ b) ≠ 1) (dbg : Bool) {N d1 d2 : Nat}
    (hd2 : 2 * pp.l ≤ d2 + d1 - 1) (hd4 : d2 + d1 - 1 ≤ 4 * pp.l - 1) {bs bsec : Nat → List G} {ss ssec : Nat → List F}
    (hb : pp.SharedVec d1 N bs bsec) (hs : pp.SharedVec d2 N ss ssec) {e : Nat → G}
    (he : dbg = true → ∑ p ∈ range (4 * 2 ^ b), pp.share.groupGen ^ p • e p = 0) (gen : G) (t : MsmTape F G) (sid : Sid) {tot : G}
    (htot : ∑ k ∈ range pp.l, ∑ c ∈ range N, (ssec c).getD k 0 • (bsec c).getD k 0 = tot) :
    let ans := tot + ((List.range pp.l).map fun i => t.vals i • gen).sum + (errSec pp b e).sum
    let mask := pp.msmDealt gen t
    ∃ v0, RunsV All (only sid) (fun i : Fin (4 * 2 ^ b) => pp.dMsm dbg (4 * 2 ^ b) i (bs i) (ss i) (spoiled (e i) (mask i)) sid)
      (fun i => ans + (mask i).outMask) (fun i => if i.val = 0 then v0 else [(0, Wire.enc ans)]) := by
  intro ans mask
  have hg := PSS.good_of_new hpp
  have hle := l_eq hpp
  have hl := hg.lpos
  have hn : 4 * 2 ^ b = 4 * pp.l := by rw [hle]
  have hn0 : 0 < 4 * 2 ^ b := by positivity
  obtain ⟨c, e1, hc⟩ := msm_shared hb hs
  have hin : pp.Shares (2 * pp.l) ((List.range (4 * pp.l)).map fun p => (mask p).inMask)
      ((List.range pp.l).map fun i => t.vals i • gen) := PSS.fresh_one hg (by simp) _
  have hsum := Shares.add hc (Shares.mono hd2 hin)
  rw [List.zipWith_map_left, List.zipWith_map_right, List.zipWith_self] at hsum
  have hK := unpack_err hpp hgen dbg hd4 hsum he
  refine ⟨_, RunsV.congr (runsV_round hn0 sid pp.t (fun i => c i + (spoiled (e i) (mask i)).inMask) (fun i hi => Wire.ok_fixed _)
    (fun i rs => pp.msmKing dbg (4 * 2 ^ b) rs.shares rs.parties) (fun i => ans) (FixedWire.width G) ?_
    (fun i hi => ⟨Wire.ok_fixed _, FixedWire.enc_length _⟩)
    (fun i y => .done (.ok (y + (mask i).outMask))) (RunsV.done _)) (fun i => ?_) (fun i => rfl) (fun i => by simp only [List.append_nil]; rfl)⟩
  · simp only
    have : (List.range (4 * pp.l)).map (fun i => c i + (spoiled (e i) (mask i)).inMask) =
        (List.range (4 * pp.l)).map fun i => c i + (mask i).inMask + e i := by
      apply List.map_congr_left
      intro p _
      rw [spoiled, add_assoc]
    rw [hn, this, PSS.msmKing, hK, ok_bind, sum_zipWith_add _ _ (by simp [errSec, hle]), sum_zipWith_add _ _ (by simp), sum_map_range, htot]
    simp [ans]
  · have hi : i.val < 4 * pp.l := by have := i.2; omega
    unfold PSS.dMsm
    rw [debugAssert_of (by rw [hb.1 i hi, hs.1 i hi]; simp), e1 i hi]
    rfl

theorem dMsm_chunks_couple_err {dbg₀ : Bool} {b : Nat} {pp : PSS F} (hpp : PSS.new dbg₀ (2 ^ b) = .ok pp)
    (hgen : (FftField.GENERATOR : F) ^ (4 * 2 ^ b) ≠ 1) (dbg : Bool) (gen : G) (hspan : ∀ g : G, ∃ c : F, c • gen = g)
    {y : List G} {x x' : List F} (hlen : x.length = y.length) (hlen' : x'.length = y.length) {e : Nat → G}
    (he : dbg = true → ∑ p ∈ range (4 * 2 ^ b), pp.share.groupGen ^ p • e p = 0)
    (P : Fin (2 ^ b) → Nat) (hinj : Function.Injective P) (hlt : ∀ i, P i < 4 * 2 ^ b) :
    ∃ δ : MsmTape F G, (∀ t i, pp.msmDealt gen (t.add δ) (P i) = pp.msmDealt gen t (P i)) ∧
      ∀ (t : MsmTape F G) (sid : Sid) (bs : Nat → List G) (ss ss' : Nat → List F), HoldsChunks pp b bs y →
        HoldsChunks pp b ss x → HoldsChunks pp b ss' x' →
        Couple (only sid) P
          (fun i : Fin (4 * 2 ^ b) => pp.dMsm dbg (4 * 2 ^ b) i (bs i) (ss i) (spoiled (e i) (pp.msmDealt gen t i)) sid)
          (fun i : Fin (4 * 2 ^ b) => pp.dMsm dbg (4 * 2 ^ b) i (bs i) (ss' i) (spoiled (e i) (pp.msmDealt gen (t.add δ) i)) sid)
          (fun _ => True) (fun _ => True) := by
  have hle := l_eq hpp
  have hg := PSS.good_of_new hpp
  have hl := hg.lpos
  obtain ⟨δ, hδ, hm⟩ := PSS.msmDealt_shift hg hle (by rw [offset_eq hpp]; exact hgen) gen P hinj hlt
    (hspan ((∑ i ∈ range y.length, x.getD i 0 • y.getD i 0) - ∑ i ∈ range y.length, x'.getD i 0 • y.getD i 0))
  refine ⟨δ, hm, fun t sid bs ss ss' hb hs hs' => ?_⟩
  rw [HoldsChunks, ← hle] at hb hs hs'
  rw [hlen] at hs
  rw [hlen'] at hs'
  obtain ⟨v0, r⟩ := dMsm_view_err hpp hgen dbg (by omega) (by omega) hb hs he gen t sid
    (by rw [sum_chunks, sum_padded (N := (y.length + pp.l - 1) / pp.l * pp.l) _ _ rfl (numChunks_mul y hl)])
  obtain ⟨v0', r'⟩ := dMsm_view_err hpp hgen dbg (by omega) (by omega) hb hs' he gen (t.add δ) sid
    (by rw [sum_chunks, sum_padded (N := (y.length + pp.l - 1) / pp.l * pp.l) _ _ rfl (numChunks_mul y hl)])
  have e : (∑ i ∈ range y.length, x'.getD i 0 • y.getD i 0) + ((List.range pp.l).map fun i => (t.add δ).vals i • gen).sum + (errSec pp b e).sum =
      (∑ i ∈ range y.length, x.getD i 0 • y.getD i 0) + ((List.range pp.l).map fun i => t.vals i • gen).sum + (errSec pp b e).sum := by
    rw [hδ]; abel
  rw [e] at r'
  generalize (∑ i ∈ range y.length, x.getD i 0 • y.getD i 0) + ((List.range pp.l).map fun i => t.vals i • gen).sum + (errSec pp b _).sum = ans at r r'
  refine ⟨fun i => ans + (pp.msmDealt gen t i).outMask, fun i => ans + (pp.msmDealt gen (t.add δ) i).outMask, _, _, r, r', fun i hi => ?_, trivial,
    trivial, fun i => ?_⟩
  · rw [if_neg hi, if_neg hi]
  · dsimp only
    rw [hm]

theorem proveA_couple_err {dbg₀ : Bool} {b : Nat} {pp : PSS F} (hpp : PSS.new dbg₀ (2 ^ b) = .ok pp)
    (hgen : (FftField.GENERATOR : F) ^ (4 * 2 ^ b) ≠ 1) (dbg : Bool) (gen : G) (hspan : ∀ g : G, ∃ c : F, c • gen = g)
    {S : List G} {z z' : List F} (hlen : z.length = S.length) (hlen' : z'.length = S.length) {e : Nat → G}
    (he : dbg = true → ∑ p ∈ range (4 * 2 ^ b), pp.share.groupGen ^ p • e p = 0)
    (P : Fin (2 ^ b) → Nat) (hinj : Function.Injective P) (hlt : ∀ i, P i < 4 * 2 ^ b) :
    ∃ δ : MsmTape F G, (∀ t i, pp.msmDealt gen (t.add δ) (P i) = pp.msmDealt gen t (P i)) ∧
      ∀ (t : MsmTape F G) (sid : Sid) (L N AG : G) (Ssh : Nat → List G) (zsh zsh' : Nat → List F) (rsh rsh' : Nat → F),
        HoldsChunks pp b Ssh S → HoldsChunks pp b zsh z → HoldsChunks pp b zsh' z' → (∀ i, rsh (P i) = rsh' (P i)) →
        Couple (only sid) P
          (fun i : Fin (4 * 2 ^ b) => pp.proveA dbg (4 * 2 ^ b) i L N AG (Ssh i) (zsh i) (rsh i) (spoiled (e i) (pp.msmDealt gen t i)) sid)
          (fun i : Fin (4 * 2 ^ b) => pp.proveA dbg (4 * 2 ^ b) i L N AG (Ssh i) (zsh' i) (rsh' i) (spoiled (e i) (pp.msmDealt gen (t.add δ) i)) sid)
          (fun _ => True) (fun _ => True) := by
  obtain ⟨δ, hδ, h⟩ := dMsm_chunks_couple_err hpp hgen dbg gen hspan hlen hlen' he P hinj hlt
  refine ⟨δ, hδ, fun t sid L N AG Ssh zsh zsh' rsh rsh' hS hz hz' hr => ?_⟩
  refine Couple.bind (h t sid Ssh zsh zsh' hS hz hz') (fun _ h => h) fun o o' _ _ he => ?_
  exact Couple.done (fun p => (L + rsh p • N) + o p + AG) (fun p => (L + rsh' p • N) + o' p + AG) trivial trivial
    fun i => by simp only [hr, he]

theorem proveC_couple_err {dbg₀ : Bool} {b : Nat} {pp : PSS F} (hpp : PSS.new dbg₀ (2 ^ b) = .ok pp)
    (hgen : (FftField.GENERATOR : F) ^ (4 * 2 ^ b) ≠ 1) (dbg : Bool) (gen : G) (hspan : ∀ g : G, ∃ c : F, c • gen = g)
    {W U : List G} {ax ax' h h' : List F} (hW : ax.length = W.length) (hW' : ax'.length = W.length)
    (hU : h.length = U.length) (hU' : h'.length = U.length) {e f : Nat → G}
    (he : dbg = true → ∑ p ∈ range (4 * 2 ^ b), pp.share.groupGen ^ p • e p = 0)
    (hf : dbg = true → ∑ p ∈ range (4 * 2 ^ b), pp.share.groupGen ^ p • f p = 0)
    (P : Fin (2 ^ b) → Nat) (hinj : Function.Injective P) (hlt : ∀ i, P i < 4 * 2 ^ b) :
    ∃ δ ε : MsmTape F G, (∀ t i, pp.msmDealt gen (t.add δ) (P i) = pp.msmDealt gen t (P i)) ∧
      (∀ t i, pp.msmDealt gen (t.add ε) (P i) = pp.msmDealt gen t (P i)) ∧
      ∀ (t u : MsmTape F G) (M : G) (Wsh Ush : Nat → List G) (axsh axsh' hsh hsh' : Nat → List F) (rsh rsh' ssh ssh' : Nat → F)
        (Ash Ash' Bsh Bsh' : Nat → G),
        HoldsChunks pp b Wsh W → HoldsChunks pp b Ush U → HoldsChunks pp b axsh ax → HoldsChunks pp b axsh' ax' →
        HoldsChunks pp b hsh h → HoldsChunks pp b hsh' h' → (∀ i, rsh (P i) = rsh' (P i)) → (∀ i, ssh (P i) = ssh' (P i)) →
        (∀ i, Ash (P i) = Ash' (P i)) → (∀ i, Bsh (P i) = Bsh' (P i)) →
        Couple (fun _ => True) P
          (fun i : Fin (4 * 2 ^ b) => pp.proveC dbg (4 * 2 ^ b) i (Ash i) (Bsh i) (ssh i) (rsh i) M (Wsh i) (Ush i) (axsh i) (hsh i)
            (spoiled (e i) (pp.msmDealt gen t i)) (spoiled (f i) (pp.msmDealt gen u i)))
          (fun i : Fin (4 * 2 ^ b) => pp.proveC dbg (4 * 2 ^ b) i (Ash' i) (Bsh' i) (ssh' i) (rsh' i) M (Wsh i) (Ush i) (axsh' i) (hsh' i)
            (spoiled (e i) (pp.msmDealt gen (t.add δ) i)) (spoiled (f i) (pp.msmDealt gen (u.add ε) i)))
          (fun _ => True) (fun _ => True) := by
  obtain ⟨δ, hδ, h1⟩ := dMsm_chunks_couple_err hpp hgen dbg gen hspan hW hW' he P hinj hlt
  obtain ⟨ε, hε, h2⟩ := dMsm_chunks_couple_err hpp hgen dbg gen hspan hU hU' hf P hinj hlt
  refine ⟨δ, ε, hδ, hε, fun t u M Wsh Ush axsh axsh' hsh hsh' rsh rsh' ssh ssh' Ash Ash' Bsh Bsh' w u' x x' y y' er es eA eB => ?_⟩
  refine Couple.par (h1 t .zero Wsh axsh axsh' w x x') (h2 u .one Ush hsh hsh' u' y y') (fun _ _ => trivial) (fun _ _ => trivial) ?_
  intro o o' v v' _ _ eo _ _ ev
  exact Couple.done (fun p => ssh p • Ash p + rsh p • Bsh p - (rsh p * ssh p) • M + o p + v p)
    (fun p => ssh' p • Ash' p + rsh' p • Bsh' p - (rsh' p * ssh' p) • M + o' p + v' p) trivial trivial
    fun i => by simp only [er, es, eA, eB, eo, ev]

end groups

section servers

variable {G1 G2 : Type} [AddCommGroup G1] [Module F G1] [DecidableEq G1] [FixedWire G1]
  [AddCommGroup G2] [Module F G2] [DecidableEq G2] [FixedWire G2]

theorem dsha256_couple_err {dbg₀ : Bool} {b : Nat} {pp : PSS F} (hpp : PSS.new dbg₀ (2 ^ b) = .ok pp)
    (hgen : (FftField.GENERATOR : F) ^ (4 * 2 ^ b) ≠ 1) (dbg : Bool) (a : Nat)
    (ha : a < 64) {dom dom2 : Domain F} (hdom : Domain.new (2 ^ (a + b)) = some dom)
    (hdom2 : Domain.new (2 ^ (a + b + 1)) = some dom2) (gen1 : G1) (gen2 : G2) (hspan1 : ∀ g : G1, ∃ c : F, c • gen1 = g)
    (hspan2 : ∀ g : G2, ∃ c : F, c • gen2 = g) (xa xb xc xa' xb' xc' : Nat → F)
    {crs : Nat → PackedProvingKeyShare G1 G2} {a0 b0 α1 β1 δ1 : G1} {v0 β2 δ2 : G2}
    (hpub : ∀ p, (crs p).aQuery0 = a0 ∧ (crs p).bG1Query0 = b0 ∧ (crs p).bG2Query0 = v0 ∧ (crs p).deltaG1 = δ1 ∧
        (crs p).deltaG2 = δ2 ∧ (crs p).alphaG1 = α1 ∧ (crs p).betaG1 = β1 ∧ (crs p).betaG2 = β2)
    {S H W U : List G1} {V : List G2} (hS : HoldsChunks pp b (fun p => (crs p).s) S) (hU : HoldsChunks pp b (fun p => (crs p).u) U)
    (hW : HoldsChunks pp b (fun p => (crs p).w) W) (hH : HoldsChunks pp b (fun p => (crs p).h) H)
    (hV : HoldsChunks pp b (fun p => (crs p).v) V) {z z' ax ax' : List F} (hzS : z.length = S.length) (hzS' : z'.length = S.length)
    (hzH : z.length = H.length) (hzV : z.length = V.length) (hax : ax.length = W.length) (hax' : ax'.length = W.length)
    (hUl : U.length = 2 ^ (a + b)) {E : Nat → Errors F G1 G2} (hE : dbg = true → Passes pp b E) (P : Fin (2 ^ b) → Nat) (hinj : Function.Injective P) (hlt : ∀ i, P i < 4 * 2 ^ b) :
    ∃ (δ : Nat → VecTape F) (ε : VecTape F) (ζ : Nat → MsmTape F G1) (η : MsmTape F G2),
      (∀ k < 3, ∀ t i, pp.fftDealt a b true dom2.groupGen dom.groupGenInv (t.add (δ k)) (P i) =
        pp.fftDealt a b true dom2.groupGen dom.groupGenInv t (P i)) ∧
      (∀ k < 3, ∀ t i, pp.fftDealt a b false 1 dom.groupGen (t.add (δ (3 + k))) (P i) =
        pp.fftDealt a b false 1 dom.groupGen t (P i)) ∧
      (∀ t i, pp.degDealt (2 ^ a) (t.add ε) (P i) = pp.degDealt (2 ^ a) t (P i)) ∧
      (∀ k < 4, ∀ t i, pp.msmDealt gen1 (t.add (ζ k)) (P i) = pp.msmDealt gen1 t (P i)) ∧
      (∀ t i, pp.msmDealt gen2 (t.add η) (P i) = pp.msmDealt gen2 t (P i)) ∧
      ∀ (tf : Nat → VecTape F) (td : VecTape F) (tm : Nat → MsmTape F G1) (tn : MsmTape F G2) (rng : Nat → Nat → Nat → F)
        (q q' : Nat → PackedQAPShare F) (masks masks' : Nat → Nat → FftMask F) (zsh zsh' axsh axsh' : Nat → List F)
        (rsh rsh' ssh ssh' : Nat → F) (m1 m1' : Nat → Nat → MsmMask G1),
        SharesProgram pp a b dom q xa xb xc → SharesProgram pp a b dom q' xa' xb' xc' →
        HoldsChunks pp b zsh z → HoldsChunks pp b zsh' z' → HoldsChunks pp b axsh ax → HoldsChunks pp b axsh' ax' →
        CircomSpoiled pp a b dom2.groupGen dom (fun p => (E p).fft) tf masks →
        CircomSpoiled pp a b dom2.groupGen dom (fun p => (E p).fft) (fun k => (tf k).add (δ k)) masks' →
        (∀ p, ∀ k < 4, m1 p k = spoiled ((E p).msm1 k) (pp.msmDealt gen1 (tm k) p)) →
        (∀ p, ∀ k < 4, m1' p k = spoiled ((E p).msm1 k) (pp.msmDealt gen1 ((tm k).add (ζ k)) p)) →
        (∀ i, rsh (P i) = rsh' (P i)) → (∀ i, ssh (P i) = ssh' (P i)) →
        ((∀ p < 4 * 2 ^ b, rsh p ≠ 0) ∨ ∀ p < 4 * 2 ^ b, rsh p = 0) →
        ((∀ p < 4 * 2 ^ b, rsh' p ≠ 0) ∨ ∀ p < 4 * 2 ^ b, rsh' p = 0) →
        Couple (fun _ => True) P
          (fun i : Fin (4 * 2 ^ b) => pp.dsha256 dbg (4 * 2 ^ b) i (crs i) (q i) (zsh i) (axsh i) (rsh i) (ssh i) (masks i)
            (spoilDeg (pp.degDealt (2 ^ a) td i) (E i).degred) (m1 i) (spoiled (E i).msm2 (pp.msmDealt gen2 tn i)) rng)
          (fun i : Fin (4 * 2 ^ b) => pp.dsha256 dbg (4 * 2 ^ b) i (crs i) (q' i) (zsh' i) (axsh' i) (rsh' i) (ssh' i) (masks' i)
            (spoilDeg (pp.degDealt (2 ^ a) (td.add ε) i) (E i).degred) (m1' i) (spoiled (E i).msm2 (pp.msmDealt gen2 (tn.add η) i)) rng)
          (fun _ => True) (fun _ => True) := by
  obtain ⟨δ, ε, y, y', ly, ly', hδ, hδ', hε, hh⟩ := circomH_couple_err hpp hgen dbg a ha hdom hdom2 xa xb xc xa' xb' xc'
    (e := fun p => (E p).fft) (f := fun p => (E p).degred) (fun h => (hE h).fft) (fun h => (hE h).degred) P hinj hlt
  obtain ⟨ζ0, hζ0, hA⟩ := proveA_couple_err hpp hgen dbg gen1 hspan1 hzS hzS' (e := fun p => (E p).msm1 0) (fun h => (hE h).msm1 0) P hinj hlt
  obtain ⟨ζ1, hζ1, hB1⟩ := proveA_couple_err hpp hgen dbg gen1 hspan1 hzH (hzS'.trans (hzS.symm.trans hzH)) (e := fun p => (E p).msm1 1)
    (fun h => (hE h).msm1 1) P hinj hlt
  obtain ⟨η, hη, hB2⟩ := proveA_couple_err hpp hgen dbg gen2 hspan2 hzV (hzS'.trans (hzS.symm.trans hzV)) (e := fun p => (E p).msm2)
    (fun h => (hE h).msm2) P hinj hlt
  obtain ⟨ζ2, ζ3, hζ2, hζ3, hC⟩ := proveC_couple_err hpp hgen dbg gen1 hspan1 hax hax' (ly.trans hUl.symm) (ly'.trans hUl.symm)
    (e := fun p => (E p).msm1 2) (f := fun p => (E p).msm1 3) (fun h => (hE h).msm1 2) (fun h => (hE h).msm1 3) P hinj hlt
  refine ⟨δ, ε, fun k => if k = 0 then ζ0 else if k = 1 then ζ1 else if k = 2 then ζ2 else ζ3, η, hδ, hδ', hε, ?_, hη, ?_⟩
  · intro k hk
    obtain rfl | rfl | rfl | rfl : k = 0 ∨ k = 1 ∨ k = 2 ∨ k = 3 := by omega
    exacts [hζ0, hζ1, hζ2, hζ3]
  intro tf td tm tn rng q q' masks masks' zsh zsh' axsh axsh' rsh rsh' ssh ssh' m1 m1' hq hq' hz hz' hx hx' hm hm' hm1 hm1' er es hr0 hr0'
  have k0 := fun i => hm1 i 0 (by omega)
  have k1 := fun i => hm1 i 1 (by omega)
  have k2 := fun i => hm1 i 2 (by omega)
  have k3 := fun i => hm1 i 3 (by omega)
  have k0' := fun i => hm1' i 0 (by omega)
  have k1' := fun i => hm1' i 1 (by omega)
  have k2' := fun i => hm1' i 2 (by omega)
  have k3' := fun i => hm1' i 3 (by omega)
  simp only [if_true, one_ne_zero, OfNat.ofNat_ne_zero, OfNat.ofNat_ne_one, if_false, Nat.reduceEqDiff] at k0' k1' k2' k3'
  have hB1' : Couple (only .zero) P
      (fun i : Fin (4 * 2 ^ b) => pp.proveBInG1 dbg (4 * 2 ^ b) i b0 δ1 β1 (crs i).h (zsh i) (ssh i) (rsh i)
        (spoiled ((E i).msm1 1) (pp.msmDealt gen1 (tm 1) i)) .zero)
      (fun i : Fin (4 * 2 ^ b) => pp.proveBInG1 dbg (4 * 2 ^ b) i b0 δ1 β1 (crs i).h (zsh' i) (ssh' i) (rsh' i)
        (spoiled ((E i).msm1 1) (pp.msmDealt gen1 ((tm 1).add ζ1) i)) .zero) (fun _ => True) (fun _ => True) := by
    have hp0 : 0 < 2 ^ b := by positivity
    have hone := er ⟨0, hp0⟩
    rcases hr0 with hr0 | hr0 <;> rcases hr0' with hr0' | hr0'
    · exact (hB1 (tm 1) .zero b0 δ1 β1 _ zsh zsh' ssh ssh' hH hz hz' es).congr
        (fun i => proveBInG1_eq_A _ _ _ _ _ _ _ _ _ (hr0 i i.2) _ _) (fun i => proveBInG1_eq_A _ _ _ _ _ _ _ _ _ (hr0' i i.2) _ _)
    · exact absurd (hone.trans (hr0' _ (hlt _))) (hr0 _ (hlt _))
    · exact absurd (hone.symm.trans (hr0 _ (hlt _))) (hr0' _ (hlt _))
    · refine (Couple.done (fun _ => 0) (fun _ => 0) trivial trivial fun _ => rfl).congr (fun i => ?_) fun i => ?_
      · rw [PSS.proveBInG1, if_pos (hr0 i i.2)]
      · rw [PSS.proveBInG1, if_pos (hr0' i i.2)]
  have unfolded : ∀ (q : Nat → PackedQAPShare F) (zsh axsh : Nat → List F) (rsh ssh : Nat → F) (masks : Nat → Nat → FftMask F)
      (dm : Nat → DegRedMask F) (m1 : Nat → Nat → MsmMask G1) (m2 : Nat → MsmMask G2) (i : Fin (4 * 2 ^ b)),
      pp.dsha256 dbg (4 * 2 ^ b) i (crs i) (q i) (zsh i) (axsh i) (rsh i) (ssh i) (masks i) (dm i) (m1 i) (m2 i) rng =
      (pp.circomH dbg (4 * 2 ^ b) i (q i) (masks i) (dm i) rng).bind fun h =>
      (pp.proveA dbg (4 * 2 ^ b) i a0 δ1 α1 (crs i).s (zsh i) (rsh i) (m1 i 0) .zero).bind fun piA =>
      (pp.proveBInG1 dbg (4 * 2 ^ b) i b0 δ1 β1 (crs i).h (zsh i) (ssh i) (rsh i) (m1 i 1) .zero).bind fun piB1 =>
      (pp.proveA dbg (4 * 2 ^ b) i v0 δ2 β2 (crs i).v (zsh i) (ssh i) (m2 i) .zero).bind fun piB2 =>
      (pp.proveC dbg (4 * 2 ^ b) i piA piB1 (ssh i) (rsh i) δ1 (crs i).w (crs i).u (axsh i) h (m1 i 2) (m1 i 3)).bind fun piC =>
      Proc.done (.ok (piA, piB2, piC)) := by
    intro q zsh axsh rsh ssh masks dm m1 m2 i
    obtain ⟨e1, e2, e3, e4, e5, e6, e7, e8⟩ := hpub i
    unfold PSS.dsha256
    rw [e1, e2, e3, e4, e5, e6, e7, e8]
    rfl
  refine Couple.congr ?_ (unfolded q zsh axsh rsh ssh masks (fun p => spoilDeg (pp.degDealt (2 ^ a) td p) (E p).degred) m1
      fun p => spoiled (E p).msm2 (pp.msmDealt gen2 tn p))
    (unfolded q' zsh' axsh' rsh' ssh' masks' (fun p => spoilDeg (pp.degDealt (2 ^ a) (td.add ε) p) (E p).degred) m1'
      fun p => spoiled (E p).msm2 (pp.msmDealt gen2 (tn.add η) p))
  simp only [k0, k1, k2, k3, k0', k1', k2', k3']
  refine Couple.bind (hh tf td rng q q' masks masks' hq hq' hm hm') (fun _ _ => trivial) fun h h' hh hh' _ => ?_
  refine Couple.bind (hA (tm 0) .zero a0 δ1 α1 _ zsh zsh' rsh rsh' hS hz hz' er) (fun _ _ => trivial) fun oA oA' _ _ eA => ?_
  refine Couple.bind hB1' (fun _ _ => trivial) fun oB1 oB1' _ _ eB1 => ?_
  refine Couple.bind (hB2 tn .zero v0 δ2 β2 _ zsh zsh' ssh ssh' hV hz hz' es) (fun _ _ => trivial) fun oB oB' _ _ eB => ?_
  refine Couple.bind (hC (tm 2) (tm 3) δ1 _ _ axsh axsh' h h' rsh rsh' ssh ssh' oA oA' oB1 oB1' hW hU hx hx' hh hh' er es eA eB1)
    (fun _ _ => trivial) fun oC oC' _ _ eC => ?_
  exact Couple.done (fun p => (oA p, oB p, oC p)) (fun p => (oA' p, oB' p, oC' p)) trivial trivial
    fun i => by simp only [eA, eB, eC]

/-! ### C107 -/

theorem spoil_crs (E : Errors F G1 G2) (x : ServerInput F G1 G2) : (E.spoil x).crs = x.crs := rfl

theorem spoil_degred (E : Errors F G1 G2) (x : ServerInput F G1 G2) : (E.spoil x).degredMask = spoilDeg x.degredMask E.degred := rfl

theorem spoil_msm2 (E : Errors F G1 G2) (x : ServerInput F G1 G2) : (E.spoil x).g2Mask = spoiled E.msm2 x.g2Mask := rfl

theorem spoil_fft (E : Errors F G1 G2) (x : ServerInput F G1 G2) {k : Nat} (hk : k < 6) :
    (E.spoil x).fftMask.getD k (FftMask.zero 0) = spoilFft (x.fftMask.getD k (FftMask.zero 0)) (E.fft k) := by
  unfold Errors.spoil
  dsimp only
  rw [List.getD_eq_getElem _ _ (by simpa using hk), List.getElem_map, List.getElem_range]
  rfl

theorem spoil_masks {pp : PSS F} {a b : Nat} {root : F} {dom : Domain F} {t : Nat → VecTape F} {I : Nat → ServerInput F G1 G2}
    {E : Nat → Errors F G1 G2} (h : CircomDealt pp a b root dom t fun p k => (I p).fftMask.getD k (FftMask.zero 0)) :
    CircomSpoiled pp a b root dom (fun p => (E p).fft) t fun p k => ((E p).spoil (I p)).fftMask.getD k (FftMask.zero 0) :=
  ⟨fun p k hk => (spoil_fft _ _ (by omega)).trans (congrArg (spoilFft · _) (h.1 p k hk)),
    fun p k hk => (spoil_fft _ _ (by omega)).trans (congrArg (spoilFft · _) (h.2 p k hk))⟩

theorem spoil_msm1 {pp : PSS F} {gen1 : G1} {t : Nat → MsmTape F G1} {I : Nat → ServerInput F G1 G2}
    {E : Nat → Errors F G1 G2} (h : ∀ p, ∀ k < 4, (I p).g1Mask.getD k MsmMask.zero = pp.msmDealt gen1 (t k) p) :
    ∀ p, ∀ k < 4, ((E p).spoil (I p)).g1Mask.getD k MsmMask.zero = spoiled ((E p).msm1 k) (pp.msmDealt gen1 (t k) p) := by
  intro p k hk
  rw [← h p k hk]
  unfold Errors.spoil
  dsimp only
  rw [List.getD_eq_getElem _ _ (by simpa using hk), List.getElem_map, List.getElem_range]

/-- **C107** What servers see of a session in which any of them send wrong values. For two assignments of the same circuit and any `l` servers, and
whatever values the servers add to the messages they send to the king (in the debug build: values its check does not notice), there are values
such that adding them to everything the client draws turns a session on the first assignment into one on the second in which, whatever the king
draws: every server but the king is sent the same bytes in every round, and the `l` servers are dealt the same inputs and end with the same outputs. -/
theorem C107_session {dbg₀ : Bool} {b : Nat} {pp : PSS F} (hpp : PSS.new dbg₀ (2 ^ b) = .ok pp)
    (hgen : (FftField.GENERATOR : F) ^ (4 * 2 ^ b) ≠ 1) (dbg : Bool) (a : Nat) (ha : a < 64)
    {mats : ConstraintMatrices F} {z z' : List F} {dom dom2 : Domain F} (hcirc : Circuit a b mats z dom dom2)
    (hcirc' : Circuit a b mats z' dom dom2) (hz : z.length = z'.length) (c d : F) (pk : ProvingKey G1 G2)
    (hk : KeyFits z.length mats.numInstanceVariables (2 ^ (a + b)) pk) (hal : dbg = true → KeyAligned (2 ^ b) pk) (gen1 : G1) (gen2 : G2)
    (hspan1 : ∀ g : G1, ∃ c : F, c • gen1 = g) (hspan2 : ∀ g : G2, ∃ c : F, c • gen2 = g)
    (E : Nat → Errors F G1 G2) (hE : dbg = true → Passes pp b E)
    (P : Fin (2 ^ b) → Nat) (hinj : Function.Injective P) (hlt : ∀ i, P i < 4 * 2 ^ b) :
    ∃ δ : ClientTape F G1 G2, ∀ (r s : F) (t : ClientTape F G1 G2) (rng : Nat → Nat → Nat → F), ∃ ins ins' : Nat → ServerInput F G1 G2,
      pp.deal dbg (2 ^ b) mats z pk gen1 gen2 r s t = .ok ((List.range (4 * 2 ^ b)).map ins) ∧
      pp.deal dbg (2 ^ b) mats z' pk gen1 gen2 (r + c) (s + d) (t.add δ) = .ok ((List.range (4 * 2 ^ b)).map ins') ∧
      (∀ i, ins (P i) = ins' (P i)) ∧ (c = 0 → ∀ p, (ins p).r = (ins' p).r) ∧
      (((∀ p < 4 * 2 ^ b, (ins p).r ≠ 0) ∨ ∀ p < 4 * 2 ^ b, (ins p).r = 0) →
        ((∀ p < 4 * 2 ^ b, (ins' p).r ≠ 0) ∨ ∀ p < 4 * 2 ^ b, (ins' p).r = 0) →
        ∃ (outs outs' : Nat → G1 × G2 × G1) (views views' : Fin (4 * 2 ^ b) → Transcript),
          AlwaysYields (Net.init fun i : Fin (4 * 2 ^ b) => (((E i).spoil (ins i)).run pp dbg (4 * 2 ^ b) i rng).recorded)
            (fun i => (outs i, views i)) ∧
          AlwaysYields (Net.init fun i : Fin (4 * 2 ^ b) => (((E i).spoil (ins' i)).run pp dbg (4 * 2 ^ b) i rng).recorded)
            (fun i => (outs' i, views' i)) ∧ (∀ i, i.val ≠ 0 → views i = views' i) ∧
          ∀ i, outs (P i) = outs' (P i)) := by
  have hg := PSS.good_of_new hpp
  have hle := l_eq hpp
  have hb0 : 0 < 2 ^ b := by positivity
  have hin := hcirc.inputs
  have hwi := hcirc.wires
  have hdom' : Domain.new (2 ^ (a + b)) = some dom := hcirc.size ▸ Domain.new_size hcirc.domain
  obtain ⟨q, eq, hd, hni, hnc, la, lb, lc, -⟩ := C29_qap mats z hcirc.domain hcirc.rowsA hcirc.rowsB hcirc.colsA hcirc.colsB hcirc.wires
  obtain ⟨q', eq', hd', hni', hnc', la', lb', lc', -⟩ :=
    C29_qap mats z' hcirc'.domain hcirc'.rowsA hcirc'.rowsB hcirc'.colsA hcirc'.colsB hcirc'.wires
  rw [hcirc.size] at la lb lc la' lb' lc'
  have hcons : ∀ {T : Type} {v : List T}, v.length = z.length → ∃ x xs, v = x :: xs ∧ xs.length = z.length - 1 := by
    intro T v h
    cases v with
    | nil => simp at h; omega
    | cons x xs => exact ⟨x, xs, rfl, by simp at h; omega⟩
  obtain ⟨a0, as, hqa, las⟩ := hcons hk.aQuery
  obtain ⟨b0, bs, hqb, lbs⟩ := hcons hk.bG1Query
  obtain ⟨v0, vs, hqv, lvs⟩ := hcons hk.bG2Query
  obtain ⟨crs, ec, hpub, hS, hU, hW, hH, hV⟩ := C33_pack_key hpp dbg pk hal hqa hqb hqv
  -- the tapes of the masks
  obtain ⟨δf, δd, δm, δn, ef, ef', ed, em, en, hrun⟩ := dsha256_couple_err hpp hgen dbg a ha hdom' hcirc.double gen1 gen2 hspan1 hspan2
    (fun i => q.a.getD i 0) (fun i => q.b.getD i 0) (fun i => q.c.getD i 0) (fun i => q'.a.getD i 0) (fun i => q'.b.getD i 0)
    (fun i => q'.c.getD i 0) hpub hS hU hW hH hV (z := z.drop 1) (z' := z'.drop 1) (ax := z.drop mats.numInstanceVariables)
    (ax' := z'.drop mats.numInstanceVariables) (by simp [las]) (by simp [las, hz]) (by simp [lbs]) (by simp [lvs])
    (by simp [hk.lQuery]) (by simp [hk.lQuery, hz]) hk.hQuery hE P hinj hlt
  -- the tapes of the shares
  have key : ∀ {N : Nat} {sec sec' : Nat → List F}, (∀ c < N, (sec c).length = 2 ^ b) → (∀ c < N, (sec' c).length = 2 ^ b) → _ :=
    fun {N sec sec'} h h' => PSS.freshVec_shift hg hle (by rwa [offset_eq hpp]) (N := N) (sec := sec) (sec' := sec') h h' P hinj hlt
  have lq : ∀ (v : List F), ∀ c < 2 ^ a, (qapSecrets a b v c).length = 2 ^ b := fun v c _ => by simp [qapSecrets]
  have lw : ∀ (N : Nat) (v : List F), ∀ c < N, (chunks (2 ^ b) (fun i => v.getD i 0) c).length = 2 ^ b := fun N v c _ => by
    simp [chunks]
  have one : ∀ c : F, ∃ d : Nat → F, (c = 0 → d = 0) ∧ ∀ (x : F) (rng : Nat → F) (i : Fin (2 ^ b)),
      (pp.freshVec 1 (fun _ => List.replicate (2 ^ b) (x + c)) (fun _ j => rng j + d j) (P i)).getD 0 0 =
        (pp.freshVec 1 (fun _ => List.replicate (2 ^ b) x) (fun _ => rng) (P i)).getD 0 0 := by
    intro c
    by_cases hc : c = 0
    · subst hc
      exact ⟨0, fun _ => rfl, fun x rng i => by simp⟩
    · obtain ⟨d, hd⟩ := PSS.freshVec_shift_add hg hle (by rwa [offset_eq hpp]) (N := 1) (D := fun _ => List.replicate (2 ^ b) c)
        (fun c _ => by simp) P hinj hlt
      refine ⟨d 0, fun h => absurd h hc, fun x rng i => ?_⟩
      have hp : P i < 4 * pp.l := by rw [hle]; exact hlt i
      rw [← hd (fun _ => List.replicate (2 ^ b) x) (fun _ => List.replicate (2 ^ b) (x + c)) (fun _ => rng) i (fun c _ => by simp)
        (fun _ _ => by simp), PSS.freshVec_getD hg _ _ _ hp one_pos, PSS.freshVec_getD hg _ _ _ hp one_pos]
  obtain ⟨dr, hdr0, hdr⟩ := one c
  obtain ⟨ds, -, hds⟩ := one d
  obtain ⟨dA, hdA⟩ := key (lq q.a) (lq q'.a)
  obtain ⟨dB, hdB⟩ := key (lq q.b) (lq q'.b)
  obtain ⟨dC, hdC⟩ := key (lq q.c) (lq q'.c)
  have nx : numChunks (z'.drop mats.numInstanceVariables) (2 ^ b) = numChunks (z.drop mats.numInstanceVariables) (2 ^ b) := by
    simp [numChunks, hz]
  have n1 : numChunks (z'.drop 1) (2 ^ b) = numChunks (z.drop 1) (2 ^ b) := by simp [numChunks, hz]
  obtain ⟨dx, hdx⟩ := key (lw (numChunks (z.drop mats.numInstanceVariables) (2 ^ b)) (z.drop mats.numInstanceVariables))
    (lw _ (z'.drop mats.numInstanceVariables))
  obtain ⟨da, hda⟩ := key (lw (numChunks (z.drop 1) (2 ^ b)) (z.drop 1)) (lw _ (z'.drop 1))
  refine ⟨⟨dr, ds, dA, dB, dC, da, dx, δf, δd, δm, δn⟩, fun r s t rng => ⟨_, _,
    deal_dealt hpp dbg a hcirc eq hd la lb lc ec gen1 gen2 r s t, deal_dealt hpp dbg a hcirc' eq' hd' la' lb' lc' ec gen1 gen2 (r + c) (s + d) _,
    ?_, ?_, ?_⟩⟩
  · intro i
    unfold dealtInput ClientTape.add
    dsimp only
    rw [hdA, hdB, hdC, n1, nx, hda, hdx, hdr, hds, hd, hd', hni, hni', hnc, hnc', ed, en, em 0 (by omega), em 1 (by omega),
      em 2 (by omega), em 3 (by omega), ef 0 (by omega), ef 1 (by omega), ef 2 (by omega), ef' 0 (by omega), ef' 1 (by omega),
      ef' 2 (by omega)]
  · intro h p
    have : (fun i => t.r i + dr i) = t.r := by rw [hdr0 h]; funext i; simp
    unfold dealtInput ClientTape.add
    dsimp only
    rw [this, h, add_zero]
  · have f := dealt_facts hpp a mats.numInstanceVariables q z dom2.groupGen dom hd crs gen1 gen2 r s t
    have f' := dealt_facts hpp a mats.numInstanceVariables q' z' dom2.groupGen dom hd' crs gen1 gen2 (r + c) (s + d)
      (t.add ⟨dr, ds, dA, dB, dC, da, dx, δf, δd, δm, δn⟩)
    have hr : ∀ i, (dealtInput pp a b mats.numInstanceVariables q z dom2.groupGen dom crs gen1 gen2 r s t (P i)).r =
      (dealtInput pp a b mats.numInstanceVariables q' z' dom2.groupGen dom crs gen1 gen2 (r + c) (s + d)
        (t.add ⟨dr, ds, dA, dB, dC, da, dx, δf, δd, δm, δn⟩) (P i)).r := fun i => (hdr r t.r i).symm
    have hs : ∀ i, (dealtInput pp a b mats.numInstanceVariables q z dom2.groupGen dom crs gen1 gen2 r s t (P i)).s =
      (dealtInput pp a b mats.numInstanceVariables q' z' dom2.groupGen dom crs gen1 gen2 (r + c) (s + d)
        (t.add ⟨dr, ds, dA, dB, dC, da, dx, δf, δd, δm, δn⟩) (P i)).s := fun i => (hds s t.s i).symm
    generalize dealtInput pp a b mats.numInstanceVariables q z dom2.groupGen dom crs gen1 gen2 r s t = I at f hr hs ⊢
    generalize dealtInput pp a b mats.numInstanceVariables q' z' dom2.groupGen dom crs gen1 gen2 (r + c) (s + d)
        (t.add ⟨dr, ds, dA, dB, dC, da, dx, δf, δd, δm, δn⟩) = I' at f' hr hs ⊢
    intro hr0 hr0'
    have hc := hrun t.fft t.degred t.msm1 t.msm2 rng (fun p => (I p).q) (fun p => (I' p).q)
      (fun p k => ((E p).spoil (I p)).fftMask.getD k (FftMask.zero 0)) (fun p k => ((E p).spoil (I' p)).fftMask.getD k (FftMask.zero 0))
      (fun p => (I p).a) (fun p => (I' p).a) (fun p => (I p).ax) (fun p => (I' p).ax) (fun p => (I p).r) (fun p => (I' p).r)
      (fun p => (I p).s) (fun p => (I' p).s) (fun p k => ((E p).spoil (I p)).g1Mask.getD k MsmMask.zero)
      (fun p k => ((E p).spoil (I' p)).g1Mask.getD k MsmMask.zero) f.program f'.program f.shA f'.shA f.shAx f'.shAx (spoil_masks f.masks)
      (spoil_masks f'.masks) (spoil_msm1 f.msm1) (spoil_msm1 f'.msm1)
      hr hs hr0 hr0'
    obtain ⟨outs, outs', views, views', h1, h2, hv, -, -, h3⟩ := hc
    refine ⟨outs, outs', views, views', RunsV.alwaysYields (P := All) (S := fun _ => True) (h1.congr (fun i => ?_) (fun _ => rfl) fun _ => rfl)
      fun i => dsha256_wf _ (by positivity) _ _ _ _ _ _ _ _ _ _ _ _, RunsV.alwaysYields (P := All) (S := fun _ => True)
      (h2.congr (fun i => ?_) (fun _ => rfl) fun _ => rfl) fun i => dsha256_wf _ (by positivity) _ _ _ _ _ _ _ _ _ _ _ _, hv, h3⟩
    · rw [ServerInput.run, spoil_crs, f.crs, spoil_degred, f.degred, spoil_msm2, f.msm2]
      rfl
    · rw [ServerInput.run, spoil_crs, f'.crs, spoil_degred, f'.degred, spoil_msm2, f'.msm2]
      rfl

omit [DecidableEq G1] [FixedWire G1] [DecidableEq G2] [FixedWire G2] [FftField F] [DecidableEq F] [FixedWire F] in
/-- **C107** Without errors nothing changes. -/
theorem C107_honest (E : Errors F G1 G2) (hf : ∀ k c, E.fft k c = 0) (hd : ∀ c, E.degred c = 0) (h1 : ∀ k, E.msm1 k = 0) (h2 : E.msm2 = 0)
    (x : ServerInput F G1 G2) (hx : x.fftMask.length = 6) (hx1 : x.g1Mask.length = 4) : E.spoil x = x := by
  have add0 : ∀ (v : List F) (e : Nat → F), (∀ c, e c = 0) → addErr v e = v := by
    intro v e he
    apply list_ext_getD 0 (by simp [addErr])
    intro c hc
    rw [addErr, getD_map_range, if_pos (by simpa [addErr] using hc), he, add_zero]
  have e1 : ((List.range 6).map fun k => (⟨addErr (x.fftMask.getD k (FftMask.zero 0)).inMask (E.fft k), (x.fftMask.getD k (FftMask.zero 0)).outMask⟩ :
      FftMask F)) = x.fftMask := by
    refine List.ext_getElem (by simp [hx]) fun k hk hk' => ?_
    rw [List.getElem_map, List.getElem_range, List.getD_eq_getElem _ _ hk', add0 _ _ (hf k)]
  have e2 : ((List.range 4).map fun k => spoiled (E.msm1 k) (x.g1Mask.getD k MsmMask.zero)) = x.g1Mask := by
    refine List.ext_getElem (by simp [hx1]) fun k hk hk' => ?_
    rw [List.getElem_map, List.getElem_range, List.getD_eq_getElem _ _ hk', h1, spoiled, add_zero]
  unfold Errors.spoil
  dsimp only
  rw [e1, e2, add0 _ _ hd, h2, spoiled, add_zero]

/-- **C107** The code run on a spoiled mask sends the message of `d_msm` with the error added and goes on as it otherwise does. -/
theorem C107_d_msm_message {G : Type} [AddCommGroup G] [Module F G] [DecidableEq G] [FixedWire G] (pp : PSS F) (dbg : Bool) (n me : Nat)
    (bases : List G) (scalars : List F) (hlen : bases.length = scalars.length) {c : G} (hc : msm bases scalars = .ok c) (m : MsmMask G) (e : G) (sid : Sid) :
    ∃ rest : Option (ReceivedShares G) → Proc G,
      pp.dMsm dbg n me bases scalars m sid = (clientSendOrKingReceiveSer n me (c + m.inMask) sid pp.t).bind rest ∧
      pp.dMsm dbg n me bases scalars (spoiled e m) sid = (clientSendOrKingReceiveSer n me (c + m.inMask + e) sid pp.t).bind rest := by
  unfold PSS.dMsm
  rw [debugAssert_of (by simp [hlen]), hc, add_assoc]
  exact ⟨_, rfl, rfl⟩

/-- **C107** The same for the transforms. -/
theorem C107_fft_message (pp : PSS F) (dbg : Bool) (n me : Nat) (px : List F) (m : FftMask F) (hlen : px.length = m.inMask.length) (e : Nat → F)
    (rearrange : Bool) (g gen : F) (sid : Sid) (rng : Nat → Nat → F) :
    ∃ rest : Option (ReceivedShares (List F)) → Proc (List F),
      pp.fft2WithRearrange dbg n me px m rearrange g gen sid rng = (clientSendOrKingReceiveSer n me (addMask px m.inMask) sid pp.t).bind rest ∧
      pp.fft2WithRearrange dbg n me px ⟨addErr m.inMask e, m.outMask⟩ rearrange g gen sid rng =
        (clientSendOrKingReceiveSer n me (addErr (addMask px m.inMask) e) sid pp.t).bind rest := by
  unfold PSS.fft2WithRearrange
  dsimp only
  rw [addMask_addErr hlen, addErr_length]
  exact ⟨_, rfl, rfl⟩

/-- **C107** The same for the degree reduction. -/
theorem C107_deg_red_message (pp : PSS F) (dbg : Bool) (n me : Nat) (x : List F) (m : DegRedMask F) (hlen : x.length = m.inMask.length)
    (hlen' : x.length = m.outMask.length) (e : Nat → F) (sid : Sid) (rng : Nat → Nat → F) :
    ∃ rest : Option (ReceivedShares (List F)) → Proc (List F),
      pp.degRed dbg n me x m sid rng = (clientSendOrKingReceiveSer n me (addMask x m.inMask) sid pp.t).bind rest ∧
      pp.degRed dbg n me x ⟨addErr m.inMask e, m.outMask⟩ sid rng =
        (clientSendOrKingReceiveSer n me (addErr (addMask x m.inMask) e) sid pp.t).bind rest := by
  unfold PSS.degRed
  dsimp only
  rw [debugAssert_of (by simp [hlen]), debugAssert_of (by simp [hlen']), debugAssert_of (by simp [hlen, addErr_length]), addMask_addErr hlen]
  exact ⟨_, rfl, rfl⟩

/-- **C107** Servers who choose what to send by what they have. Let `σ` say which errors the servers make when the `l` servers `P`, none of them the
king, have `v` of a session. For every `v` there are values such that, if the shares of `r` are all zero or all not zero, the servers `P` have `v`
of a session on the first assignment if and only if they have it of the session on the second in which these values are added to
everything the client draws: `v` is as likely with one assignment as with the other. The values leave the shares of `r` as they are. -/
theorem C107_adaptive {dbg₀ : Bool} {b : Nat} {pp : PSS F} (hpp : PSS.new dbg₀ (2 ^ b) = .ok pp)
    (hgen : (FftField.GENERATOR : F) ^ (4 * 2 ^ b) ≠ 1) (dbg : Bool) (a : Nat) (ha : a < 64)
    {mats : ConstraintMatrices F} {z z' : List F} {dom dom2 : Domain F} (hcirc : Circuit a b mats z dom dom2)
    (hcirc' : Circuit a b mats z' dom dom2) (hz : z.length = z'.length) (pk : ProvingKey G1 G2)
    (hk : KeyFits z.length mats.numInstanceVariables (2 ^ (a + b)) pk) (hal : dbg = true → KeyAligned (2 ^ b) pk) (gen1 : G1) (gen2 : G2)
    (hspan1 : ∀ g : G1, ∃ c : F, c • gen1 = g) (hspan2 : ∀ g : G2, ∃ c : F, c • gen2 = g)
    (P : Fin (2 ^ b) → Nat) (hinj : Function.Injective P) (hlt : ∀ i, P i < 4 * 2 ^ b) (hking : ∀ i, P i ≠ 0)
    (σ : Holding F G1 G2 (2 ^ b) → Nat → Errors F G1 G2) (hσ : dbg = true → ∀ v, Passes pp b (σ v)) (v : Holding F G1 G2 (2 ^ b)) :
    ∃ δ : ClientTape F G1 G2, ∀ (r s : F) (t : ClientTape F G1 G2) (rng : Nat → Nat → Nat → F),
      pp.pack dbg (List.replicate (2 ^ b) r) (t.add δ).r = pp.pack dbg (List.replicate (2 ^ b) r) t.r ∧
      ((∀ rs, pp.pack dbg (List.replicate (2 ^ b) r) t.r = .ok rs → (∀ x ∈ rs, x ≠ 0) ∨ ∀ x ∈ rs, x = 0) →
      (ShowsWith pp dbg b mats z pk gen1 gen2 rng P (σ v) r s t v ↔ ShowsWith pp dbg b mats z' pk gen1 gen2 rng P (σ v) r s (t.add δ) v)) := by
  obtain ⟨δ, hδ⟩ := C107_session hpp hgen dbg a ha hcirc hcirc' hz 0 0 pk hk hal gen1 gen2 hspan1 hspan2 (σ v) (fun h => hσ h v) P hinj hlt
  refine ⟨δ, fun r s t rng => ?_⟩
  obtain ⟨ins, ins', e, e', hP, hrr, hrun⟩ := hδ r s t rng
  have hm : ∀ {w : List F} {r s : F} {u : ClientTape F G1 G2} {I : Nat → ServerInput F G1 G2},
      pp.deal dbg (2 ^ b) mats w pk gen1 gen2 r s u = .ok ((List.range (4 * 2 ^ b)).map I) → ∀ p < 4 * 2 ^ b,
      (I p).r = (pp.freshVec 1 (fun _ => List.replicate (2 ^ b) r) (fun _ => u.r) p).getD 0 0 := by
    intro w r s u I e p hp'
    obtain ⟨-, -, -, h, -⟩ := deal_parts (e ▸ partOf_range I hp')
    rw [pack_fresh hpp dbg r u.r, partOf_range _ hp'] at h
    exact (Option.some.inj h).symm
  constructor
  · rw [pack_fresh hpp, pack_fresh hpp]
    refine congrArg _ (List.map_congr_left fun p hp => ?_)
    have hp := List.mem_range.1 hp
    rw [← hm e p hp, hrr rfl p, hm e' p hp, add_zero]
  intro hr
  have hr0 : (∀ p < 4 * 2 ^ b, (ins p).r ≠ 0) ∨ ∀ p < 4 * 2 ^ b, (ins p).r = 0 := by
    have hp := pack_fresh hpp dbg r t.r
    rcases hr _ hp with h | h
    · exact .inl fun p hp' => by rw [hm e p hp']; exact h _ (List.mem_map.2 ⟨p, List.mem_range.2 hp', rfl⟩)
    · exact .inr fun p hp' => by rw [hm e p hp']; exact h _ (List.mem_map.2 ⟨p, List.mem_range.2 hp', rfl⟩)
  have hr0' : (∀ p < 4 * 2 ^ b, (ins' p).r ≠ 0) ∨ ∀ p < 4 * 2 ^ b, (ins' p).r = 0 := by simpa only [hrr rfl] using hr0
  obtain ⟨outs, outs', views, views', k1, k2, hv, ho⟩ := hrun hr0 hr0'
  simp only [add_zero] at e'
  have key : ∀ {w : List F} {u : ClientTape F G1 G2} {I : Nat → ServerInput F G1 G2} {O : Nat → G1 × G2 × G1} {V : Fin (4 * 2 ^ b) → Transcript},
      pp.deal dbg (2 ^ b) mats w pk gen1 gen2 r s u = .ok ((List.range (4 * 2 ^ b)).map I) →
      AlwaysYields (Net.init fun i : Fin (4 * 2 ^ b) => ((((σ v) i).spoil (I i)).run pp dbg (4 * 2 ^ b) i rng).recorded) (fun i => (O i, V i)) →
      (ShowsWith pp dbg b mats w pk gen1 gen2 rng P (σ v) r s u v ↔
        (∀ i, v.dealt i = I (P i)) ∧ (∀ i, v.sent i = V ⟨P i, hlt i⟩) ∧ ∀ i, v.answers i = O (P i)) := by
    intro w u I O V hd hy
    constructor
    · rintro ⟨I', O', V', hd', hy', q1, q2, q3⟩
      have hI : ∀ p < 4 * 2 ^ b, I' p = I p := fun p hp => List.map_inj_left.1 (Except.ok.inj (hd'.symm.trans hd)) p (List.mem_range.2 hp)
      have hy'' : AlwaysYields (Net.init fun i : Fin (4 * 2 ^ b) => ((((σ v) i).spoil (I i)).run pp dbg (4 * 2 ^ b) i rng).recorded)
          (fun i => (O' i, V' i)) := by
        refine cast ?_ hy'
        congr 2
        funext i
        rw [hI i i.2]
      have hu := AlwaysYields.unique hy'' hy
      refine ⟨fun i => (q1 i).trans (hI _ (hlt i)), fun i => (q2 i).trans ?_, fun i => (q3 i).trans ?_⟩
      · exact (Prod.mk.inj (congrFun hu ⟨P i, hlt i⟩)).2
      · exact (Prod.mk.inj (congrFun hu ⟨P i, hlt i⟩)).1
    · rintro ⟨q1, q2, q3⟩
      refine ⟨I, O, fun p => if h : p < 4 * 2 ^ b then V ⟨p, h⟩ else [], hd, ?_, q1, fun i => ?_, q3⟩
      · refine cast ?_ hy
        congr 1
        funext i
        dsimp only
        rw [dif_pos i.2]
      · dsimp only
        rw [dif_pos (hlt i)]
        exact q2 i
  rw [key e k1, key e' k2]
  constructor
  · rintro ⟨q1, q2, q3⟩
    exact ⟨fun i => (q1 i).trans (hP i), fun i => (q2 i).trans (hv _ (hking i)), fun i => (q3 i).trans (ho i)⟩
  · rintro ⟨q1, q2, q3⟩
    exact ⟨fun i => (q1 i).trans (hP i).symm, fun i => (q2 i).trans (hv _ (hking i)).symm, fun i => (q3 i).trans (ho i).symm⟩

end servers

/-! ### Examples -/

/-- The factors of the servers 2 and 5 with which the check of the debug build does not notice errors. -/
def cancel17 (p : Nat) : ZMod 17 := if p = 2 then pp17.share.groupGen ^ 5 else if p = 5 then -pp17.share.groupGen ^ 2 else 0

theorem cancel17_sum : ∑ p ∈ range (4 * 2 ^ 1), pp17.share.groupGen ^ p * cancel17 p = 0 := by decide +kernel

/-- Errors of the servers 2 and 5 in every message to the king. -/
def errors17 (p : Nat) : Errors (ZMod 17) (ZMod 17) (ZMod 17) :=
  ⟨fun k c => cancel17 p * (k + c + 1), fun c => cancel17 p * (c + 1), fun k => cancel17 p * (k + 3), cancel17 p * 2⟩

theorem passes17 : Passes pp17 1 errors17 where
  fft k c := by simp only [errors17, smul_eq_mul, ← mul_assoc, ← sum_mul, cancel17_sum, zero_mul]
  degred c := by simp only [errors17, smul_eq_mul, ← mul_assoc, ← sum_mul, cancel17_sum, zero_mul]
  msm1 k := by simp only [errors17, smul_eq_mul, ← mul_assoc, ← sum_mul, cancel17_sum, zero_mul]
  msm2 := by simp only [errors17, smul_eq_mul, ← mul_assoc, ← sum_mul, cancel17_sum, zero_mul]

theorem circuit17e' : Circuit 1 1 mats17e [1, 12, 5, 4, 3] dom17 dom17b := { circuit17e with wires := by decide }

/-- C107: servers 2 and 5 of a debug build, wrong in every message, see the same of the proofs of `3 · 4 = 12` and of `4 · 3 = 12`. -/
example (t : ClientTape (ZMod 17) (ZMod 17) (ZMod 17)) (ht : t.r = fun _ => 5) : ∃ (pk : ProvingKey (ZMod 17) (ZMod 17))
    (t' : ClientTape (ZMod 17) (ZMod 17) (ZMod 17)) (ins ins' : Nat → ServerInput (ZMod 17) (ZMod 17) (ZMod 17))
    (outs outs' : Nat → ZMod 17 × ZMod 17 × ZMod 17) (views views' : Fin (4 * 2 ^ 1) → Transcript),
    pp17.deal true (2 ^ 1) mats17e z17e pk 1 1 5 6 t = .ok ((List.range (4 * 2 ^ 1)).map ins) ∧
    pp17.deal true (2 ^ 1) mats17e [1, 12, 5, 4, 3] pk 1 1 5 6 t' = .ok ((List.range (4 * 2 ^ 1)).map ins') ∧
    AlwaysYields (Net.init fun i : Fin (4 * 2 ^ 1) => (((errors17 i).spoil (ins i)).run pp17 true (4 * 2 ^ 1) i fun _ i j => i + j).recorded)
      (fun i => (outs i, views i)) ∧
    AlwaysYields (Net.init fun i : Fin (4 * 2 ^ 1) => (((errors17 i).spoil (ins' i)).run pp17 true (4 * 2 ^ 1) i fun _ i j => i + j).recorded)
      (fun i => (outs' i, views' i)) ∧ views 2 = views' 2 ∧ views 5 = views' 5 ∧ ins 2 = ins' 2 ∧ ins 5 = ins' 5 ∧ outs 2 = outs' 2 ∧
    outs 5 = outs' 5 := by
  obtain ⟨pa, pb, pc, pk, h1, h2⟩ := C35_key_exists circuit17e (⟨2, 3, 4, 5, 6⟩ : Toxic (ZMod 17)) (1 : ZMod 17) (1 : ZMod 17)
  have hal : KeyAligned (2 ^ 1) pk := by
    unfold KeyAligned
    rw [h2.aQuery, h2.hQuery, h2.lQuery, h2.bG1Query, h2.bG2Query]
    simp only [List.length_map, List.length_range]
    decide
  obtain ⟨δ, hδ⟩ := C107_session (pp17_eq true) gen17 true 1 (by norm_num) circuit17e circuit17e' rfl 0 0 pk (KeyFits.of_key h2) (fun _ => hal) 1 1
    (fun g => ⟨g, by simp⟩) (fun g => ⟨g, by simp⟩) errors17 (fun _ => passes17) (fun i : Fin (2 ^ 1) => if i = 0 then 2 else 5) (by decide) (by decide)
  obtain ⟨ins, ins', e, e', hP, hr, hrun⟩ := hδ 5 6 t fun _ i j => i + j
  have hr0 : ∀ p < 4 * 2 ^ 1, (ins p).r ≠ 0 := by
    intro p hp
    obtain ⟨-, -, -, h, -⟩ := deal_parts (e ▸ partOf_range ins hp)
    rw [ht] at h
    intro h0
    rw [h0] at h
    revert h
    have : ∀ p < 8, partOf (pp17.pack true (List.replicate (2 ^ 1) (5 : ZMod 17)) fun _ => 5) p ≠ some 0 := by decide +kernel
    exact this p hp
  obtain ⟨outs, outs', views, views', k1, k2, hv, k3⟩ := hrun (.inl hr0) (.inl fun p hp => hr rfl p ▸ hr0 p hp)
  exact ⟨pk, t.add δ, ins, ins', outs, outs', views, views', e, e', k1, k2, hv 2 (by decide), hv 5 (by decide), hP 0, hP 1, k3 0, k3 1⟩

/-- C107: servers 3 and 6 of a release build who add their outputs and what they were dealt to what they send. -/
example (v : Holding (ZMod 17) (ZMod 17) (ZMod 17) (2 ^ 1)) (t : ClientTape (ZMod 17) (ZMod 17) (ZMod 17)) (ht : t.r = fun _ => 5) :
    ∃ (pk : ProvingKey (ZMod 17) (ZMod 17)) (t' : ClientTape (ZMod 17) (ZMod 17) (ZMod 17)),
      let E : Nat → Errors (ZMod 17) (ZMod 17) (ZMod 17) := fun p => if p = 3 ∨ p = 6 then
        ⟨fun _ c => (v.dealt 0).a.getD c 0, fun c => (v.dealt 1).ax.getD c 0, fun _ => (v.answers 0).1, (v.answers 1).2.1⟩ else ⟨0, 0, 0, 0⟩
      (ShowsWith pp17 false 1 mats17 z17 pk 1 1 (fun _ i j => i + j) pair17 E 5 6 t v ↔
        ShowsWith pp17 false 1 mats17 [1, 9, 14] pk 1 1 (fun _ i j => i + j) pair17 E 5 6 t' v) := by
  obtain ⟨pa, pb, pc, pk, h1, h2⟩ := C35_key_exists circuit17 (⟨2, 3, 4, 5, 6⟩ : Toxic (ZMod 17)) (1 : ZMod 17) (1 : ZMod 17)
  obtain ⟨δ, hδ⟩ := C107_adaptive (pp17_eq true) gen17 false 1 (by norm_num) circuit17 circuit17' rfl pk (KeyFits.of_key h2) (by simp) 1 1
    (fun g => ⟨g, by simp⟩) (fun g => ⟨g, by simp⟩) pair17 pair17_inj pair17_lt (by decide) (fun v p => if p = 3 ∨ p = 6 then
        ⟨fun _ c => (v.dealt 0).a.getD c 0, fun c => (v.dealt 1).ax.getD c 0, fun _ => (v.answers 0).1, (v.answers 1).2.1⟩ else ⟨0, 0, 0, 0⟩) (by simp) v
  exact ⟨pk, t.add δ, (hδ 5 6 t _).2 (example_tape ht false)⟩

/-- C107: the message `3 · 1 + 5 · 4 + 2` of `d_msm` becomes that plus 6, and the messages of the other two rounds change likewise. -/
example : ∃ rest : Option (ReceivedShares (ZMod 17)) → Proc (ZMod 17),
    pp17.dMsm true 8 3 [1, 4] [3, 5] (⟨2, 9⟩ : MsmMask (ZMod 17)) .zero = (clientSendOrKingReceiveSer 8 3 (8 : ZMod 17) .zero pp17.t).bind rest ∧
    pp17.dMsm true 8 3 [1, 4] [3, 5] (⟨8, 9⟩ : MsmMask (ZMod 17)) .zero = (clientSendOrKingReceiveSer 8 3 (14 : ZMod 17) .zero pp17.t).bind rest := by
  obtain ⟨rest, h1, h2⟩ := C107_d_msm_message pp17 true 8 3 ([1, 4] : List (ZMod 17)) [3, 5] rfl (c := 6) (by decide +kernel) ⟨2, 9⟩ 6 .zero
  exact ⟨rest, h1.trans (by congr 1), h2.trans (by congr 1)⟩

example (rng : Nat → Nat → ZMod 17) : ∃ rest : Option (ReceivedShares (List (ZMod 17))) → Proc (List (ZMod 17)),
    pp17.fft2WithRearrange true 8 3 [1, 4] ⟨[5, 6], [7, 8]⟩ true 2 4 .one rng = (clientSendOrKingReceiveSer 8 3 [6, 10] .one pp17.t).bind rest ∧
    pp17.fft2WithRearrange true 8 3 [1, 4] ⟨[5, 7], [7, 8]⟩ true 2 4 .one rng = (clientSendOrKingReceiveSer 8 3 [6, 11] .one pp17.t).bind rest :=
  C107_fft_message pp17 true 8 3 [1, 4] ⟨[5, 6], [7, 8]⟩ rfl (fun c => c) true 2 4 .one rng

example (rng : Nat → Nat → ZMod 17) : ∃ rest : Option (ReceivedShares (List (ZMod 17))) → Proc (List (ZMod 17)),
    pp17.degRed true 8 3 [1, 4] ⟨[5, 6], [7, 8]⟩ .one rng = (clientSendOrKingReceiveSer 8 3 [6, 10] .one pp17.t).bind rest ∧
    pp17.degRed true 8 3 [1, 4] ⟨[5, 7], [7, 8]⟩ .one rng = (clientSendOrKingReceiveSer 8 3 [6, 11] .one pp17.t).bind rest :=
  C107_deg_red_message pp17 true 8 3 [1, 4] ⟨[5, 6], [7, 8]⟩ rfl rfl (fun c => c) .one rng

/-- C107: what a client deals is not changed by adding zeros. -/
example (t : ClientTape (ZMod 17) (ZMod 17) (ZMod 17)) : ∃ (pk : ProvingKey (ZMod 17) (ZMod 17))
    (ins : Nat → ServerInput (ZMod 17) (ZMod 17) (ZMod 17)), pp17.deal false (2 ^ 1) mats17 z17 pk 1 1 5 6 t = .ok ((List.range (4 * 2 ^ 1)).map ins) ∧
      ∀ p < 4 * 2 ^ 1, (⟨fun _ _ => 0, fun _ => 0, fun _ => 0, 0⟩ : Errors (ZMod 17) (ZMod 17) (ZMod 17)).spoil (ins p) = ins p := by
  obtain ⟨pa, pb, pc, pk, h1, h2⟩ := C35_key_exists circuit17 (⟨2, 3, 4, 5, 6⟩ : Toxic (ZMod 17)) (1 : ZMod 17) (1 : ZMod 17)
  obtain ⟨q, eq, hd, hni, hnc, la, lb, lc, -⟩ := C29_qap mats17 z17 circuit17.domain circuit17.rowsA circuit17.rowsB circuit17.colsA circuit17.colsB
    circuit17.wires
  have hk := KeyFits.of_key h2
  have hcons : ∀ {v : List (ZMod 17)}, v.length = z17.length → ∃ x xs, v = x :: xs := by
    intro v h
    cases v with
    | nil => simp [z17] at h
    | cons x xs => exact ⟨x, xs, rfl⟩
  obtain ⟨a0, as, hqa⟩ := hcons hk.aQuery
  obtain ⟨b0, bs, hqb⟩ := hcons hk.bG1Query
  obtain ⟨v0, vs, hqv⟩ := hcons hk.bG2Query
  obtain ⟨crs, ec, -⟩ := C33_pack_key (pp17_eq true) false pk (by simp) hqa hqb hqv
  exact ⟨pk, _, deal_dealt (pp17_eq true) false 1 circuit17 eq hd la lb lc ec 1 1 5 6 t, fun p _ =>
    C107_honest _ (fun _ _ => rfl) (fun _ => rfl) (fun _ => rfl) rfl _ rfl rfl⟩

end ZkSaas.Properties
