import Verif.Lemmas.Fresh
import Verif.Lemmas.Recorded
import Verif.Model.Example

/-! Two runs of the protocols with different secrets that look the same to `l` parties. -/

set_option linter.unusedSectionVars false

namespace ZkSaas

open Finset Spec

variable {F : Type} [Field F] [DecidableEq F] {T : Type} [AddCommGroup T] [Module F T] [DecidableEq T]

/-! ### Fresh shares -/

theorem PSS.freshVec_congr {pp : PSS F} {N : Nat} {sec sec' : Nat → List T} (h : ∀ c < N, sec c = sec' c) (rng : Nat → Nat → T)
    (p : Nat) : pp.freshVec N sec rng p = pp.freshVec N sec' rng p := by
  unfold PSS.freshVec PSS.evalVec
  apply List.map_congr_left
  intro c hc
  dsimp only
  rw [h c (List.mem_range.1 hc)]

theorem PSS.freshVec_shared {pp : PSS F} (hg : pp.Good) {N : Nat} {sec : Nat → List T} (hsec : ∀ c < N, (sec c).length = pp.l)
    (rng : Nat → Nat → T) : pp.SharedVec (2 * pp.l) N (pp.freshVec N sec rng) sec := by
  refine ⟨fun p _ => pp.freshVec_length _ _ _ _, fun c hc => ?_⟩
  obtain ⟨row, e, h⟩ := PSS.pack_shares hg true (hsec c hc) (rng c)
  rw [PSS.pack_eq hg true (hsec c hc)] at e
  cases e
  refine cast ?_ h
  congr 1
  apply list_ext_getD 0 (by simp [hg.share_size])
  intro p hp
  rw [Domain.fft_length, hg.share_size] at hp
  rw [getD_map_range, if_pos hp, PSS.freshVec_getD hg _ _ _ hp hc]

/-- Adding `D` to the secrets of every position amounts, for `l` parties, to adding fixed values to the random ones. -/
theorem PSS.freshVec_shift_add {pp : PSS F} (hg : pp.Good) {l : Nat} (hle : pp.l = l) (hgen : pp.secret.offset ^ (4 * l) ≠ 1)
    {N : Nat} {D : Nat → List T} (hD : ∀ c < N, (D c).length = l) (P : Fin l → Nat) (hinj : Function.Injective P)
    (hlt : ∀ i, P i < 4 * l) :
    ∃ δ : Nat → Nat → T, ∀ (sec sec' : Nat → List T) (rng : Nat → Nat → T) (i : Fin l), (∀ c < N, (sec c).length = l) →
      (∀ c < N, sec' c = List.zipWith (· + ·) (sec c) (D c)) →
      pp.freshVec N sec' (fun c j => rng c j + δ c j) (P i) = pp.freshVec N sec rng (P i) := by
  obtain ⟨tape, ht, -⟩ := PSS.freshVec_privacy hg hle hgen hD P hinj hlt (fun _ _ => 0)
  refine ⟨ext2 tape, fun sec sec' rng i hsec hsec' => ?_⟩
  subst hle
  apply list_ext_getD 0 (by rw [PSS.freshVec_length, PSS.freshVec_length])
  intro c hc
  rw [PSS.freshVec_length] at hc
  have h0 := ht i ⟨c, hc⟩
  rw [PSS.freshVec_getD hg _ _ _ (hlt i) hc] at h0
  have hadd := PSS.share_add hg (hsec c hc) (hD c hc) (rng c) (ext2 tape c) (hlt i)
  rw [h0, add_zero] at hadd
  rw [PSS.freshVec_getD hg _ _ _ (hlt i) hc, PSS.freshVec_getD hg _ _ _ (hlt i) hc, ← hadd, hsec' c hc]

/-! ### Tapes -/

/-- Adding values to a tape. -/
def VecTape.add (t δ : VecTape F) : VecTape F :=
  ⟨fun i => t.vals i + δ.vals i, fun c i => t.rngIn c i + δ.rngIn c i, fun c i => t.rngOut c i + δ.rngOut c i⟩

/-- Adding values to a tape. -/
def MsmTape.add (t δ : MsmTape F T) : MsmTape F T :=
  ⟨fun i => t.vals i + δ.vals i, fun i => t.rngIn i + δ.rngIn i, fun i => t.rngOut i + δ.rngOut i⟩

/-! ### The masks of the transforms -/

/-- Reading the secrets off a vector in either layout. -/
theorem strided_eq_packed {a b : Nat} (z : Nat → F) {c : Nat} (hc : c < 2 ^ a) :
    strided 0 ((List.range (2 ^ (a + b))).map fun i => ((List.range (2 ^ (a + b))).map z).getD (bitRev (a + b) i) 0) (2 ^ b) (2 ^ a) c =
      packed true a b z c := by
  unfold strided packed
  apply List.map_congr_left
  intro j hj
  have hj := List.mem_range.1 hj
  rw [getD_map_range, if_pos (stride_lt hc hj), getD_map_range, if_pos (bitRev_lt _ _), slot, if_pos rfl]

theorem chunk_eq_packed {a b : Nat} (z : Nat → F) {c : Nat} (hc : c < 2 ^ a) :
    chunk ((List.range (2 ^ (a + b))).map z) (2 ^ b) c = packed false a b z c := by
  have hlen : (chunk ((List.range (2 ^ (a + b))).map z) (2 ^ b) c).length = 2 ^ b :=
    chunk_length (N := 2 ^ a) (by rw [List.length_map, List.length_range, pow_add]) hc
  apply list_ext_getD 0 (by rw [hlen, packed_length])
  intro j hj
  rw [hlen] at hj
  have := slot_lt false hc hj
  rw [slot, if_neg (by simp)] at this
  rw [chunk, chunk_getD _ _ _ _ _ hj, getD_map_range, if_pos this, packed, getD_map_range, if_pos hj, slot, if_neg (by simp)]

/-- The secrets the king packs after the second half of the transform. -/
def PSS.finishSec (pp : PSS F) (a b : Nat) (s1 : List F) (g gen : F) (rearrange : Bool) (post : F → F) : Nat → List F :=
  match pp.fft2InPlace s1 gen with
  | .ok v => packed rearrange a b fun k => post (g ^ k * v.getD k 0)
  | .error _ => fun _ => []

theorem PSS.finishSec_eq {pp : PSS F} {a b : Nat} (hlb : pp.l = 2 ^ b) {gen : F}
    (hprim : IsPrimitiveRoot gen (2 ^ (a + b))) (φ : Nat → Nat → F → F)
    (hφ : ∀ s ≥ a, ∀ j x, φ (s + 1) j x = φ s (2 * j) (x ^ 2) + x * φ s (2 * j + 1) (x ^ 2))
    {s1 : List F} (hl : s1.length = 2 ^ (a + b))
    (hs : ∀ k < 2 ^ a, ∀ j < 2 ^ b, s1.getD (k * 2 ^ b + j) 0 = φ a j (gen ^ (2 ^ b * (k + 1))))
    (g : F) (rearrange : Bool) (post : F → F) {c : Nat} (hc : c < 2 ^ a) :
    pp.finishSec a b s1 g gen rearrange post c = packed rearrange a b (fun k => post (g ^ k * φ (a + b) 0 (gen ^ k))) c := by
  unfold PSS.finishSec
  rw [PSS.fft2InPlace_eq hlb hprim φ hφ s1 hl hs]
  refine packed_congr _ hc fun i hi => ?_
  rw [getD_map_range, if_pos hi]

theorem PSS.finishSec_length {pp : PSS F} {a b : Nat} (hlb : pp.l = 2 ^ b) {gen : F}
    (hprim : IsPrimitiveRoot gen (2 ^ (a + b))) {s1 : List F} (hl : s1.length = 2 ^ (a + b)) (g : F) (rearrange : Bool)
    (post : F → F) {c : Nat} (hc : c < 2 ^ a) : (pp.finishSec a b s1 g gen rearrange post c).length = 2 ^ b := by
  obtain ⟨φ, hφ, hs⟩ := exists_layout hprim fun i => s1.getD i 0
  rw [PSS.finishSec_eq hlb hprim φ hφ hl hs g rearrange post hc, packed_length]

theorem PSS.fft2Finish_dealt {pp : PSS F} (hg : pp.Good) (dbg : Bool) {a b : Nat} (hlb : pp.l = 2 ^ b) {gen : F}
    (hprim : IsPrimitiveRoot gen (2 ^ (a + b))) {s1 : List F} (hl : s1.length = 2 ^ (a + b)) (g : F) (rearrange : Bool)
    (post : F → F) (rng : Nat → Nat → F) :
    pp.fft2Finish dbg s1 g gen rearrange post rng =
      .ok ((List.range (4 * pp.l)).map (pp.freshVec (2 ^ a) (pp.finishSec a b s1 g gen rearrange post) rng)) := by
  obtain ⟨φ, hφ, hs⟩ := exists_layout hprim fun i => s1.getD i 0
  have e := PSS.fft2InPlace_eq hlb hprim φ hφ s1 hl hs
  have hz : ((if g ≠ 1 then distributePowers ((List.range (2 ^ (a + b))).map fun k => φ (a + b) 0 (gen ^ k)) g
      else (List.range (2 ^ (a + b))).map fun k => φ (a + b) 0 (gen ^ k)).map post) =
      (List.range (2 ^ (a + b))).map fun k => post (g ^ k * φ (a + b) 0 (gen ^ k)) := by
    rw [distribute_eq, List.map_map]; rfl
  have hsec := fun c (hc : c < 2 ^ a) => PSS.finishSec_eq hlb hprim φ hφ hl hs g rearrange post hc
  unfold PSS.fft2Finish
  rw [e, ok_bind]
  dsimp only
  rw [hz]
  cases rearrange with
  | true =>
    rw [if_pos rfl, fftInPlaceRearrange_eq (a + b) _ 0 (by simp), ok_bind, PSS.packStrided_fresh hg dbg (N := 2 ^ a)
      (by rw [List.length_map, List.length_range, hlb, pow_add]), ok_bind, PSS.transpose_fresh hg (by positivity)]
    congr 1
    apply List.map_congr_left
    intro p _
    refine PSS.freshVec_congr (fun c hc => ?_) _ _
    rw [hsec c hc, hlb, strided_eq_packed _ hc]
  | false =>
    rw [if_neg (by simp), PSS.packVec_fresh hg dbg (N := 2 ^ a)
      (by rw [List.length_map, List.length_range, hlb, pow_add]), ok_bind, PSS.transpose_fresh hg (by positivity)]
    congr 1
    apply List.map_congr_left
    intro p _
    refine PSS.freshVec_congr (fun c hc => ?_) _ _
    rw [hsec c hc, hlb, chunk_eq_packed _ hc]

/-- The masks `FftMask::sample` deals to party `p`. -/
def PSS.fftDealt (pp : PSS F) (a b : Nat) (rearrange : Bool) (g gen : F) (t : VecTape F) (p : Nat) : FftMask F :=
  ⟨pp.freshVec (2 ^ a) (packed false a b t.vals) t.rngIn p,
    pp.freshVec (2 ^ a) (pp.finishSec a b ((List.range (2 ^ (a + b))).map t.vals) g gen rearrange fun x => -x) t.rngOut p⟩

theorem FftMask.sample_dealt {pp : PSS F} (hg : pp.Good) (dbg : Bool) {a b : Nat} (hlb : pp.l = 2 ^ b) {gen : F}
    (hprim : IsPrimitiveRoot gen (2 ^ (a + b))) (rearrange : Bool) (g : F) (t : VecTape F) :
    FftMask.sample pp dbg rearrange g gen (2 ^ (a + b)) t.vals t.rngIn t.rngOut =
      .ok ((List.range (4 * pp.l)).map (pp.fftDealt a b rearrange g gen t)) := by
  unfold FftMask.sample
  dsimp only
  rw [PSS.packVec_fresh hg dbg (N := 2 ^ a) (by rw [List.length_map, List.length_range, hlb, pow_add]), ok_bind,
    PSS.transpose_fresh hg (by positivity), ok_bind, PSS.fft2Finish_dealt hg dbg hlb hprim (by simp), ok_bind]
  rw [List.zipWith_map_left, List.zipWith_map_right, List.zipWith_self]
  show Except.ok _ = _
  congr 1
  apply List.map_congr_left
  intro p _
  unfold PSS.fftDealt
  congr 1
  refine PSS.freshVec_congr (fun c hc => ?_) _ _
  rw [hlb, chunk_eq_packed _ hc]

theorem layout_add {a : Nat} {φ ψ : Nat → Nat → F → F}
    (hφ : ∀ s ≥ a, ∀ j x, φ (s + 1) j x = φ s (2 * j) (x ^ 2) + x * φ s (2 * j + 1) (x ^ 2))
    (hψ : ∀ s ≥ a, ∀ j x, ψ (s + 1) j x = ψ s (2 * j) (x ^ 2) + x * ψ s (2 * j + 1) (x ^ 2)) :
    ∀ s ≥ a, ∀ j x, φ (s + 1) j x + ψ (s + 1) j x =
      (φ s (2 * j) (x ^ 2) + ψ s (2 * j) (x ^ 2)) + x * (φ s (2 * j + 1) (x ^ 2) + ψ s (2 * j + 1) (x ^ 2)) := by
  intro s hs j x
  rw [hφ s hs, hψ s hs]
  ring

theorem getD_range_slot {a b k j : Nat} (z : Nat → F) (hk : k < 2 ^ a) (hj : j < 2 ^ b) :
    ((List.range (2 ^ (a + b))).map z).getD (k * 2 ^ b + j) 0 = z (k * 2 ^ b + j) := by
  have := slot_lt false hk hj
  rw [slot, if_neg (by simp)] at this
  rw [getD_map_range, if_pos this]

/-- Changing the mask values by `δ` and the random values of the packings suitably changes nothing for `l` parties. -/
theorem PSS.fftDealt_shift {pp : PSS F} (hg : pp.Good) {a b : Nat} (hlb : pp.l = 2 ^ b)
    (hgen : pp.secret.offset ^ (4 * 2 ^ b) ≠ 1) {gen : F} (hprim : IsPrimitiveRoot gen (2 ^ (a + b))) (rearrange : Bool) (g : F)
    (P : Fin (2 ^ b) → Nat) (hinj : Function.Injective P) (hlt : ∀ i, P i < 4 * 2 ^ b) (D : Nat → F) :
    ∃ δ : VecTape F, δ.vals = D ∧ ∀ t i,
      pp.fftDealt a b rearrange g gen (t.add δ) (P i) = pp.fftDealt a b rearrange g gen t (P i) := by
  obtain ⟨δi, hi⟩ := PSS.freshVec_shift_add hg hlb hgen (N := 2 ^ a) (D := packed false a b D)
    (fun c _ => packed_length _ _ _ _ _) P hinj hlt
  obtain ⟨δo, ho⟩ := PSS.freshVec_shift_add hg hlb hgen (N := 2 ^ a)
    (D := pp.finishSec a b ((List.range (2 ^ (a + b))).map D) g gen rearrange fun x => -x)
    (fun c hc => PSS.finishSec_length hlb hprim (by simp) _ _ _ hc) P hinj hlt
  refine ⟨⟨D, δi, δo⟩, rfl, fun t i => ?_⟩
  have h1 : pp.freshVec (2 ^ a) (packed false a b fun i => t.vals i + D i) (fun c j => t.rngIn c j + δi c j) (P i) =
      pp.freshVec (2 ^ a) (packed false a b t.vals) t.rngIn (P i) :=
    hi (packed false a b t.vals) _ t.rngIn i (fun c _ => packed_length _ _ _ _ _) fun c _ => by rw [packed_zipWith]
  have h2 : pp.freshVec (2 ^ a)
        (pp.finishSec a b ((List.range (2 ^ (a + b))).map fun i => t.vals i + D i) g gen rearrange fun x => -x)
        (fun c j => t.rngOut c j + δo c j) (P i) =
      pp.freshVec (2 ^ a) (pp.finishSec a b ((List.range (2 ^ (a + b))).map t.vals) g gen rearrange fun x => -x) t.rngOut (P i) := by
    refine ho (pp.finishSec a b ((List.range (2 ^ (a + b))).map t.vals) g gen rearrange fun x => -x) _ t.rngOut i
      (fun c hc => PSS.finishSec_length hlb hprim (by simp) _ _ _ hc) fun c hc => ?_
    obtain ⟨φ, hφ, hs⟩ := exists_layout (a := a) (b := b) hprim t.vals
    obtain ⟨ψ, hψ, hs'⟩ := exists_layout (a := a) (b := b) hprim D
    have e1 := PSS.finishSec_eq (s1 := (List.range (2 ^ (a + b))).map t.vals) hlb hprim φ hφ (by simp)
      (fun k hk j hj => by rw [getD_range_slot _ hk hj, hs k hk j hj]) g rearrange (fun x => -x) hc
    have e2 := PSS.finishSec_eq (s1 := (List.range (2 ^ (a + b))).map D) hlb hprim ψ hψ (by simp)
      (fun k hk j hj => by rw [getD_range_slot _ hk hj, hs' k hk j hj]) g rearrange (fun x => -x) hc
    have e3 := PSS.finishSec_eq (s1 := (List.range (2 ^ (a + b))).map fun i => t.vals i + D i) hlb hprim
      (fun s j x => φ s j x + ψ s j x) (layout_add hφ hψ) (by simp)
      (fun k hk j hj => by rw [getD_range_slot _ hk hj, hs k hk j hj, hs' k hk j hj]) g rearrange (fun x => -x) hc
    rw [e1, e2, e3, packed_zipWith]
    congr 1
    funext k
    ring
  have : ∀ m m' : FftMask F, m.inMask = m'.inMask → m.outMask = m'.outMask → m = m' := by
    rintro ⟨_, _⟩ ⟨_, _⟩ rfl rfl; rfl
  exact this _ _ h1 h2

section net
variable [FixedWire F] {n : Nat}

/-- The vector the king computes with: the secrets of the messages in order. -/
def kingVec (a b : Nat) (gen : F) (φ : Nat → Nat → F → F) (vals : Nat → F) : List F :=
  (List.range (2 ^ (a + b))).map fun i => φ a (i % 2 ^ b) (gen ^ (2 ^ b * (i / 2 ^ b + 1))) + vals i

/-- The interactive half of a transform with dealt masks: the king's answers depend only on the masked secrets. -/
theorem PSS.fft2_view {pp : PSS F} (hg : pp.Good) (dbg : Bool) (hn : n = 4 * pp.l) {a b : Nat}
    (ha : a < 64) (hlb : pp.l = 2 ^ b) {gen : F}
    (hprim : IsPrimitiveRoot gen (2 ^ (a + b))) (φ : Nat → Nat → F → F)
    (hφ : ∀ s ≥ a, ∀ j x, φ (s + 1) j x = φ s (2 * j) (x ^ 2) + x * φ s (2 * j + 1) (x ^ 2))
    {d : Nat} (hd2 : 2 * pp.l ≤ d) (hd4 : d ≤ 4 * pp.l - 1)
    {px : Nat → List F} (hpx : pp.SharedVec d (2 ^ a) px
      (fun c => (List.range (2 ^ b)).map fun j => φ a j (gen ^ (2 ^ b * (c + 1)))))
    (g : F) (rearrange : Bool) (t : VecTape F) (sid : Sid) (rng : Nat → Nat → F) :
    let ans := pp.freshVec (2 ^ a) (pp.finishSec a b (kingVec a b gen φ t.vals) g gen rearrange id) rng
    let mask := pp.fftDealt a b rearrange g gen t
    RunsV All (only sid) (fun i : Fin n => pp.fft2WithRearrange dbg n i (px i) (mask i) rearrange g gen sid rng)
        (fun i => addMask (ans i) (mask i).outMask) (fun i => if i.val = 0 then gathered n fun p => addMask (px p) (mask p).inMask else [(0, Wire.enc (ans i))]) ∧
      pp.SharedVec (2 * pp.l) (2 ^ a) (fun p => addMask (ans p) (mask p).outMask)
        (packed rearrange a b fun k => g ^ k * φ (a + b) 0 (gen ^ k)) := by
  intro ans mask
  have hl := hg.lpos
  have hn0 : 0 < n := by omega
  obtain ⟨ψ, hψ, hv⟩ := exists_layout (a := a) (b := b) hprim t.vals
  have hin : pp.SharedVec (2 * pp.l) (2 ^ a) (fun p => (mask p).inMask)
      (fun c => (List.range (2 ^ b)).map fun j => ψ a j (gen ^ (2 ^ b * (c + 1)))) := by
    refine SharedVec.congr (PSS.freshVec_shared hg (sec := packed false a b t.vals) (fun c _ => by rw [packed_length, hlb]) t.rngIn)
      (fun _ _ => rfl) fun c hc => ?_
    unfold packed
    apply List.map_congr_left
    intro j hj
    rw [slot, if_neg (by simp), hv c hc j (List.mem_range.1 hj)]
  have hsum := SharedVec.add hpx (SharedVec.mono hd2 hin)
  have hsum' : pp.SharedVec d (2 ^ a) (fun p => addMask (px p) (mask p).inMask)
      (fun c => (List.range (2 ^ b)).map fun j => (φ a j (gen ^ (2 ^ b * (c + 1))) + ψ a j (gen ^ (2 ^ b * (c + 1))))) := by
    refine SharedVec.congr hsum (fun _ _ => rfl) fun c hc => ?_
    rw [List.zipWith_map_left, List.zipWith_map_right, List.zipWith_self]
  obtain ⟨s1, h1, h2, hK⟩ := PSS.fft2King_eq hg dbg hlb (fun s j x => φ s j x + ψ s j x)
    (by omega : 0 < d) hd4 (Or.inl rfl : pp.Decodable dbg d _) hsum' g rearrange
  have hb0 : 0 < 2 ^ b := by positivity
  have hs1 : s1 = kingVec a b gen φ t.vals := by
    apply list_ext_getD 0 (by simp [h1, kingVec])
    intro i hi
    rw [h1] at hi
    have hk : i / 2 ^ b < 2 ^ a := by rw [Nat.div_lt_iff_lt_mul hb0, ← pow_add]; exact hi
    have hj := Nat.mod_lt i hb0
    have := h2 _ hk _ hj
    rw [Nat.div_add_mod' i (2 ^ b)] at this
    rw [this, kingVec, getD_map_range, if_pos hi, ← hv _ hk _ hj, Nat.div_add_mod' i (2 ^ b)]
  have hlen : ∀ p < 4 * pp.l, (addMask (px p) (mask p).inMask).length = 2 ^ a := hsum'.1
  have h2a : 2 ^ a < 2 ^ 64 := Nat.pow_lt_pow_right (by norm_num) ha
  have hkl : (kingVec a b gen φ t.vals).length = 2 ^ (a + b) := by simp [kingVec]
  constructor
  · refine RunsV.congr (runsV_round hn0 sid pp.t (fun i => addMask (px i) (mask i).inMask)
      (fun i hi => Wire.ok_list _ (by rw [hlen i (by omega)]; exact h2a))
      (fun i rs => pp.fft2King dbg (addMask (px i) (mask i).inMask).length (px i).length g gen rearrange rs.shares rs.parties rng)
      ans (8 + 2 ^ a * FixedWire.width F) ?_ ?_
      (fun i y => .done (.ok (addMask y (mask i).outMask))) (RunsV.done _)) (fun i => rfl) (fun i => rfl) (fun i => by simp)
    · simp only
      rw [hlen 0 (by omega), hpx.1 0 (by omega), hn, hK, hs1, PSS.fft2Finish_dealt hg dbg hlb hprim hkl]
    · intro i hi
      have := pp.freshVec_length (2 ^ a) (pp.finishSec a b (kingVec a b gen φ t.vals) g gen rearrange id) rng i
      exact ⟨Wire.ok_list _ (by rw [this]; exact h2a), by rw [Wire.enc_list_length, this]⟩
  · have hA := PSS.freshVec_shared hg (N := 2 ^ a) (sec := pp.finishSec a b (kingVec a b gen φ t.vals) g gen rearrange id)
      (fun c hc => by rw [PSS.finishSec_length hlb hprim hkl _ _ _ hc, hlb]) rng
    have hB := PSS.freshVec_shared hg (N := 2 ^ a)
      (sec := pp.finishSec a b ((List.range (2 ^ (a + b))).map t.vals) g gen rearrange fun x => -x)
      (fun c hc => by rw [PSS.finishSec_length hlb hprim (by simp) _ _ _ hc, hlb]) t.rngOut
    refine SharedVec.congr (SharedVec.add hA hB) (fun _ _ => rfl) fun c hc => ?_
    rw [PSS.finishSec_eq hlb hprim (fun s j x => φ s j x + ψ s j x) (layout_add hφ hψ) hkl
        (fun k hk j hj => by rw [← hs1, h2 k hk j hj]) g rearrange _ hc,
      PSS.finishSec_eq hlb hprim ψ hψ (by simp) (fun k hk j hj => by rw [getD_range_slot _ hk hj, hv k hk j hj]) g rearrange _ hc,
      packed_zipWith]
    congr 1
    funext k
    simp only [id]
    ring

end net

/-! ### Degree reduction -/

/-- The masks `DegRedMask::sample` deals to party `p`. -/
def PSS.degDealt (pp : PSS F) (N : Nat) (t : VecTape F) (p : Nat) : DegRedMask F :=
  ⟨pp.freshVec N (chunks pp.l t.vals) t.rngIn p, pp.freshVec N (chunks pp.l fun i => -t.vals i) t.rngOut p⟩

theorem DegRedMask.sample_dealt {pp : PSS F} (hg : pp.Good) (dbg : Bool) {N : Nat} (hN : 0 < N) (t : VecTape F) :
    DegRedMask.sample pp dbg (1 : F) N t.vals t.rngIn t.rngOut = .ok ((List.range (4 * pp.l)).map (pp.degDealt N t)) := by
  unfold DegRedMask.sample
  dsimp only
  rw [PSS.packVec_fresh hg dbg (N := N) (by simp), ok_bind, PSS.transpose_fresh hg hN, ok_bind,
    PSS.packVec_fresh hg dbg (N := N) (by simp), ok_bind, PSS.transpose_fresh hg hN, ok_bind]
  rw [List.zip_map', mapM_ok (g := fun x : List F × List F => DegRedMask.mk x.1 x.2)]
  · rw [List.map_map]
    congr 1
    apply List.map_congr_left
    intro p _
    unfold PSS.degDealt
    dsimp only [Function.comp]
    congr 1
    · refine PSS.freshVec_congr (fun c hc => ?_) _ _
      rw [chunk_eq_chunks _ _ _ hc]
      simp
    · refine PSS.freshVec_congr (fun c hc => ?_) _ _
      rw [chunk_eq_chunks _ _ _ hc]
      simp
  · intro x hx
    obtain ⟨p, _, rfl⟩ := List.mem_map.1 hx
    unfold DegRedMask.new
    rw [debugAssert_of (by simp [PSS.freshVec_length])]
    rfl

theorem chunks_length {T : Type} (l : Nat) (x : Nat → T) (c : Nat) : (chunks l x c).length = l := by simp [chunks]

theorem chunks_zipWith {T : Type} (l : Nat) (f : T → T → T) (x y : Nat → T) (c : Nat) :
    List.zipWith f (chunks l x c) (chunks l y c) = chunks l (fun i => f (x i) (y i)) c := by
  unfold chunks
  rw [List.zipWith_map_left, List.zipWith_map_right, List.zipWith_self]

theorem PSS.degDealt_shift {pp : PSS F} (hg : pp.Good) {l : Nat} (hle : pp.l = l) (hgen : pp.secret.offset ^ (4 * l) ≠ 1) (N : Nat)
    (P : Fin l → Nat) (hinj : Function.Injective P) (hlt : ∀ i, P i < 4 * l) (D : Nat → F) :
    ∃ δ : VecTape F, δ.vals = D ∧ ∀ t i, pp.degDealt N (t.add δ) (P i) = pp.degDealt N t (P i) := by
  obtain ⟨δi, hi⟩ := PSS.freshVec_shift_add hg hle hgen (N := N) (D := chunks pp.l D)
    (fun c _ => by rw [chunks_length, hle]) P hinj hlt
  obtain ⟨δo, ho⟩ := PSS.freshVec_shift_add hg hle hgen (N := N) (D := chunks pp.l fun i => -D i)
    (fun c _ => by rw [chunks_length, hle]) P hinj hlt
  refine ⟨⟨D, δi, δo⟩, rfl, fun t i => ?_⟩
  have h1 : pp.freshVec N (chunks pp.l fun i => t.vals i + D i) (fun c j => t.rngIn c j + δi c j) (P i) =
      pp.freshVec N (chunks pp.l t.vals) t.rngIn (P i) :=
    hi (chunks pp.l t.vals) _ t.rngIn i (fun c _ => by rw [chunks_length, hle]) fun c _ => by rw [chunks_zipWith]
  have h2 : pp.freshVec N (chunks pp.l fun i => -(t.vals i + D i)) (fun c j => t.rngOut c j + δo c j) (P i) =
      pp.freshVec N (chunks pp.l fun i => -t.vals i) t.rngOut (P i) :=
    ho (chunks pp.l fun i => -t.vals i) _ t.rngOut i (fun c _ => by rw [chunks_length, hle]) fun c _ => by
      rw [chunks_zipWith]; congr 1; funext i; ring
  have : ∀ m m' : DegRedMask F, m.inMask = m'.inMask → m.outMask = m'.outMask → m = m' := by
    rintro ⟨_, _⟩ ⟨_, _⟩ rfl rfl; rfl
  exact this _ _ h1 h2

section net
variable [FixedWire F] {n : Nat}

/-- `deg_red` with dealt masks: the king's answers depend only on the masked secrets. -/
theorem PSS.degRed_view {pp : PSS F} (hg : pp.Good) (dbg : Bool) (hn : n = 4 * pp.l) {d N : Nat} (hN : 0 < N)
    (hN64 : N < 2 ^ 64) (hd2 : 2 * pp.l ≤ d) (hd4 : d ≤ 4 * pp.l - 1) {sh sec : Nat → List F}
    (hsh : pp.SharedVec d N sh sec) (t : VecTape F) (sid : Sid) (rng : Nat → Nat → F) :
    let ans := pp.freshVec N (fun c => List.zipWith (· + ·) (sec c) (chunks pp.l t.vals c)) rng
    let mask := pp.degDealt N t
    RunsV All (only sid) (fun i : Fin n => pp.degRed dbg n i (sh i) (mask i) sid rng)
        (fun i => addMask (ans i) (mask i).outMask) (fun i => if i.val = 0 then gathered n fun p => addMask (sh p) (mask p).inMask else [(0, Wire.enc (ans i))]) ∧
      pp.SharedVec (2 * pp.l) N (fun p => addMask (ans p) (mask p).outMask) sec := by
  intro ans mask
  have hl := hg.lpos
  have hn0 : 0 < n := by omega
  have hin : pp.SharedVec (2 * pp.l) N (fun p => (mask p).inMask) (chunks pp.l t.vals) :=
    PSS.freshVec_shared hg (fun c _ => chunks_length _ _ _) _
  have hout : pp.SharedVec (2 * pp.l) N (fun p => (mask p).outMask) (chunks pp.l fun i => -t.vals i) :=
    PSS.freshVec_shared hg (fun c _ => chunks_length _ _ _) _
  have hsum := SharedVec.add hsh (SharedVec.mono hd2 hin)
  have hK := PSS.degRedKing_fresh hg dbg hN (by omega : 0 < d) hd4 (Or.inl rfl : pp.Decodable dbg d _) hsum rng
  constructor
  · refine RunsV.congr (runsV_round hn0 sid pp.t (fun i => addMask (sh i) (mask i).inMask)
      (fun i hi => Wire.ok_list _ (by rw [hsum.1 i (by omega)]; exact hN64))
      (fun i rs => pp.degRedKing dbg rs.shares rs.parties rng)
      ans (8 + N * FixedWire.width F) ?_ ?_
      (fun i y => .done (.ok (addMask y (mask i).outMask))) (RunsV.done _)) (fun i => ?_) (fun i => rfl) (fun i => by simp)
    · rw [hn]; exact hK
    · intro i hi
      have := pp.freshVec_length N (fun c => List.zipWith (· + ·) (sec c) (chunks pp.l t.vals c)) rng i
      exact ⟨Wire.ok_list _ (by rw [this]; exact hN64), by rw [Wire.enc_list_length, this]⟩
    · have hi : i.val < 4 * pp.l := by omega
      unfold PSS.degRed
      rw [debugAssert_of (by rw [hsh.1 i hi, hin.1 i hi]; simp), debugAssert_of (by rw [hsh.1 i hi, hout.1 i hi]; simp)]
      rfl
  · have hA := PSS.freshVec_shared hg (N := N) (sec := fun c => List.zipWith (· + ·) (sec c) (chunks pp.l t.vals c))
      (fun c hc => (hsum.2 c hc).2.1) rng
    refine SharedVec.congr (SharedVec.add hA hout) (fun _ _ => rfl) fun c hc => ?_
    have : (chunks pp.l fun i => -t.vals i) c = (chunks pp.l t.vals c).map fun z => -z := by simp [chunks]
    rw [this]
    exact zipWith_add_neg _ _ (by rw [(hsh.2 c hc).2.1, chunks_length])

end net

/-! ### Multi-scalar multiplication -/

/-- The masks `MsmMask::sample` deals to party `p`. -/
def PSS.msmDealt (pp : PSS F) (gen : T) (t : MsmTape F T) (p : Nat) : MsmMask T :=
  ⟨(pp.freshVec 1 (fun _ => (List.range pp.l).map fun i => t.vals i • gen) (fun _ => t.rngIn) p).getD 0 0,
    (pp.freshVec 1 (fun _ => List.replicate pp.l (-((List.range pp.l).map fun i => t.vals i • gen).sum)) (fun _ => t.rngOut) p).getD 0 0⟩

theorem PSS.pack_one {pp : PSS F} (hg : pp.Good) (dbg : Bool) {v : List T} (hv : v.length = pp.l) (rng : Nat → T) :
    pp.pack dbg v rng = .ok ((List.range (4 * pp.l)).map fun p => (pp.freshVec 1 (fun _ => v) (fun _ => rng) p).getD 0 0) := by
  rw [PSS.pack_eq hg dbg hv]
  congr 1
  apply list_ext_getD 0 (by simp [hg.share_size])
  intro p hp
  rw [Domain.fft_length, hg.share_size] at hp
  rw [getD_map_range, if_pos hp, PSS.freshVec_getD hg _ _ _ hp one_pos]

theorem PSS.fresh_one {pp : PSS F} (hg : pp.Good) {v : List T} (hv : v.length = pp.l) (rng : Nat → T) :
    pp.Shares (2 * pp.l) ((List.range (4 * pp.l)).map fun p => (pp.freshVec 1 (fun _ => v) (fun _ => rng) p).getD 0 0) v :=
  (PSS.freshVec_shared hg (N := 1) (sec := fun _ => v) (fun _ _ => hv) fun _ => rng).2 0 one_pos

theorem MsmMask.sample_dealt {pp : PSS F} (hg : pp.Good) (dbg : Bool) (gen : T) (t : MsmTape F T) :
    MsmMask.sample pp dbg gen t.vals t.rngIn t.rngOut = .ok ((List.range (4 * pp.l)).map (pp.msmDealt gen t)) := by
  unfold MsmMask.sample
  dsimp only
  rw [PSS.pack_one hg dbg (by simp), ok_bind, PSS.pack_one hg dbg (by simp), ok_bind, List.zipWith_map_left, List.zipWith_map_right,
    List.zipWith_self]
  rfl

theorem PSS.msmDealt_shift {pp : PSS F} (hg : pp.Good) {l : Nat} (hle : pp.l = l) (hgen : pp.secret.offset ^ (4 * l) ≠ 1) (gen : T)
    (P : Fin l → Nat) (hinj : Function.Injective P) (hlt : ∀ i, P i < 4 * l) {D : T} (hD : ∃ c : F, c • gen = D) :
    ∃ δ : MsmTape F T, (∀ t : MsmTape F T, ((List.range pp.l).map fun i => (t.add δ).vals i • gen).sum =
        ((List.range pp.l).map fun i => t.vals i • gen).sum + D) ∧
      ∀ t i, pp.msmDealt gen (t.add δ) (P i) = pp.msmDealt gen t (P i) := by
  have hl := hg.lpos
  obtain ⟨c, hc⟩ := hD
  let d : Nat → F := fun i => if i = 0 then c else 0
  obtain ⟨δi, hi⟩ := PSS.freshVec_shift_add hg hle hgen (N := 1) (D := fun _ => (List.range pp.l).map fun i => d i • gen)
    (fun c _ => by simp [hle]) P hinj hlt
  obtain ⟨δo, ho⟩ := PSS.freshVec_shift_add hg hle hgen (N := 1) (D := fun _ => List.replicate pp.l (-D))
    (fun c _ => by simp [hle]) P hinj hlt
  have hsum : ∀ t : MsmTape F T, ((List.range pp.l).map fun i => (t.vals i + d i) • gen).sum =
      ((List.range pp.l).map fun i => t.vals i • gen).sum + D := by
    intro t
    rw [sum_map_range, sum_map_range]
    simp only [add_smul, sum_add_distrib]
    congr 1
    rw [sum_eq_single 0]
    · simp [d, hc]
    · intro j _ hj; simp [d, hj]
    · intro h; simp at h; omega
  refine ⟨⟨d, δi 0, δo 0⟩, hsum, fun t i => ?_⟩
  have hp : P i < 4 * pp.l := by rw [hle]; exact hlt i
  have h1 := hi (fun _ => (List.range pp.l).map fun i => t.vals i • gen) (fun _ => (List.range pp.l).map fun i => (t.vals i + d i) • gen)
    (fun _ => t.rngIn) i (fun c _ => by simp [hle]) fun c _ => by
      rw [List.zipWith_map_left, List.zipWith_map_right, List.zipWith_self]
      simp only [add_smul]
  have h2 := ho (fun _ => List.replicate pp.l (-((List.range pp.l).map fun i => t.vals i • gen).sum))
    (fun _ => List.replicate pp.l (-((List.range pp.l).map fun i => (t.vals i + d i) • gen).sum))
    (fun _ => t.rngOut) i (fun c _ => by simp [hle]) fun c _ => by
      rw [hsum, List.zipWith_replicate, Nat.min_self, neg_add]
  have : ∀ m m' : MsmMask T, m.inMask = m'.inMask → m.outMask = m'.outMask → m = m' := by
    rintro ⟨_, _⟩ ⟨_, _⟩ rfl rfl; rfl
  have tail : ∀ (v : List T) (rng : Nat → T) (δ : Nat → Nat → T),
      (pp.freshVec 1 (fun _ => v) (fun _ j => rng j + δ 0 j) (P i)).getD 0 0 =
        (pp.freshVec 1 (fun _ => v) (fun c j => rng j + δ c j) (P i)).getD 0 0 := by
    intro v rng δ
    rw [PSS.freshVec_getD hg _ _ _ hp one_pos, PSS.freshVec_getD hg _ _ _ hp one_pos]
  have h1' := (tail ((List.range pp.l).map fun i => (t.vals i + d i) • gen) t.rngIn δi).trans (by rw [h1])
  have h2' := (tail (List.replicate pp.l (-((List.range pp.l).map fun i => (t.vals i + d i) • gen).sum)) t.rngOut δo).trans (by rw [h2])
  exact this _ _ h1' h2'

section net
variable [FixedWire T] {n : Nat}

/-- `d_msm` with dealt masks: the king's answer is the sum plus the sum of the mask values. -/
theorem PSS.dMsm_view {pp : PSS F} (hg : pp.Good) (dbg : Bool) (hn : n = 4 * pp.l) {N d1 d2 : Nat}
    (hd2 : 2 * pp.l ≤ d2 + d1 - 1) (hd4 : d2 + d1 - 1 ≤ 4 * pp.l - 1) {bs bsec : Nat → List T} {ss ssec : Nat → List F}
    (hb : pp.SharedVec d1 N bs bsec) (hs : pp.SharedVec d2 N ss ssec) (gen : T) (t : MsmTape F T) (sid : Sid) {tot : T}
    (htot : ∑ k ∈ range pp.l, ∑ c ∈ range N, (ssec c).getD k 0 • (bsec c).getD k 0 = tot) :
    let ans := tot + ((List.range pp.l).map fun i => t.vals i • gen).sum
    let mask := pp.msmDealt gen t
    RunsV All (only sid) (fun i : Fin n => pp.dMsm dbg n i (bs i) (ss i) (mask i) sid) (fun i => ans + (mask i).outMask)
        (fun i => if i.val = 0 then gathered n fun p => (∑ c ∈ range N, (ss p).getD c 0 • (bs p).getD c 0) + (mask p).inMask
          else [(0, Wire.enc ans)]) ∧
      pp.Shares (2 * pp.l) ((List.range (4 * pp.l)).map fun p => ans + (mask p).outMask) (List.replicate pp.l tot) := by
  intro ans mask
  have hl := hg.lpos
  have hn0 : 0 < n := by omega
  obtain ⟨c, e1, hc⟩ := msm_shared hb hs
  have ec : ∀ p < 4 * pp.l, c p = ∑ c ∈ range N, (ss p).getD c 0 • (bs p).getD c 0 := fun p hp =>
    Except.ok.inj ((e1 p hp).symm.trans (msm_eq (hb.1 p hp) (hs.1 p hp)))
  have hin : pp.Shares (2 * pp.l) ((List.range (4 * pp.l)).map fun p => (mask p).inMask)
      ((List.range pp.l).map fun i => t.vals i • gen) := PSS.fresh_one hg (by simp) _
  have hout : pp.Shares (2 * pp.l) ((List.range (4 * pp.l)).map fun p => (mask p).outMask)
      (List.replicate pp.l (-((List.range pp.l).map fun i => t.vals i • gen).sum)) := PSS.fresh_one hg (by simp) _
  have hsum := Shares.add hc (Shares.mono hd2 hin)
  rw [List.zipWith_map_left, List.zipWith_map_right, List.zipWith_self] at hsum
  have hK := PSS.msmKing_ok hg dbg n hd4 (Or.inl rfl : pp.Decodable dbg (d2 + d1 - 1) _) hsum
  rw [sum_zipWith_add _ _ (by simp), sum_map_range, htot] at hK
  refine ⟨?_, msm_unmask (v := (List.range pp.l).map fun i => t.vals i • gen) hg tot hout⟩
  refine RunsV.congr (runsV_round hn0 sid pp.t (fun i => c i + (mask i).inMask) (fun i hi => Wire.ok_fixed _)
    (fun i rs => pp.msmKing dbg n rs.shares rs.parties) (fun i => ans) (FixedWire.width T) ?_
    (fun i hi => ⟨Wire.ok_fixed _, FixedWire.enc_length _⟩)
    (fun i y => .done (.ok (y + (mask i).outMask))) (RunsV.done _)) (fun i => ?_) (fun i => rfl) (fun i => ?_)
  · rw [hn] at hK ⊢
    rw [hK]
    simp [ans]
  · have hi : i.val < 4 * pp.l := by omega
    unfold PSS.dMsm
    rw [debugAssert_of (by rw [hb.1 i hi, hs.1 i hi]; simp), e1 i hi]
    rfl
  · rw [List.append_nil, gathered, gathered]
    congr 1
    apply List.map_congr_left
    intro p hp
    rw [ec p (by rw [← hn]; exact List.mem_range.1 hp)]

end net

/-! ### Two runs side by side -/

section couple
variable {n m : Nat} {α β γ δ' : Type}

/-- Two runs in which every party but the king receives the same messages and the parties `P` end with the same results. -/
def Couple (S : Sid → Prop) (P : Fin m → Nat) (ps ps' : Fin n → Proc α) (R R' : (Nat → α) → Prop) : Prop :=
  ∃ (outs outs' : Nat → α) (vs vs' : Fin n → Transcript), RunsV All S ps (fun i => outs i) vs ∧
    RunsV All S ps' (fun i => outs' i) vs' ∧ (∀ i, i.val ≠ 0 → vs i = vs' i) ∧ R outs ∧ R' outs' ∧ ∀ i, outs (P i) = outs' (P i)

variable {S : Sid → Prop} {P : Fin m → Nat}

theorem Couple.done {R R' : (Nat → α) → Prop} (outs outs' : Nat → α) (h : R outs) (h' : R' outs')
    (he : ∀ i, outs (P i) = outs' (P i)) : Couple (n := n) S P (fun i => .done (.ok (outs i))) (fun i => .done (.ok (outs' i))) R R' :=
  ⟨outs, outs', _, _, RunsV.done _, RunsV.done _, fun _ _ => rfl, h, h', he⟩

theorem Couple.bind {S1 : Sid → Prop} {ps ps' : Fin n → Proc α} {R R' : (Nat → α) → Prop} (h : Couple S1 P ps ps' R R')
    (h1 : ∀ x, S1 x → S x) {f f' : Fin n → α → Proc β} {Q Q' : (Nat → β) → Prop}
    (hf : ∀ outs outs', R outs → R' outs' → (∀ i, outs (P i) = outs' (P i)) →
      Couple S P (fun i => f i (outs i)) (fun i => f' i (outs' i)) Q Q') :
    Couple S P (fun i => (ps i).bind (f i)) (fun i => (ps' i).bind (f' i)) Q Q' := by
  obtain ⟨o, o', vs, vs', r, r', hv, h, h', he⟩ := h
  obtain ⟨u, u', ws, ws', q, q', hw, k, k', hk⟩ := hf o o' h h' he
  exact ⟨u, u', _, _, (r.mono h1).bind q, (r'.mono h1).bind q', fun i hi => by rw [hv i hi, hw i hi], k, k', hk⟩

theorem Couple.par {S1 S2 : Sid → Prop} {ps ps' : Fin n → Proc α} {R R' : (Nat → α) → Prop} (h : Couple S1 P ps ps' R R')
    {qs qs' : Fin n → Proc β} {Q Q' : (Nat → β) → Prop} (g : Couple S2 P qs qs' Q Q') (h1 : ∀ x, S1 x → S x) (h2 : ∀ x, S2 x → S x)
    {k k' : Fin n → α → β → Proc γ} {U U' : (Nat → γ) → Prop}
    (hk : ∀ o o' u u', R o → R' o' → (∀ i, o (P i) = o' (P i)) → Q u → Q' u' → (∀ i, u (P i) = u' (P i)) →
      Couple S P (fun i => k i (o i) (u i)) (fun i => k' i (o' i) (u' i)) U U') :
    Couple S P (fun i => .par (ps i) (qs i) (k i)) (fun i => .par (ps' i) (qs' i) (k' i)) U U' := by
  obtain ⟨o, o', vs, vs', r, r', hv, h, h', he⟩ := h
  obtain ⟨u, u', ws, ws', q, q', hw, g, g', hg⟩ := g
  obtain ⟨x, x', xs, xs', t, t', hx, k, k', hk⟩ := hk o o' u u' h h' he g g' hg
  exact ⟨x, x', _, _, r.par q h1 h2 t, r'.par q' h1 h2 t', fun i hi => by rw [hv i hi, hw i hi, hx i hi], k, k', hk⟩

theorem Couple.tryJoin3 {S0 S1 S2 : Sid → Prop} {ps ps' : Fin n → Proc α} {R R' : (Nat → α) → Prop} (h : Couple S0 P ps ps' R R')
    {qs qs' : Fin n → Proc β} {Q Q' : (Nat → β) → Prop} (g : Couple S1 P qs qs' Q Q') {us us' : Fin n → Proc γ}
    {U U' : (Nat → γ) → Prop} (w : Couple S2 P us us' U U')
    (h0 : ∀ x, S0 x → S x) (h1 : ∀ x, S1 x → S x) (h2 : ∀ x, S2 x → S x)
    {k k' : Fin n → α → β → γ → Proc δ'} {W W' : (Nat → δ') → Prop}
    (hk : ∀ o o' u u' v v', R o → R' o' → (∀ i, o (P i) = o' (P i)) → Q u → Q' u' → (∀ i, u (P i) = u' (P i)) →
      U v → U' v' → (∀ i, v (P i) = v' (P i)) →
      Couple S P (fun i => k i (o i) (u i) (v i)) (fun i => k' i (o' i) (u' i) (v' i)) W W') :
    Couple S P (fun i => ZkSaas.tryJoin3 (ps i) (qs i) (us i) (k i)) (fun i => ZkSaas.tryJoin3 (ps' i) (qs' i) (us' i) (k' i)) W W' := by
  obtain ⟨o, o', vs, vs', r, r', hv, h, h', he⟩ := h
  obtain ⟨u, u', ws, ws', q, q', hw, g, g', hg⟩ := g
  obtain ⟨y, y', ys, ys', s, s', hy, w, w', hyw⟩ := w
  obtain ⟨x, x', xs, xs', t, t', hx, k, k', hk⟩ := hk o o' u u' y y' h h' he g g' hg w w' hyw
  exact ⟨x, x', _, _, r.tryJoin3 q s h0 h1 h2 t, r'.tryJoin3 q' s' h0 h1 h2 t',
    fun i hi => by rw [hv i hi, hw i hi, hy i hi, hx i hi], k, k', hk⟩

theorem Couple.mono {S1 : Sid → Prop} {ps ps' : Fin n → Proc α} {R R' : (Nat → α) → Prop} (h : Couple S1 P ps ps' R R')
    (h1 : ∀ x, S1 x → S x) : Couple S P ps ps' R R' := by
  obtain ⟨o, o', vs, vs', r, r', hv, h, h', he⟩ := h
  exact ⟨o, o', vs, vs', r.mono h1, r'.mono h1, hv, h, h', he⟩

theorem Couple.congr {ps ps' qs qs' : Fin n → Proc α} {R R' : (Nat → α) → Prop} (h : Couple S P ps ps' R R')
    (e : ∀ i, qs i = ps i) (e' : ∀ i, qs' i = ps' i) : Couple S P qs qs' R R' := by
  rw [funext e, funext e']; exact h

theorem Couple.imp {ps ps' : Fin n → Proc α} {R R' Q Q' : (Nat → α) → Prop} (h : Couple S P ps ps' R R')
    (hR : ∀ o, R o → Q o) (hR' : ∀ o, R' o → Q' o) : Couple S P ps ps' Q Q' := by
  obtain ⟨o, o', vs, vs', r, r', hv, h, h', he⟩ := h
  exact ⟨o, o', vs, vs', r, r', hv, hR _ h, hR' _ h', he⟩

end couple

section net
variable [FixedWire F] {n : Nat}

theorem PSS.fft2_couple {pp : PSS F} (hg : pp.Good) (dbg : Bool) (hn : n = 4 * pp.l) {a b : Nat}
    (ha : a < 64) (hlb : pp.l = 2 ^ b) (hgen : pp.secret.offset ^ (4 * 2 ^ b) ≠ 1) {gen : F}
    (hprim : IsPrimitiveRoot gen (2 ^ (a + b))) (φ φ' : Nat → Nat → F → F)
    (hφ : ∀ s ≥ a, ∀ j x, φ (s + 1) j x = φ s (2 * j) (x ^ 2) + x * φ s (2 * j + 1) (x ^ 2))
    (hφ' : ∀ s ≥ a, ∀ j x, φ' (s + 1) j x = φ' s (2 * j) (x ^ 2) + x * φ' s (2 * j + 1) (x ^ 2))
    (g : F) (rearrange : Bool) (P : Fin (2 ^ b) → Nat) (hinj : Function.Injective P) (hlt : ∀ i, P i < 4 * 2 ^ b) :
    ∃ δ : VecTape F, (∀ t i, pp.fftDealt a b rearrange g gen (t.add δ) (P i) = pp.fftDealt a b rearrange g gen t (P i)) ∧
      ∀ (t : VecTape F) (sid : Sid) (rng : Nat → Nat → F) (d : Nat) (px px' : Nat → List F), 2 * pp.l ≤ d → d ≤ 4 * pp.l - 1 →
        pp.SharedVec d (2 ^ a) px (fun c => (List.range (2 ^ b)).map fun j => φ a j (gen ^ (2 ^ b * (c + 1)))) →
        pp.SharedVec d (2 ^ a) px' (fun c => (List.range (2 ^ b)).map fun j => φ' a j (gen ^ (2 ^ b * (c + 1)))) →
        Couple (only sid) P
          (fun i : Fin n => pp.fft2WithRearrange dbg n i (px i) (pp.fftDealt a b rearrange g gen t i) rearrange g gen sid rng)
          (fun i : Fin n => pp.fft2WithRearrange dbg n i (px' i) (pp.fftDealt a b rearrange g gen (t.add δ) i) rearrange g gen sid rng)
          (fun o => pp.SharedVec (2 * pp.l) (2 ^ a) o (packed rearrange a b fun k => g ^ k * φ (a + b) 0 (gen ^ k)))
          (fun o => pp.SharedVec (2 * pp.l) (2 ^ a) o (packed rearrange a b fun k => g ^ k * φ' (a + b) 0 (gen ^ k))) := by
  obtain ⟨δ, hδ, hm⟩ := PSS.fftDealt_shift hg hlb hgen hprim rearrange g P hinj hlt (fun i =>
    φ a (i % 2 ^ b) (gen ^ (2 ^ b * (i / 2 ^ b + 1))) - φ' a (i % 2 ^ b) (gen ^ (2 ^ b * (i / 2 ^ b + 1))))
  refine ⟨δ, hm, fun t sid rng d px px' hd2 hd4 hpx hpx' => ?_⟩
  obtain ⟨r, h⟩ := PSS.fft2_view hg dbg hn ha hlb hprim φ hφ hd2 hd4 hpx g rearrange t sid rng
  obtain ⟨r', h'⟩ := PSS.fft2_view hg dbg hn ha hlb hprim φ' hφ' hd2 hd4 hpx' g rearrange (t.add δ) sid rng
  have e : kingVec a b gen φ' (t.add δ).vals = kingVec a b gen φ t.vals := by
    unfold kingVec
    apply List.map_congr_left
    intro i _
    show _ + (t.vals i + δ.vals i) = _
    rw [hδ]
    ring
  rw [e] at r' h'
  exact ⟨_, _, _, _, r, r', fun i hi => by rw [if_neg hi, if_neg hi], h, h', fun i => by rw [hm]⟩

theorem PSS.dFft_couple {pp : PSS F} (hg : pp.Good) (dbg : Bool) (hn : n = 4 * pp.l) {a b : Nat}
    (ha : a < 64) (hlb : pp.l = 2 ^ b) (hgen : pp.secret.offset ^ (4 * 2 ^ b) ≠ 1) {dom : Domain F} (hsize : dom.size = 2 ^ (a + b))
    (hprim : IsPrimitiveRoot dom.groupGen (2 ^ (a + b))) (x x' : Nat → F) (rearrange : Bool)
    (P : Fin (2 ^ b) → Nat) (hinj : Function.Injective P) (hlt : ∀ i, P i < 4 * 2 ^ b) :
    ∃ δ : VecTape F, (∀ t i, pp.fftDealt a b rearrange 1 dom.groupGen (t.add δ) (P i) = pp.fftDealt a b rearrange 1 dom.groupGen t (P i)) ∧
      ∀ (t : VecTape F) (sid : Sid) (rng : Nat → Nat → F) (d : Nat) (sh sh' : Nat → List F), 2 * pp.l ≤ d → d ≤ 4 * pp.l - 1 →
        pp.SharedVec d (2 ^ a) sh (packed true a b x) → pp.SharedVec d (2 ^ a) sh' (packed true a b x') →
        Couple (only sid) P
          (fun i : Fin n => pp.dFft dbg n i (sh i) (pp.fftDealt a b rearrange 1 dom.groupGen t i) rearrange dom sid rng)
          (fun i : Fin n => pp.dFft dbg n i (sh' i) (pp.fftDealt a b rearrange 1 dom.groupGen (t.add δ) i) rearrange dom sid rng)
          (fun o => pp.SharedVec (2 * pp.l) (2 ^ a) o
            (packed rearrange a b fun k => ∑ u ∈ range (2 ^ (a + b)), (dom.groupGen ^ k) ^ u * x u))
          (fun o => pp.SharedVec (2 * pp.l) (2 ^ a) o
            (packed rearrange a b fun k => ∑ u ∈ range (2 ^ (a + b)), (dom.groupGen ^ k) ^ u * x' u)) := by
  obtain ⟨δ, hm, h⟩ := PSS.fft2_couple (n := n) hg dbg hn ha hlb hgen hprim (bp (fun i => x (bitRev (a + b) i)))
    (bp (fun i => x' (bitRev (a + b) i))) (fun _ _ _ _ => rfl) (fun _ _ _ _ => rfl) 1 rearrange P hinj hlt
  refine ⟨δ, hm, fun t sid rng d sh sh' hd2 hd4 hsh hsh' => ?_⟩
  obtain ⟨px, e1, hpx⟩ := PSS.fft1_shared hlb hprim x hsh
  obtain ⟨px', e1', hpx'⟩ := PSS.fft1_shared hlb hprim x' hsh'
  refine ((h t sid rng d px px' hd2 hd4 hpx hpx').congr (fun i => ?_) (fun i => ?_)).imp (fun o ho => ?_) fun o ho => ?_
  · have hi : i.val < 4 * pp.l := by omega
    unfold PSS.dFft
    rw [debugAssert_of (by rw [hsh.1 i hi, hlb, hsize, pow_add]; simp), e1 i hi]
    rfl
  · have hi : i.val < 4 * pp.l := by omega
    unfold PSS.dFft
    rw [debugAssert_of (by rw [hsh'.1 i hi, hlb, hsize, pow_add]; simp), e1' i hi]
    rfl
  · refine SharedVec.congr ho (fun _ _ => rfl) fun c hc => ?_
    congr 1
    funext k
    rw [bp_top, one_pow, one_mul]
  · refine SharedVec.congr ho (fun _ _ => rfl) fun c hc => ?_
    congr 1
    funext k
    rw [bp_top, one_pow, one_mul]

theorem PSS.dIfft_couple {pp : PSS F} (hg : pp.Good) (dbg : Bool) (hn : n = 4 * pp.l) {a b : Nat}
    (ha : a < 64) (hlb : pp.l = 2 ^ b) (hgen : pp.secret.offset ^ (4 * 2 ^ b) ≠ 1) {dom : Domain F} (hsize : dom.size = 2 ^ (a + b))
    (hprim : IsPrimitiveRoot dom.groupGenInv (2 ^ (a + b))) (x x' : Nat → F) (g : F) (rearrange : Bool)
    (P : Fin (2 ^ b) → Nat) (hinj : Function.Injective P) (hlt : ∀ i, P i < 4 * 2 ^ b) :
    ∃ δ : VecTape F, (∀ t i, pp.fftDealt a b rearrange g dom.groupGenInv (t.add δ) (P i) =
        pp.fftDealt a b rearrange g dom.groupGenInv t (P i)) ∧
      ∀ (t : VecTape F) (sid : Sid) (rng : Nat → Nat → F) (d : Nat) (sh sh' : Nat → List F), 2 * pp.l ≤ d → d ≤ 4 * pp.l - 1 →
        pp.SharedVec d (2 ^ a) sh (packed true a b x) → pp.SharedVec d (2 ^ a) sh' (packed true a b x') →
        Couple (only sid) P
          (fun i : Fin n => pp.dIfft dbg n i (sh i) (pp.fftDealt a b rearrange g dom.groupGenInv t i) rearrange dom g sid rng)
          (fun i : Fin n => pp.dIfft dbg n i (sh' i) (pp.fftDealt a b rearrange g dom.groupGenInv (t.add δ) i) rearrange dom g sid rng)
          (fun o => pp.SharedVec (2 * pp.l) (2 ^ a) o
            (packed rearrange a b fun k => g ^ k * ∑ u ∈ range (2 ^ (a + b)), (dom.groupGenInv ^ k) ^ u * (x u * dom.sizeInv)))
          (fun o => pp.SharedVec (2 * pp.l) (2 ^ a) o
            (packed rearrange a b fun k => g ^ k * ∑ u ∈ range (2 ^ (a + b)), (dom.groupGenInv ^ k) ^ u * (x' u * dom.sizeInv))) := by
  obtain ⟨δ, hm, h⟩ := PSS.fft2_couple (n := n) hg dbg hn ha hlb hgen hprim
    (bp (fun i => (fun i => x i * dom.sizeInv) (bitRev (a + b) i)))
    (bp (fun i => (fun i => x' i * dom.sizeInv) (bitRev (a + b) i))) (fun _ _ _ _ => rfl) (fun _ _ _ _ => rfl) g rearrange P hinj hlt
  refine ⟨δ, hm, fun t sid rng d sh sh' hd2 hd4 hsh hsh' => ?_⟩
  have scaled : ∀ (x : Nat → F) (sh : Nat → List F), pp.SharedVec d (2 ^ a) sh (packed true a b x) →
      pp.SharedVec d (2 ^ a) (fun p => (sh p).map fun z => z * dom.sizeInv) (packed true a b fun i => x i * dom.sizeInv) := fun x sh hsh =>
    SharedVec.congr (SharedVec.scale hsh dom.sizeInv) (fun _ _ => rfl) fun c hc => packed_smul _ _ _ _ _ _
  obtain ⟨px, e1, hpx⟩ := PSS.fft1_shared hlb hprim _ (scaled x sh hsh)
  obtain ⟨px', e1', hpx'⟩ := PSS.fft1_shared hlb hprim _ (scaled x' sh' hsh')
  refine ((h t sid rng d px px' hd2 hd4 hpx hpx').congr (fun i => ?_) (fun i => ?_)).imp (fun o ho => ?_) fun o ho => ?_
  · have hi : i.val < 4 * pp.l := by omega
    unfold PSS.dIfft
    have e := e1 i hi
    rw [debugAssert_of (by rw [hsh.1 i hi, hlb, hsize, pow_add]; simp)]
    dsimp only
    rw [e]
    rfl
  · have hi : i.val < 4 * pp.l := by omega
    unfold PSS.dIfft
    have e := e1' i hi
    rw [debugAssert_of (by rw [hsh'.1 i hi, hlb, hsize, pow_add]; simp)]
    dsimp only
    rw [e]
    rfl
  · refine SharedVec.congr ho (fun _ _ => rfl) fun c hc => ?_
    congr 1
    funext k
    rw [bp_top fun i => x i * dom.sizeInv]
  · refine SharedVec.congr ho (fun _ _ => rfl) fun c hc => ?_
    congr 1
    funext k
    rw [bp_top fun i => x' i * dom.sizeInv]

theorem PSS.degRed_couple {pp : PSS F} (hg : pp.Good) (dbg : Bool) {l : Nat} (hle : pp.l = l) (hn : n = 4 * pp.l)
    (hgen : pp.secret.offset ^ (4 * l) ≠ 1) {N : Nat} (hN : 0 < N) (hN64 : N < 2 ^ 64) (sec sec' : Nat → List F)
    (hs : ∀ c < N, (sec c).length = l) (hs' : ∀ c < N, (sec' c).length = l)
    (P : Fin l → Nat) (hinj : Function.Injective P) (hlt : ∀ i, P i < 4 * l) :
    ∃ δ : VecTape F, (∀ t i, pp.degDealt N (t.add δ) (P i) = pp.degDealt N t (P i)) ∧
      ∀ (t : VecTape F) (sid : Sid) (rng : Nat → Nat → F) (d : Nat) (sh sh' : Nat → List F), 2 * pp.l ≤ d → d ≤ 4 * pp.l - 1 →
        pp.SharedVec d N sh sec → pp.SharedVec d N sh' sec' →
        Couple (only sid) P (fun i : Fin n => pp.degRed dbg n i (sh i) (pp.degDealt N t i) sid rng)
          (fun i : Fin n => pp.degRed dbg n i (sh' i) (pp.degDealt N (t.add δ) i) sid rng)
          (fun o => pp.SharedVec (2 * pp.l) N o sec) (fun o => pp.SharedVec (2 * pp.l) N o sec') := by
  have hl := hg.lpos
  obtain ⟨δ, hδ, hm⟩ := PSS.degDealt_shift hg hle hgen N P hinj hlt
    (fun i => (sec (i / l)).getD (i % l) 0 - (sec' (i / l)).getD (i % l) 0)
  refine ⟨δ, hm, fun t sid rng d sh sh' hd2 hd4 hsh hsh' => ?_⟩
  obtain ⟨r, h⟩ := PSS.degRed_view hg dbg hn hN hN64 hd2 hd4 hsh t sid rng
  obtain ⟨r', h'⟩ := PSS.degRed_view hg dbg hn hN hN64 hd2 hd4 hsh' (t.add δ) sid rng
  have e : ∀ p, pp.freshVec N (fun c => List.zipWith (· + ·) (sec' c) (chunks pp.l (t.add δ).vals c)) rng p =
      pp.freshVec N (fun c => List.zipWith (· + ·) (sec c) (chunks pp.l t.vals c)) rng p := by
    refine fun p => PSS.freshVec_congr (fun c hc => ?_) _ _
    subst hle
    apply list_ext_getD 0 (by simp [hs c hc, hs' c hc, chunks])
    intro j hj
    have hj : j < pp.l := by simpa [hs' c hc, chunks] using hj
    rw [getD_zipWith _ _ _ _ 0 0 _ (by rw [hs' c hc]; exact hj) (by rw [chunks_length]; exact hj),
      getD_zipWith _ _ _ _ 0 0 _ (by rw [hs c hc]; exact hj) (by rw [chunks_length]; exact hj)]
    rw [chunks, getD_map_range, if_pos hj, chunks, getD_map_range, if_pos hj]
    show _ + (t.vals _ + δ.vals _) = _
    rw [hδ]
    dsimp only
    rw [show (c * pp.l + j) / pp.l = c by
      rw [Nat.mul_comm, Nat.mul_add_div hl, Nat.div_eq_of_lt hj, Nat.add_zero], show (c * pp.l + j) % pp.l = j by
      rw [Nat.mul_comm, Nat.mul_add_mod, Nat.mod_eq_of_lt hj]]
    ring
  simp only [e] at r' h'
  exact ⟨_, _, _, _, r, r', fun i hi => by rw [if_neg hi, if_neg hi], h, h', fun i => by rw [hm]⟩

end net

section net
variable [FixedWire T] {n : Nat}

theorem PSS.dMsm_couple {pp : PSS F} (hg : pp.Good) (dbg : Bool) {l : Nat} (hle : pp.l = l) (hn : n = 4 * pp.l)
    (hgen : pp.secret.offset ^ (4 * l) ≠ 1) (gen tot tot' : T) (hD : ∃ c : F, c • gen = tot - tot')
    (P : Fin l → Nat) (hinj : Function.Injective P) (hlt : ∀ i, P i < 4 * l) :
    ∃ δ : MsmTape F T, (∀ t i, pp.msmDealt gen (t.add δ) (P i) = pp.msmDealt gen t (P i)) ∧
      ∀ (t : MsmTape F T) (sid : Sid) (N d1 d2 : Nat) (bs bs' bsec bsec' : Nat → List T) (ss ss' ssec ssec' : Nat → List F),
        2 * pp.l ≤ d2 + d1 - 1 → d2 + d1 - 1 ≤ 4 * pp.l - 1 →
        pp.SharedVec d1 N bs bsec → pp.SharedVec d1 N bs' bsec' → pp.SharedVec d2 N ss ssec → pp.SharedVec d2 N ss' ssec' →
        ∑ k ∈ range pp.l, ∑ c ∈ range N, (ssec c).getD k 0 • (bsec c).getD k 0 = tot →
        ∑ k ∈ range pp.l, ∑ c ∈ range N, (ssec' c).getD k 0 • (bsec' c).getD k 0 = tot' →
        Couple (only sid) P (fun i : Fin n => pp.dMsm dbg n i (bs i) (ss i) (pp.msmDealt gen t i) sid)
          (fun i : Fin n => pp.dMsm dbg n i (bs' i) (ss' i) (pp.msmDealt gen (t.add δ) i) sid)
          (fun o => pp.Shares (2 * pp.l) ((List.range (4 * pp.l)).map o) (List.replicate pp.l tot))
          (fun o => pp.Shares (2 * pp.l) ((List.range (4 * pp.l)).map o) (List.replicate pp.l tot')) := by
  obtain ⟨δ, hδ, hm⟩ := PSS.msmDealt_shift hg hle hgen gen P hinj hlt hD
  refine ⟨δ, hm, fun t sid N d1 d2 bs bs' bsec bsec' ss ss' ssec ssec' hd2 hd4 hb hb' hs hs' ht ht' => ?_⟩
  obtain ⟨r, h⟩ := PSS.dMsm_view hg dbg hn hd2 hd4 hb hs gen t sid ht
  obtain ⟨r', h'⟩ := PSS.dMsm_view hg dbg hn hd2 hd4 hb' hs' gen (t.add δ) sid ht'
  have e : tot' + ((List.range pp.l).map fun i => (t.add δ).vals i • gen).sum =
      tot + ((List.range pp.l).map fun i => t.vals i • gen).sum := by
    rw [hδ]; abel
  rw [e] at r' h'
  exact ⟨_, _, _, _, r, r', fun i hi => by rw [if_neg hi, if_neg hi], h, h', fun i => by rw [hm]⟩

end net

end ZkSaas
