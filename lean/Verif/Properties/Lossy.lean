import Verif.Lemmas.LossyProtocols
import Verif.Properties.Protocols

/-!
# C23, C40: dropouts

Executions with arbitrary failures (`Any`: messages late, sends and receives failing, the king's time-out firing at any
moment) instead of the reliable ones of the other files.
-/

set_option linter.unusedSectionVars false

namespace ZkSaas.Properties

open Finset Spec

variable {F : Type} [Field F] [DecidableEq F] [FftField F]

/-- In `c` the king (party `0`) is still collecting messages and has those of `got`. -/
def KingHas {n : Nat} {α : Type} (c : Net n α) (got : Nat → Option Bytes) : Prop :=
  ∃ (h0 : 0 < n) (s : Sid) (m : Nat) (own : Bytes) (cont : List (Nat × Bytes) → Proc α),
    c.procs ⟨0, h0⟩ = .gather s m own got cont

/-- At most one party's message is missing. -/
def AtMostOneMissing (n : Nat) (got : Nat → Option Bytes) : Prop := ∃ j, ∀ i, 1 ≤ i → i < n → i ≠ j → got i ≠ none

theorem AtMostOneMissing.answered {n : Nat} {got : Nat → Option Bytes} (h : AtMostOneMissing n got) : n - 1 ≤ answered n got := by
  obtain ⟨j, hj⟩ := h
  unfold ZkSaas.answered
  have hnd : ((List.range n).filter fun i => decide (i = 0 ∨ (got i).isSome = true)).Nodup := List.nodup_range.filter _
  rw [← List.toFinset_card_of_nodup hnd]
  have hsub : (Finset.range n).erase j ⊆ ((List.range n).filter fun i => decide (i = 0 ∨ (got i).isSome = true)).toFinset := by
    intro i hi
    rw [Finset.mem_erase, Finset.mem_range] at hi
    rw [List.mem_toFinset, List.mem_filter, List.mem_range]
    refine ⟨hi.2, ?_⟩
    rw [decide_eq_true_eq]
    by_cases hz : i = 0
    · exact Or.inl hz
    · exact Or.inr (Option.isSome_iff_ne_none.2 (hj i (by omega) hi.2 hi.1))
  refine le_trans ?_ (Finset.card_le_card hsub)
  have := Finset.pred_card_le_card_erase (s := Finset.range n) (a := j)
  rwa [Finset.card_range] at this

section fft
variable [FixedWire F]

theorem dFft_lossy {dbg₀ : Bool} {b : Nat} {pp : PSS F} (hpp : PSS.new dbg₀ (2 ^ b) = .ok pp) (dbg : Bool) (a : Nat) (ha : a < 64)
    {dom : Domain F} (hdom : Domain.new (2 ^ (a + b)) = some dom) {sh : Nat → List F} {coeffs : List F}
    (hsh : HoldsInput pp a b sh coeffs) (rearrange : Bool) {masks : Nat → FftMask F}
    (hm : IsFftMasks pp rearrange 1 dom.groupGen (2 ^ (a + b)) masks) (sid : Sid) (rng : Nat → Nat → F)
    {k k' : Nat} {c c' : Net (4 * 2 ^ b) (List F)}
    (hc : GSteps Any k (Net.init fun i : Fin (4 * 2 ^ b) =>
      pp.dFft dbg (4 * 2 ^ b) i (sh i) (masks i) rearrange dom sid rng) c)
    (hcase : (dbg = true ∧ k = 0) ∨ ∃ got, KingHas c got ∧ (dbg = true ∨ 4 * 2 ^ b - 1 ≤ answered (4 * 2 ^ b) got))
    (hc' : GSteps Any k' c c') :
    ∃ outs : Nat → List F, HoldsOutput pp rearrange a b outs (dom.fft coeffs) ∧
      ∀ i v, c'.procs i = .done (.ok v) → v = outs i := by
  have hle := l_eq hpp
  have hg := PSS.good_of_new hpp
  obtain ⟨hwf, hoff, -, hsize⟩ := Domain.new_pow2 hdom
  have hprim : IsPrimitiveRoot dom.groupGen (2 ^ (a + b)) := hsize ▸ hwf.prim
  obtain ⟨hlen, d, hd2, hd4, hs⟩ := hsh
  rw [← hle] at hs hd2 hd4
  obtain ⟨px, e, hpx⟩ := PSS.dFft_split dbg hle hsize hprim _ hs (4 * 2 ^ b) (by rw [hle]) masks rearrange sid rng
  rw [e] at hc
  obtain ⟨h0, s, m, own, got, cont, hgot, hen⟩ : ∃ (h0 : 0 < 4 * 2 ^ b) (s : Sid) (m : Nat) (own : Bytes) (got : Nat → Option Bytes)
      (cont : List (Nat × Bytes) → Proc (List F)), c.procs ⟨0, h0⟩ = .gather s m own got cont ∧
      Enough pp dbg d (answered (4 * 2 ^ b) got) := by
    rcases hcase with ⟨hd, rfl⟩ | ⟨got, ⟨h0, s, m, own, cont, hgot⟩, hen⟩
    · cases hc
      exact ⟨by positivity, sid, _, _, fun _ => none, _, rfl, Or.inl hd⟩
    · exact ⟨h0, s, m, own, got, cont, hgot, hen.imp id fun h => by rw [hle] at hd4; omega⟩
  obtain ⟨outs, ho, hv⟩ := PSS.fft2WithRearrange_lossy hg dbg (by rw [hle]) h0 ha hle hprim
    (bp (fun i => coeffs.getD (bitRev (a + b) i) 0)) (fun _ _ _ _ => rfl) hd2 hd4 hpx 1 rearrange (hm.ok hpp hprim) sid rng hc hgot
    hen hc'
  refine ⟨outs, ⟨by simp [hsize], ?_⟩, hv⟩
  rw [← hle]
  refine SharedVec.congr ho (fun _ _ => rfl) fun c hc => packed_congr _ hc fun i hi => ?_
  rw [one_pow, one_mul]
  exact (bp_top (fun i => coeffs.getD i 0) _ _).trans (Domain.sum_eq_fft hoff hsize _ hi)

theorem dIfft_lossy {dbg₀ : Bool} {b : Nat} {pp : PSS F} (hpp : PSS.new dbg₀ (2 ^ b) = .ok pp) (dbg : Bool) (a : Nat) (ha : a < 64)
    {dom : Domain F} (hdom : Domain.new (2 ^ (a + b)) = some dom) {sh : Nat → List F} {evals : List F}
    (hsh : HoldsInput pp a b sh evals) (g : F) (rearrange : Bool) {masks : Nat → FftMask F}
    (hm : IsFftMasks pp rearrange g dom.groupGenInv (2 ^ (a + b)) masks) (sid : Sid) (rng : Nat → Nat → F)
    {k k' : Nat} {c c' : Net (4 * 2 ^ b) (List F)}
    (hc : GSteps Any k (Net.init fun i : Fin (4 * 2 ^ b) =>
      pp.dIfft dbg (4 * 2 ^ b) i (sh i) (masks i) rearrange dom g sid rng) c)
    (hcase : (dbg = true ∧ k = 0) ∨ ∃ got, KingHas c got ∧ (dbg = true ∨ 4 * 2 ^ b - 1 ≤ answered (4 * 2 ^ b) got))
    (hc' : GSteps Any k' c c') :
    ∃ outs : Nat → List F,
      HoldsOutput pp rearrange a b outs ((List.range (2 ^ (a + b))).map fun k => g ^ k * (dom.ifft evals).getD k 0) ∧
      ∀ i v, c'.procs i = .done (.ok v) → v = outs i := by
  have hle := l_eq hpp
  have hg := PSS.good_of_new hpp
  obtain ⟨hwf, -, hoff, hsize⟩ := Domain.new_pow2 hdom
  have hprim : IsPrimitiveRoot dom.groupGenInv (2 ^ (a + b)) := by
    rw [hwf.ginv]; exact hsize ▸ hwf.prim.inv
  obtain ⟨hlen, d, hd2, hd4, hs⟩ := hsh
  rw [← hle] at hs hd2 hd4
  obtain ⟨px, e, hpx⟩ := PSS.dIfft_split dbg hle hsize hprim _ hs (4 * 2 ^ b) (by rw [hle]) g masks rearrange sid rng
  rw [e] at hc
  obtain ⟨h0, s, m, own, got, cont, hgot, hen⟩ : ∃ (h0 : 0 < 4 * 2 ^ b) (s : Sid) (m : Nat) (own : Bytes) (got : Nat → Option Bytes)
      (cont : List (Nat × Bytes) → Proc (List F)), c.procs ⟨0, h0⟩ = .gather s m own got cont ∧
      Enough pp dbg d (answered (4 * 2 ^ b) got) := by
    rcases hcase with ⟨hd, rfl⟩ | ⟨got, ⟨h0, s, m, own, cont, hgot⟩, hen⟩
    · cases hc
      exact ⟨by positivity, sid, _, _, fun _ => none, _, rfl, Or.inl hd⟩
    · exact ⟨h0, s, m, own, got, cont, hgot, hen.imp id fun h => by rw [hle] at hd4; omega⟩
  obtain ⟨outs, ho, hv⟩ := PSS.fft2WithRearrange_lossy hg dbg (by rw [hle]) h0 ha hle hprim
    (bp (fun i => evals.getD (bitRev (a + b) i) 0 * dom.sizeInv)) (fun _ _ _ _ => rfl) hd2 hd4 hpx g rearrange (hm.ok hpp hprim)
    sid rng hc hgot hen hc'
  refine ⟨outs, ⟨by simp, ?_⟩, hv⟩
  rw [← hle]
  refine SharedVec.congr ho (fun _ _ => rfl) fun c hc => packed_congr _ hc fun i hi => ?_
  rw [getD_map_range, if_pos hi, ← Domain.sum_eq_ifft hoff hsize _ hi]
  congr 1
  exact bp_top (fun i => evals.getD i 0 * dom.sizeInv) _ _

/-- **C23** `d_fft` survives the loss of one message to the king. Take any execution with arbitrary failures and any moment at
which the king is still waiting and at most one message is missing: whatever happens afterwards (in particular when the
time-out fires right away, in either build profile, whatever the iteration order of the hash map), every party that
finishes successfully holds its share of the Fourier transform. -/
theorem C23_d_fft_one_missing {dbg₀ : Bool} {b : Nat} {pp : PSS F} (hpp : PSS.new dbg₀ (2 ^ b) = .ok pp) (dbg : Bool) (a : Nat)
    (ha : a < 64) {dom : Domain F} (hdom : Domain.new (2 ^ (a + b)) = some dom) (sh : Nat → List F) (coeffs : List F)
    (hsh : HoldsInput pp a b sh coeffs) (rearrange : Bool) (masks : Nat → FftMask F)
    (hm : IsFftMasks pp rearrange 1 dom.groupGen (2 ^ (a + b)) masks) (sid : Sid) (rng : Nat → Nat → F)
    (k k' : Nat) (c c' : Net (4 * 2 ^ b) (List F))
    (hc : GSteps Any k (Net.init fun i : Fin (4 * 2 ^ b) =>
      pp.dFft dbg (4 * 2 ^ b) i (sh i) (masks i) rearrange dom sid rng) c)
    (got : Nat → Option Bytes) (hgot : KingHas c got) (hone : AtMostOneMissing (4 * 2 ^ b) got)
    (hc' : GSteps Any k' c c') :
    ∃ outs : Nat → List F, HoldsOutput pp rearrange a b outs (dom.fft coeffs) ∧
      ∀ i v, c'.procs i = .done (.ok v) → v = outs i :=
  dFft_lossy hpp dbg a ha hdom hsh rearrange hm sid rng hc (Or.inr ⟨got, hgot, Or.inr hone.answered⟩) hc'

/-- **C23** The same for `d_ifft`. -/
theorem C23_d_ifft_one_missing {dbg₀ : Bool} {b : Nat} {pp : PSS F} (hpp : PSS.new dbg₀ (2 ^ b) = .ok pp) (dbg : Bool) (a : Nat)
    (ha : a < 64) {dom : Domain F} (hdom : Domain.new (2 ^ (a + b)) = some dom) (sh : Nat → List F) (evals : List F)
    (hsh : HoldsInput pp a b sh evals) (g : F) (rearrange : Bool) (masks : Nat → FftMask F)
    (hm : IsFftMasks pp rearrange g dom.groupGenInv (2 ^ (a + b)) masks) (sid : Sid) (rng : Nat → Nat → F)
    (k k' : Nat) (c c' : Net (4 * 2 ^ b) (List F))
    (hc : GSteps Any k (Net.init fun i : Fin (4 * 2 ^ b) =>
      pp.dIfft dbg (4 * 2 ^ b) i (sh i) (masks i) rearrange dom g sid rng) c)
    (got : Nat → Option Bytes) (hgot : KingHas c got) (hone : AtMostOneMissing (4 * 2 ^ b) got)
    (hc' : GSteps Any k' c c') :
    ∃ outs : Nat → List F,
      HoldsOutput pp rearrange a b outs ((List.range (2 ^ (a + b))).map fun k => g ^ k * (dom.ifft evals).getD k 0) ∧
      ∀ i v, c'.procs i = .done (.ok v) → v = outs i :=
  dIfft_lossy hpp dbg a ha hdom hsh g rearrange hm sid rng hc (Or.inr ⟨got, hgot, Or.inr hone.answered⟩) hc'

/-- **C23** Such executions exist for every missing party and every order of the survivors: the king hears `parties`, all but
one, times out, and every party finishes with its share of the Fourier transform. -/
theorem C23_d_fft_finishes {dbg₀ : Bool} {b : Nat} {pp : PSS F} (hpp : PSS.new dbg₀ (2 ^ b) = .ok pp) (dbg : Bool) (a : Nat)
    (ha : a < 64) {dom : Domain F} (hdom : Domain.new (2 ^ (a + b)) = some dom) (sh : Nat → List F) (coeffs : List F)
    (hsh : HoldsInput pp a b sh coeffs) (rearrange : Bool) (masks : Nat → FftMask F)
    (hm : IsFftMasks pp rearrange 1 dom.groupGen (2 ^ (a + b)) masks) (sid : Sid) (rng : Nat → Nat → F)
    (parties : List Nat) (hnd : parties.Nodup) (hlt : ∀ p ∈ parties, p < 4 * 2 ^ b) (h0 : 0 ∈ parties)
    (hlen : parties.length = 4 * 2 ^ b - 1) :
    ∃ (k : Nat) (outs : Nat → List F) (Q : Queues),
      GSteps Any k (Net.init fun i : Fin (4 * 2 ^ b) => pp.dFft dbg (4 * 2 ^ b) i (sh i) (masks i) rearrange dom sid rng)
        ⟨fun i => .done (.ok (outs i)), Q⟩ ∧
      (∀ p < 4 * 2 ^ b, Q (p, 0, sid) = [] ↔ p ∈ parties) ∧
      HoldsOutput pp rearrange a b outs (dom.fft coeffs) := by
  have hle := l_eq hpp
  have hg := PSS.good_of_new hpp
  have hl := hg.lpos
  obtain ⟨hwf, hoff, -, hsize⟩ := Domain.new_pow2 hdom
  have hprim : IsPrimitiveRoot dom.groupGen (2 ^ (a + b)) := hsize ▸ hwf.prim
  obtain ⟨hlenc, d, hd2, hd4, hs⟩ := hsh
  rw [← hle] at hs hd2 hd4
  obtain ⟨px, e, hpx⟩ := PSS.dFft_split dbg hle hsize hprim _ hs (4 * 2 ^ b) (by rw [hle]) masks rearrange sid rng
  obtain ⟨k, outs, hk, ho⟩ := PSS.fft2WithRearrange_timeout hg dbg (by rw [hle]) ha hle hprim
    (bp (fun i => coeffs.getD (bitRev (a + b) i) 0)) (fun _ _ _ _ => rfl) hd2 hd4 hpx 1 rearrange (hm.ok hpp hprim) sid rng
    hnd hlt h0 (by rw [← hle] at hlen ⊢; omega) (by rw [← hle] at hlen; omega) (fun _ => by rw [← hle] at hlen; omega)
  rw [← e] at hk
  refine ⟨k, outs, _, hk, ?_, by simp [hsize], ?_⟩
  · intro p hp
    unfold leftOver
    by_cases hpp : p ∈ parties
    · simp [hpp]
    · simp [hpp, hp]
  · rw [← hle]
    refine SharedVec.congr ho (fun _ _ => rfl) fun c hc => packed_congr _ hc fun i hi => ?_
    rw [one_pow, one_mul]
    exact (bp_top (fun i => coeffs.getD i 0) _ _).trans (Domain.sum_eq_fft hoff hsize _ hi)

/-- **C40** (debug builds) Whatever fails and whoever is missing: a party of a debug build that finishes `d_fft` successfully holds
its share of the right result. -/
theorem C40_debug_d_fft {dbg₀ : Bool} {b : Nat} {pp : PSS F} (hpp : PSS.new dbg₀ (2 ^ b) = .ok pp) (a : Nat)
    (ha : a < 64) {dom : Domain F} (hdom : Domain.new (2 ^ (a + b)) = some dom) (sh : Nat → List F) (coeffs : List F)
    (hsh : HoldsInput pp a b sh coeffs) (rearrange : Bool) (masks : Nat → FftMask F)
    (hm : IsFftMasks pp rearrange 1 dom.groupGen (2 ^ (a + b)) masks) (sid : Sid) (rng : Nat → Nat → F)
    (k : Nat) (c : Net (4 * 2 ^ b) (List F))
    (hc : GSteps Any k (Net.init fun i : Fin (4 * 2 ^ b) =>
      pp.dFft true (4 * 2 ^ b) i (sh i) (masks i) rearrange dom sid rng) c) :
    ∃ outs : Nat → List F, HoldsOutput pp rearrange a b outs (dom.fft coeffs) ∧
      ∀ i v, c.procs i = .done (.ok v) → v = outs i :=
  dFft_lossy hpp true a ha hdom hsh rearrange hm sid rng (.refl _) (Or.inl ⟨rfl, rfl⟩) hc

/-- **C40** (debug builds) The same for `d_ifft`. -/
theorem C40_debug_d_ifft {dbg₀ : Bool} {b : Nat} {pp : PSS F} (hpp : PSS.new dbg₀ (2 ^ b) = .ok pp) (a : Nat)
    (ha : a < 64) {dom : Domain F} (hdom : Domain.new (2 ^ (a + b)) = some dom) (sh : Nat → List F) (evals : List F)
    (hsh : HoldsInput pp a b sh evals) (g : F) (rearrange : Bool) (masks : Nat → FftMask F)
    (hm : IsFftMasks pp rearrange g dom.groupGenInv (2 ^ (a + b)) masks) (sid : Sid) (rng : Nat → Nat → F)
    (k : Nat) (c : Net (4 * 2 ^ b) (List F))
    (hc : GSteps Any k (Net.init fun i : Fin (4 * 2 ^ b) =>
      pp.dIfft true (4 * 2 ^ b) i (sh i) (masks i) rearrange dom g sid rng) c) :
    ∃ outs : Nat → List F,
      HoldsOutput pp rearrange a b outs ((List.range (2 ^ (a + b))).map fun k => g ^ k * (dom.ifft evals).getD k 0) ∧
      ∀ i v, c.procs i = .done (.ok v) → v = outs i :=
  dIfft_lossy hpp true a ha hdom hsh g rearrange hm sid rng (.refl _) (Or.inl ⟨rfl, rfl⟩) hc

end fft

section degred
variable {T : Type} [AddCommGroup T] [Module F T] [DecidableEq T] [FixedWire T]

/-- **C40** (debug builds) The same for `deg_red`. -/
theorem C40_debug_deg_red {dbg₀ : Bool} {b : Nat} {pp : PSS F} (hpp : PSS.new dbg₀ (2 ^ b) = .ok pp) {N d : Nat}
    (hN : 0 < N) (hN64 : N < 2 ^ 64) (hd2 : 2 * 2 ^ b ≤ d) (hd4 : d ≤ 4 * 2 ^ b - 1) (sh sec : Nat → List T)
    (hsh : Spec.SharedVec pp.share.groupGen pp.secret.offset (2 ^ b) d N sh sec)
    (masks : Nat → DegRedMask T) (hm : IsDegRedMasks pp N masks) (sid : Sid) (rng : Nat → Nat → T)
    (k : Nat) (c : Net (4 * 2 ^ b) (List T))
    (hc : GSteps Any k (Net.init fun i : Fin (4 * 2 ^ b) => pp.degRed true (4 * 2 ^ b) i (sh i) (masks i) sid rng) c) :
    ∃ outs : Nat → List T,
      Spec.SharedVec pp.share.groupGen pp.secret.offset (2 ^ b) (2 * 2 ^ b) N outs sec ∧
      ∀ i v, c.procs i = .done (.ok v) → v = outs i := by
  have hle := l_eq hpp
  have hg := PSS.good_of_new hpp
  have hl := hg.lpos
  rw [← hle] at hd2 hd4 hsh
  have hok := hm.ok hpp hN
  obtain ⟨own, cont, hgot⟩ : ∃ own cont, (Net.init fun i : Fin (4 * 2 ^ b) =>
      pp.degRed true (4 * 2 ^ b) i (sh i) (masks i) sid rng).procs ⟨0, by positivity⟩ =
        .gather sid (4 * 2 ^ b) own (fun _ => none) cont := by
    obtain ⟨v, hin, hout⟩ := hok
    simp only [Net.init]
    unfold PSS.degRed
    rw [debugAssert_of (by rw [hsh.1 0 (by omega), hin.1 0 (by omega)]; simp),
      debugAssert_of (by rw [hsh.1 0 (by omega), hout.1 0 (by omega)]; simp)]
    exact ⟨_, _, rfl⟩
  obtain ⟨outs, ho, hv⟩ := PSS.degRed_lossy (n := 4 * 2 ^ b) hg true (by rw [hle]) (by positivity) hN hN64 hd2 hd4 hsh hok sid rng
    (.refl _) hgot (Or.inl rfl) hc
  exact ⟨outs, by rw [← hle]; exact ho, hv⟩

/-- **C40** (any build) `deg_red` is right whenever the king hears at least as many parties as the sharing has
coefficients. -/
theorem C40_enough_deg_red {dbg₀ : Bool} {b : Nat} {pp : PSS F} (hpp : PSS.new dbg₀ (2 ^ b) = .ok pp) (dbg : Bool) {N d : Nat}
    (hN : 0 < N) (hN64 : N < 2 ^ 64) (hd2 : 2 * 2 ^ b ≤ d) (hd4 : d ≤ 4 * 2 ^ b - 1) (sh sec : Nat → List T)
    (hsh : Spec.SharedVec pp.share.groupGen pp.secret.offset (2 ^ b) d N sh sec)
    (masks : Nat → DegRedMask T) (hm : IsDegRedMasks pp N masks) (sid : Sid) (rng : Nat → Nat → T)
    (k k' : Nat) (c c' : Net (4 * 2 ^ b) (List T))
    (hc : GSteps Any k (Net.init fun i : Fin (4 * 2 ^ b) => pp.degRed dbg (4 * 2 ^ b) i (sh i) (masks i) sid rng) c)
    (got : Nat → Option Bytes) (hgot : KingHas c got) (hen : d ≤ answered (4 * 2 ^ b) got) (hc' : GSteps Any k' c c') :
    ∃ outs : Nat → List T,
      Spec.SharedVec pp.share.groupGen pp.secret.offset (2 ^ b) (2 * 2 ^ b) N outs sec ∧
      ∀ i v, c'.procs i = .done (.ok v) → v = outs i := by
  have hle := l_eq hpp
  have hg := PSS.good_of_new hpp
  rw [← hle] at hd2 hd4 hsh
  obtain ⟨h0, s, m, own, cont, hgot⟩ := hgot
  obtain ⟨outs, ho, hv⟩ := PSS.degRed_lossy (n := 4 * 2 ^ b) hg dbg (by rw [hle]) h0 hN hN64 hd2 hd4 hsh (hm.ok hpp hN) sid rng
    hc hgot (Or.inr hen) hc'
  exact ⟨outs, by rw [← hle]; exact ho, hv⟩

end degred

section dmsm
variable {G : Type} [AddCommGroup G] [Module F G] [DecidableEq G] [FixedWire G]

/-- **C40** (debug builds) The same for `d_msm`. -/
theorem C40_debug_d_msm {dbg₀ : Bool} {b : Nat} {pp : PSS F} (hpp : PSS.new dbg₀ (2 ^ b) = .ok pp) {N : Nat}
    (sb : Nat → List G) (ss : Nat → List F) (bases : Nat → G) (scalars : Nat → F)
    (hb : Spec.SharedVec pp.share.groupGen pp.secret.offset (2 ^ b) (2 * 2 ^ b) N sb (chunks (2 ^ b) bases))
    (hs : Spec.SharedVec pp.share.groupGen pp.secret.offset (2 ^ b) (2 * 2 ^ b) N ss (chunks (2 ^ b) scalars))
    (masks : Nat → MsmMask G) (hm : IsMsmMasks pp masks) (sid : Sid) (k : Nat) (c : Net (4 * 2 ^ b) G)
    (hc : GSteps Any k (Net.init fun i : Fin (4 * 2 ^ b) => pp.dMsm true (4 * 2 ^ b) i (sb i) (ss i) (masks i) sid) c) :
    ∃ outs : Nat → G,
      Spec.Sharing pp.share.groupGen pp.secret.offset (2 ^ b) (2 * 2 ^ b) ((List.range (4 * 2 ^ b)).map outs)
        (List.replicate (2 ^ b) (∑ k ∈ range (2 ^ b), ∑ c ∈ range N, scalars (c * 2 ^ b + k) • bases (c * 2 ^ b + k))) ∧
      ∀ i v, c.procs i = .done (.ok v) → v = outs i := by
  have hle := l_eq hpp
  have hg := PSS.good_of_new hpp
  have hl := hg.lpos
  rw [← hle] at hb hs
  obtain ⟨own, cont, hgot⟩ : ∃ own cont, (Net.init fun i : Fin (4 * 2 ^ b) =>
      pp.dMsm true (4 * 2 ^ b) i (sb i) (ss i) (masks i) sid).procs ⟨0, by positivity⟩ =
        .gather sid (4 * 2 ^ b) own (fun _ => none) cont := by
    obtain ⟨cs, e1, -⟩ := msm_shared hb hs
    simp only [Net.init]
    unfold PSS.dMsm
    rw [debugAssert_of (by rw [hb.1 0 (by omega), hs.1 0 (by omega)]; simp), e1 0 (by omega)]
    exact ⟨_, _, rfl⟩
  obtain ⟨outs, ho, hv⟩ := PSS.dMsm_lossy (n := 4 * 2 ^ b) hg true (by rw [hle]) (by positivity) (by omega) (by omega) hb hs
    (hm.ok hpp) sid (.refl _) hgot (Or.inl rfl) hc
  refine ⟨outs, ?_, hv⟩
  rw [PSS.Shares, hle] at ho
  rw [show ∑ k ∈ range (2 ^ b), ∑ c ∈ range N, scalars (c * 2 ^ b + k) • bases (c * 2 ^ b + k) =
    ∑ k ∈ range (2 ^ b), ∑ c ∈ range N, (chunks (2 ^ b) scalars c).getD k 0 • (chunks (2 ^ b) bases c).getD k 0 from ?_]
  · exact ho
  apply sum_congr rfl
  intro k hk
  apply sum_congr rfl
  intro c _
  have hk := mem_range.1 hk
  unfold chunks
  rw [getD_map_range, if_pos hk, getD_map_range, if_pos hk]

end dmsm

/-- **C40** (debug builds) With fewer than `4l-1` responders the king's computation panics, in each of the protocols. -/
theorem C40_debug_king_panics [FixedWire F] {dbg₀ : Bool} {b : Nat} {pp : PSS F} (hpp : PSS.new dbg₀ (2 ^ b) = .ok pp) {N : Nat} (hN : 0 < N)
    (sh : Nat → List F) (hsh : ∀ p < 4 * 2 ^ b, (sh p).length = N) (parties : List Nat) (h0 : parties ≠ []) (hnd : parties.Nodup)
    (hlt : ∀ p ∈ parties, p < 4 * 2 ^ b) (hfew : parties.length < 4 * 2 ^ b - 1) (g gen : F) (rearrange : Bool)
    (rng : Nat → Nat → F) :
    pp.fft2King true N N g gen rearrange (parties.map sh) parties rng = .error .panic ∧
    pp.degRedKing true (parties.map sh) parties rng = .error .panic ∧
    pp.ppKing true (parties.map sh) parties rng = .error .panic ∧
    ∀ (n : Nat) (x : Nat → F), pp.msmKing true n (parties.map x) parties = .error .panic := by
  have hle := l_eq hpp
  have hg := PSS.good_of_new hpp
  have hpos := List.length_pos_of_ne_nil h0
  rw [← hle] at hsh hlt hfew
  refine ⟨PSS.fft2King_debug_panic hg hN g gen rearrange hsh hpos hnd hlt hfew rng,
    PSS.degRedKing_debug_panic hg hN hsh hpos hnd hlt hfew rng, ?_, fun n x => ?_⟩
  · unfold PSS.ppKing
    have hn := hg.n_eq
    have : ¬ parties.length = pp.n := by omega
    simp [debugAssert, this]
    rfl
  · unfold PSS.msmKing
    rw [PSS.unpackMissing_debug_panic hg (by simp) (by omega)]
    rfl

/-- **C40** (negation, release builds) Take any set of responders that passes the threshold `t = l` but is smaller than `4l-1`.
There are honest inputs — two packed vectors without zero products — for which a run of the multiplication protocol, in
which nothing happens but that the king hears these parties and times out, ends with *every* party successful and all
the opened products zero. -/
theorem C40_release_wrong [FixedWire F] {dbg₀ : Bool} {b : Nat} {pp : PSS F} (hpp : PSS.new dbg₀ (2 ^ b) = .ok pp)
    (hgen : (FftField.GENERATOR : F) ^ (4 * 2 ^ b) ≠ 1) (parties : List Nat) (hnd : parties.Nodup)
    (hlt : ∀ p ∈ parties, p < 4 * 2 ^ b) (h0 : 0 ∈ parties) (hmin : pp.t ≤ parties.length)
    (hmax : parties.length ≤ 4 * 2 ^ b - 2) (sid : Sid) (rng : Nat → Nat → F) :
    ∃ (x y : List F) (rx ry : Nat → F) (sx sy : List F) (k : Nat) (outs : Nat → List F) (Q : Queues),
      x.length = 2 ^ b ∧ y.length = 2 ^ b ∧ (∀ k < 2 ^ b, x.getD k 0 * y.getD k 0 ≠ 0) ∧
      pp.pack false x rx = .ok sx ∧ pp.pack false y ry = .ok sy ∧
      GSteps Any k (Net.init fun i : Fin (4 * 2 ^ b) =>
        pp.degRed false (4 * 2 ^ b) i [sx.getD i 0 * sy.getD i 0] (DegRedMask.zero 1) sid rng)
        ⟨fun i => .done (.ok (outs i)), Q⟩ ∧
      opened pp 1 outs = List.replicate (2 ^ b) 0 := by
  have hle := l_eq hpp
  have hg := PSS.good_of_new hpp
  have hl := hg.lpos
  have hoff : pp.secret.offset = FftField.GENERATOR := by
    by_cases hb : b + 2 ≤ FftField.TWO_ADICITY F
    · rw [PSS.new_pow2 dbg₀ hb] at hpp; cases hpp; rfl
    · have := PSS.new_too_large (F := F) dbg₀ (l := 2 ^ b) (by
        rw [show 2 ^ b * 4 = 2 ^ (b + 2) by rw [pow_add]; norm_num, clog_two_pow]; omega)
      rw [this] at hpp; cases hpp
  have hω : pp.share.groupGen ^ (4 * 2 ^ b) = 1 := by
    have := hg.share_wf.prim.pow_eq_one
    rwa [hg.share_size, hle] at this
  rw [← hle] at hlt hmax hgen hω ⊢
  rw [hg.t_eq] at hmin
  set ω := pp.share.groupGen
  -- secret points are not share points
  have hne : ∀ k i, pp.secret.offset * (ω ^ 2) ^ k - ω ^ i ≠ 0 := by
    intro k i h
    have h : pp.secret.offset * (ω ^ 2) ^ k = ω ^ i := sub_eq_zero.1 h
    apply hgen
    have := congrArg (· ^ (4 * pp.l)) h
    simp only [mul_pow, ← pow_mul] at this
    rw [mul_comm 2 k, mul_comm (k * 2), pow_mul ω, hω, one_pow, mul_one, mul_comm i, pow_mul ω, hω, one_pow, hoff] at this
    exact this
  obtain ⟨c1, hc1⟩ := pval_roots ((parties.take (2 * pp.l - 1)).map (ω ^ ·)) (d := 2 * pp.l) (by
    rw [List.length_map, List.length_take]; omega)
  obtain ⟨c2, hc2⟩ := pval_roots ((parties.drop (2 * pp.l - 1)).map (ω ^ ·)) (d := 2 * pp.l) (by
    rw [List.length_map, List.length_drop]; omega)
  have hnz : ∀ (ps : List Nat) k, ((ps.map (ω ^ ·)).map fun r => pp.secret.offset * (ω ^ 2) ^ k - r).prod ≠ 0 := by
    intro ps k
    rw [List.map_map]
    apply List.prod_ne_zero
    intro h
    obtain ⟨p, -, hp⟩ := List.mem_map.1 h
    exact hne k p hp
  have hzero : ∀ (ps : List Nat) p, p ∈ ps → ((ps.map (ω ^ ·)).map fun r => ω ^ p - r).prod = 0 := by
    intro ps p hp
    apply List.prod_eq_zero
    rw [List.map_map, List.mem_map]
    exact ⟨p, hp, by simp⟩
  obtain ⟨x, rx, sx, hx, ex, hx1, hx2⟩ := PSS.pack_polynomial hg false c1
  obtain ⟨y, ry, sy, hy, ey, hy1, hy2⟩ := PSS.pack_polynomial hg false c2
  obtain ⟨k, outs, Q, hk, ho⟩ := PSS.degRed_zero_timeout (n := 4 * pp.l) hg rfl hnd hlt h0 hmin (by omega)
    (fun i => sx.getD i 0 * sy.getD i 0) (by
      intro p hp
      rw [hx2 p (hlt p hp), hy2 p (hlt p hp), hc1, hc2]
      rw [← List.take_append_drop (2 * pp.l - 1) parties] at hp
      rcases List.mem_append.1 hp with h | h
      · rw [hzero _ p h, zero_mul]
      · rw [hzero _ p h, mul_zero]) sid rng
  refine ⟨x, y, rx, ry, sx, sy, k, outs, Q, hx, hy, ?_, ex, ey, hk, ho⟩
  intro k hk
  rw [hx1 k hk, hy1 k hk, hc1, hc2]
  exact mul_ne_zero (hnz _ _) (hnz _ _)

/-! ### Examples -/

/-- C23: a run of eight parties in which party 5 is not heard and the hash map yields the others in some odd order. -/
example (rng : Nat → Nat → ZMod 17) : ∃ (sh : Nat → List (ZMod 17)) (k : Nat) (outs : Nat → List (ZMod 17)) (Q : Queues),
    HoldsInput pp17 1 1 sh [1, 2, 3, 4] ∧
    GSteps Any k (Net.init fun i : Fin (4 * 2 ^ 1) => pp17.dFft true (4 * 2 ^ 1) i (sh i) (FftMask.zero 2) false dom17 .zero rng)
      ⟨fun i => .done (.ok (outs i)), Q⟩ ∧
    (∀ p < 8, Q (p, 0, .zero) = [] ↔ p ∈ [3, 7, 0, 6, 1, 2, 4]) ∧
    opened pp17 2 outs = [10, 6, 15, 7] := by
  obtain ⟨shares, -, -, hs⟩ := C19_input_is_packed (pp17_eq true) true 1 [1, 2, 3, 4] rfl fun i j => 3 * i + j
  obtain ⟨k, outs, Q, h1, h2, h3⟩ := C23_d_fft_finishes (b := 1) (pp17_eq true) true 1 (by norm_num) dom17_eq _ _ hs false
    (fun _ => FftMask.zero 2) (Or.inr fun _ => rfl) .zero rng [3, 7, 0, 6, 1, 2, 4] (by decide) (by decide) (by decide) rfl
  exact ⟨_, k, outs, Q, hs, h1, h2, (h3.opened (pp17_eq true)).trans (by decide +kernel)⟩

/-- C23 and C40: the king has heard parties 1 to 6. -/
example : AtMostOneMissing 8 (fun i => if i < 7 then some [] else none) ∧
    answered 8 (fun i => if i < 7 then some [] else none) = 7 := by
  refine ⟨⟨7, fun i h1 h2 h3 => ?_⟩, by decide⟩
  simp only
  rw [if_pos (by omega)]
  simp

/-- C40: the debug build panics when only the king and party 5 are heard. -/
example (rng : Nat → Nat → ZMod 17) :
    pp17.degRedKing true ([0, 5].map fun p : Nat => [(p : ZMod 17), 1]) [0, 5] rng = .error .panic :=
  (C40_debug_king_panics (b := 1) (pp17_eq true) (N := 2) (by decide) (fun p => [(p : ZMod 17), 1]) (fun _ _ => rfl) [0, 5] (by decide)
    (by decide) (by decide) (by decide) 1 1 false rng).2.1

/-- C40: two responders out of eight are let through by the threshold, although seven are needed. -/
example (rng : Nat → Nat → ZMod 17) :
    ∃ (x y : List (ZMod 17)) (rx ry : Nat → ZMod 17) (sx sy : List (ZMod 17)) (k : Nat) (outs : Nat → List (ZMod 17)) (Q : Queues),
      x.length = 2 ∧ y.length = 2 ∧ (∀ k < 2, x.getD k 0 * y.getD k 0 ≠ 0) ∧
      pp17.pack false x rx = .ok sx ∧ pp17.pack false y ry = .ok sy ∧
      GSteps Any k (Net.init fun i : Fin 8 =>
        pp17.degRed false 8 i [sx.getD i 0 * sy.getD i 0] (DegRedMask.zero 1) .one rng)
        ⟨fun i => .done (.ok (outs i)), Q⟩ ∧
      opened pp17 1 outs = [0, 0] :=
  C40_release_wrong (b := 1) (pp17_eq false) (by decide) [0, 5] (by decide) (by decide) (by decide) (by decide) (by decide) .one rng

/-- A round in which the king has heard everybody but party `j` can be reached. -/
theorem kingHas_reachable {n : Nat} (hn : 0 < n) {T α : Type} [Wire T] (x : Nat → T) (sid : Sid) (threshold : Nat)
    (f : Fin n → Option (ReceivedShares T) → Proc α) (j : Nat) :
    ∃ (k : Nat) (c : Net n α) (got : Nat → Option Bytes),
      GSteps Any k (Net.init fun i : Fin n => (clientSendOrKingReceiveSer n i (x i) sid threshold).bind (f i)) c ∧
      KingHas c got ∧ AtMostOneMissing n got := by
  let k0 : List (Nat × Bytes) → Proc α := fun L =>
    (((Proc.done ((kingFinish n L).map some)).bind fun r => .done (decodeReceived (T := T) n threshold r)).bind (f ⟨0, hn⟩))
  let kc : Fin n → Proc α := fun i => f i none
  have e0 : (fun i : Fin n => (clientSendOrKingReceiveSer n i (x i) sid threshold).bind (f i)) =
      fun i => if i.val = 0 then .gather sid n (Wire.enc (x 0)) (fun _ => none) k0 else .send 0 sid (Wire.enc (x i)) (kc i) := by
    funext i
    by_cases hi : i.val = 0
    · obtain rfl : i = ⟨0, hn⟩ := Fin.ext hi
      rfl
    · rw [if_neg hi]
      unfold clientSendOrKingReceiveSer clientSendOrKingReceive
      rw [if_neg hi]
      rfl
  obtain ⟨k, hk⟩ := (reach_gather_list hn sid (fun i => Wire.enc (x i)) k0 kc (fun _ => []) (fun _ => rfl)
    ((List.range n).filter fun i => i ≠ 0 ∧ i ≠ j) (List.nodup_range.filter _) (fun i hi => by simp at hi; omega)
    (fun i hi => by simp at hi; omega)).any
  rw [e0]
  refine ⟨k, _, _, hk, ⟨hn, sid, n, Wire.enc (x 0), k0, by simp only; exact if_pos trivial⟩, j, fun i h1 h2 h3 => ?_⟩
  rw [if_pos (by simp; omega)]
  simp

/-- Example for C23: the king of a transform has heard everybody but party 5; whatever happens next, those who finish have the result. -/
example (rng : Nat → Nat → ZMod 17) : ∃ (sh : Nat → List (ZMod 17)) (k : Nat) (c : Net (4 * 2 ^ 1) (List (ZMod 17))) (got : Nat → Option Bytes),
    GSteps Any k (Net.init fun i : Fin (4 * 2 ^ 1) => pp17.dFft false (4 * 2 ^ 1) i (sh i) (FftMask.zero 2) false dom17 .zero rng) c ∧
    KingHas c got ∧ ∀ k' c', GSteps Any k' c c' → ∃ outs : Nat → List (ZMod 17), HoldsOutput pp17 false 1 1 outs (dom17.fft [1, 2, 3, 4]) ∧
      ∀ i v, c'.procs i = .done (.ok v) → v = outs i := by
  obtain ⟨shares, -, -, hs⟩ := C19_input_is_packed (pp17_eq true) true 1 ([1, 2, 3, 4] : List (ZMod 17)) rfl fun i j => 3 * (i : ZMod 17) + j
  obtain ⟨hwf, hoff, -, hsize⟩ := Domain.new_pow2 dom17_eq
  obtain ⟨hlenc, d, hd2, hd4, hs'⟩ := id hs
  obtain ⟨px, e, -⟩ := PSS.dFft_split (b := 1) (a := 1) false (l_eq (pp17_eq true)) hsize (hsize ▸ hwf.prim) _ hs' (4 * 2 ^ 1) rfl
    (fun _ => FftMask.zero 2) false .zero rng
  obtain ⟨k, c, got, h1, h2, h3⟩ := kingHas_reachable (n := 4 * 2 ^ 1) (by norm_num)
    (fun i => addMask (px i) (FftMask.zero (F := ZMod 17) 2).inMask) .zero pp17.t
    (fun i r => (Proc.done (kingDo (fun rs : ReceivedShares (List (ZMod 17)) =>
          pp17.fft2King false (addMask (px i) (FftMask.zero (F := ZMod 17) 2).inMask).length (px i).length 1 dom17.groupGen false rs.shares rs.parties rng) r)).bind fun a =>
          (clientReceiveOrKingSendSer (4 * 2 ^ 1) i a .zero).bind fun y => .done (.ok (addMask y (FftMask.zero (F := ZMod 17) 2).outMask))) 5
  have e' : (fun i : Fin (4 * 2 ^ 1) => pp17.dFft false (4 * 2 ^ 1) i (shares.getD i []) (FftMask.zero 2) false dom17 .zero rng) = _ := e
  refine ⟨fun p => shares.getD p [], k, c, got, ?_, h2, fun k' c' hc' => ?_⟩
  · rw [e']; exact h1
  · exact C23_d_fft_one_missing (pp17_eq true) false 1 (by norm_num) dom17_eq _ _ hs false (fun _ => FftMask.zero 2) (Or.inr fun _ => rfl) .zero rng
      k k' c c' (by rw [e']; exact h1) got h2 h3 hc'

example (rng : Nat → Nat → ZMod 17) : ∃ (sh : Nat → List (ZMod 17)) (k : Nat) (c : Net (4 * 2 ^ 1) (List (ZMod 17))) (got : Nat → Option Bytes),
    GSteps Any k (Net.init fun i : Fin (4 * 2 ^ 1) => pp17.dIfft false (4 * 2 ^ 1) i (sh i) (FftMask.zero 2) false dom17 3 .zero rng) c ∧
    KingHas c got ∧ ∀ k' c', GSteps Any k' c c' → ∃ outs : Nat → List (ZMod 17),
      opened pp17 2 outs = (List.range 4).map (fun k => 3 ^ k * (dom17.ifft [1, 2, 3, 4]).getD k 0) ∧
      ∀ i v, c'.procs i = .done (.ok v) → v = outs i := by
  obtain ⟨shares, -, -, hs⟩ := C19_input_is_packed (pp17_eq true) true 1 ([1, 2, 3, 4] : List (ZMod 17)) rfl fun i j => 3 * (i : ZMod 17) + j
  obtain ⟨hwf, hoff, -, hsize⟩ := Domain.new_pow2 dom17_eq
  obtain ⟨hlenc, d, hd2, hd4, hs'⟩ := id hs
  obtain ⟨px, e, -⟩ := PSS.dIfft_split (b := 1) (a := 1) false (l_eq (pp17_eq true)) hsize (by rw [hwf.ginv]; exact hsize ▸ hwf.prim.inv) _ hs'
    (4 * 2 ^ 1) rfl 3 (fun _ => FftMask.zero 2) false .zero rng
  obtain ⟨k, c, got, h1, h2, h3⟩ := kingHas_reachable (n := 4 * 2 ^ 1) (by norm_num)
    (fun i => addMask (px i) (FftMask.zero (F := ZMod 17) 2).inMask) .zero pp17.t
    (fun i r => (Proc.done (kingDo (fun rs : ReceivedShares (List (ZMod 17)) =>
          pp17.fft2King false (addMask (px i) (FftMask.zero (F := ZMod 17) 2).inMask).length (px i).length 3 dom17.groupGenInv false rs.shares rs.parties rng) r)).bind fun a =>
          (clientReceiveOrKingSendSer (4 * 2 ^ 1) i a .zero).bind fun y => .done (.ok (addMask y (FftMask.zero (F := ZMod 17) 2).outMask))) 5
  have e' : (fun i : Fin (4 * 2 ^ 1) => pp17.dIfft false (4 * 2 ^ 1) i (shares.getD i []) (FftMask.zero 2) false dom17 3 .zero rng) = _ := e
  refine ⟨fun p => shares.getD p [], k, c, got, ?_, h2, fun k' c' hc' => ?_⟩
  · rw [e']; exact h1
  · obtain ⟨outs, h4, h5⟩ := C23_d_ifft_one_missing (pp17_eq true) false 1 (by norm_num) dom17_eq _ _ hs 3 false (fun _ => FftMask.zero 2)
      (Or.inr fun _ => rfl) .zero rng k k' c c' (by rw [e']; exact h1) got h2 h3 hc'
    exact ⟨outs, h4.opened (pp17_eq true), h5⟩

/-- Example for C40: a degree reduction of products, which needs seven messages, when the king has heard everybody but party 5. -/
example (rng : Nat → Nat → ZMod 17) : ∃ (sh : Nat → List (ZMod 17)) (k : Nat) (c : Net (4 * 2 ^ 1) (List (ZMod 17))) (got : Nat → Option Bytes),
    GSteps Any k (Net.init fun i : Fin (4 * 2 ^ 1) => pp17.degRed false (4 * 2 ^ 1) i (sh i) (DegRedMask.zero 1) .zero rng) c ∧
    KingHas c got ∧ ∀ k' c', GSteps Any k' c c' → ∃ outs : Nat → List (ZMod 17),
      Spec.SharedVec pp17.share.groupGen pp17.secret.offset (2 ^ 1) (2 * 2 ^ 1) 1 outs (chunks (2 ^ 1) fun i => [3, 5].getD i 0) ∧
      ∀ i v, c'.procs i = .done (.ok v) → v = outs i := by
  obtain ⟨sh, -, h⟩ := deal (b := 1) (pp17_eq true) true (N := 1) (by norm_num) ([3, 5] : List (ZMod 17)) rfl fun _ _ => 1
  obtain ⟨k, c, got, h1, h2, h3⟩ := kingHas_reachable (n := 4 * 2 ^ 1) (by norm_num)
    (fun i => addMask (sh.getD i []) (DegRedMask.zero (T := ZMod 17) 1).inMask) .zero pp17.t
    (fun i r => (Proc.done (kingDo (fun rs : ReceivedShares (List (ZMod 17)) =>
          pp17.degRedKing false rs.shares rs.parties rng) r)).bind fun a =>
          (clientReceiveOrKingSendSer (4 * 2 ^ 1) i a .zero).bind fun y => .done (.ok (addMask y (DegRedMask.zero (T := ZMod 17) 1).outMask))) 5
  refine ⟨fun p => sh.getD p [], k, c, got, h1, h2, fun k' c' hc' => ?_⟩
  exact C40_enough_deg_red (T := ZMod 17) (pp17_eq true) false (N := 1) (d := 4 * 2 ^ 1 - 1) (by norm_num) (by norm_num)
    (by norm_num) (by norm_num) _ _ (SharedVec.mono (by norm_num) h) (fun _ => DegRedMask.zero 1) (.inr fun _ => rfl) .zero rng k k' c c' h1 got h2
    h3.answered hc'

/-- Examples for C40: any run of a debug build. -/
example (rng : Nat → Nat → ZMod 17) : ∃ sh : Nat → List (ZMod 17), HoldsInput pp17 1 1 sh [1, 2, 3, 4] ∧ ∀ k c,
    GSteps Any k (Net.init fun i : Fin (4 * 2 ^ 1) => pp17.dFft true (4 * 2 ^ 1) i (sh i) (FftMask.zero 2) false dom17 .zero rng) c →
    ∃ outs : Nat → List (ZMod 17), HoldsOutput pp17 false 1 1 outs (dom17.fft [1, 2, 3, 4]) ∧ ∀ i v, c.procs i = .done (.ok v) → v = outs i := by
  obtain ⟨shares, -, -, hs⟩ := C19_input_is_packed (pp17_eq true) true 1 ([1, 2, 3, 4] : List (ZMod 17)) rfl fun i j => 3 * (i : ZMod 17) + j
  exact ⟨fun p => shares.getD p [], hs, fun k c hc => C40_debug_d_fft (pp17_eq true) 1 (by norm_num) dom17_eq _ _ hs false
    (fun _ => FftMask.zero 2) (Or.inr fun _ => rfl) .zero rng k c hc⟩

example (rng : Nat → Nat → ZMod 17) : ∃ sh : Nat → List (ZMod 17), HoldsInput pp17 1 1 sh [1, 2, 3, 4] ∧ ∀ k c,
    GSteps Any k (Net.init fun i : Fin (4 * 2 ^ 1) => pp17.dIfft true (4 * 2 ^ 1) i (sh i) (FftMask.zero 2) false dom17 3 .zero rng) c →
    ∃ outs : Nat → List (ZMod 17), opened pp17 2 outs = (List.range 4).map (fun k => 3 ^ k * (dom17.ifft [1, 2, 3, 4]).getD k 0) ∧
      ∀ i v, c.procs i = .done (.ok v) → v = outs i := by
  obtain ⟨shares, -, -, hs⟩ := C19_input_is_packed (pp17_eq true) true 1 ([1, 2, 3, 4] : List (ZMod 17)) rfl fun i j => 3 * (i : ZMod 17) + j
  refine ⟨fun p => shares.getD p [], hs, fun k c hc => ?_⟩
  obtain ⟨outs, h1, h2⟩ := C40_debug_d_ifft (pp17_eq true) 1 (by norm_num) dom17_eq _ _ hs 3 false
    (fun _ => FftMask.zero 2) (Or.inr fun _ => rfl) .zero rng k c hc
  exact ⟨outs, h1.opened (pp17_eq true), h2⟩

example (rng : Nat → Nat → ZMod 17) : ∃ sh : Nat → List (ZMod 17), ∀ k c,
    GSteps Any k (Net.init fun i : Fin (4 * 2 ^ 1) => pp17.degRed true (4 * 2 ^ 1) i (sh i) (DegRedMask.zero 1) .zero rng) c →
    ∃ outs : Nat → List (ZMod 17),
      Spec.SharedVec pp17.share.groupGen pp17.secret.offset (2 ^ 1) (2 * 2 ^ 1) 1 outs (chunks (2 ^ 1) fun i => [3, 5].getD i 0) ∧
      ∀ i v, c.procs i = .done (.ok v) → v = outs i := by
  obtain ⟨sh, -, h⟩ := deal (b := 1) (pp17_eq true) true (N := 1) (by norm_num) ([3, 5] : List (ZMod 17)) rfl fun _ _ => 1
  exact ⟨fun p => sh.getD p [], fun k c hc => C40_debug_deg_red (T := ZMod 17) (pp17_eq true) (N := 1) (d := 4 * 2 ^ 1 - 1) (by norm_num)
    (by norm_num) (by norm_num) (by norm_num) _ _ (SharedVec.mono (by norm_num) h) (fun _ => DegRedMask.zero 1) (.inr fun _ => rfl) .zero rng k c hc⟩

example : ∃ sb ss : Nat → List (ZMod 17), ∀ k c,
    GSteps Any k (Net.init fun i : Fin (4 * 2 ^ 1) => pp17.dMsm true (4 * 2 ^ 1) i (sb i) (ss i) MsmMask.zero .zero) c →
    ∃ outs : Nat → ZMod 17, Spec.Sharing pp17.share.groupGen pp17.secret.offset (2 ^ 1) (2 * 2 ^ 1) ((List.range (4 * 2 ^ 1)).map outs) [6, 6] ∧
      ∀ i v, c.procs i = .done (.ok v) → v = outs i := by
  obtain ⟨sb, -, hb⟩ := deal (b := 1) (pp17_eq true) true (N := 1) (by norm_num) ([1, 4] : List (ZMod 17)) rfl fun _ _ => 1
  obtain ⟨ss, -, hs⟩ := deal (b := 1) (pp17_eq true) true (N := 1) (by norm_num) ([3, 5] : List (ZMod 17)) rfl fun _ _ => 1
  refine ⟨fun p => sb.getD p [], fun p => ss.getD p [], fun k c hc => ?_⟩
  obtain ⟨outs, h1, h2⟩ := C40_debug_d_msm (G := ZMod 17) (pp17_eq true) (N := 1) _ _ _ _ hb hs (fun _ => MsmMask.zero) (.inr fun _ => rfl) .zero k c hc
  exact ⟨outs, h1, h2⟩

end ZkSaas.Properties
