import Verif.Lemmas.Lossy
import Verif.Lemmas.Opened

/-! The single-round protocols on an arbitrary network. -/

set_option linter.unusedSectionVars false

namespace ZkSaas

open Finset Spec

variable {F : Type} [Field F] [DecidableEq F] {n : Nat} {α T U : Type}

/-- How many parties, the king included, have been heard. -/
def answered (n : Nat) (got : Nat → Option Bytes) : Nat :=
  ((List.range n).filter fun i => i = 0 ∨ (got i).isSome).length

theorem Responders.length_le {threshold : Nat} {parties : List Nat} (h : Responders n threshold parties) : parties.length ≤ n := by
  have hsub : parties.toFinset ⊆ Finset.range n := fun i hi => Finset.mem_range.2 (h.lt i (List.mem_toFinset.1 hi))
  have := Finset.card_le_card hsub
  rwa [Finset.card_range, List.toFinset_card_of_nodup h.nodup] at this

theorem Responders.answered_le {threshold : Nat} {parties : List Nat} (h : Responders n threshold parties) {got : Nat → Option Bytes}
    (hg : ∀ i, 1 ≤ i → i < n → got i ≠ none → i ∈ parties) : answered n got ≤ parties.length := by
  unfold answered
  have hnd : ((List.range n).filter fun i => i = 0 ∨ (got i).isSome).Nodup := List.nodup_range.filter _
  rw [← List.toFinset_card_of_nodup hnd, ← List.toFinset_card_of_nodup h.nodup]
  apply Finset.card_le_card
  intro i hi
  rw [List.mem_toFinset, List.mem_filter, List.mem_range] at hi
  rw [List.mem_toFinset]
  obtain ⟨hi, h0⟩ := hi
  rw [decide_eq_true_eq] at h0
  rcases h0 with rfl | h0
  · exact h.king
  · by_cases hz : i = 0
    · subst hz; exact h.king
    · exact hg i (by omega) hi (by intro h; rw [h] at h0; cases h0)

theorem Responders.decodable {pp : PSS F} (hn : n = 4 * pp.l) {threshold : Nat} {parties : List Nat} (h : Responders n threshold parties)
    {dbg : Bool} {d : Nat} (hd : d ≤ parties.length) (hdbg : dbg = true → 4 * pp.l - 1 ≤ parties.length) :
    pp.Decodable dbg d parties := by
  have hle := h.length_le
  by_cases hl : parties.length = n
  · left; rw [h.full hl, hn]
  · right; exact ⟨h.nodup, by rw [← hn]; exact h.lt, hd, by omega, hdbg⟩

section
variable {T : Type} [AddCommGroup T] [Module F T] [DecidableEq T]

/-- A debug build refuses to interpolate from too few shares. -/
theorem PSS.unpackMissing_debug_panic {pp : PSS F} (hg : pp.Good) {shares : List T} {parties : List Nat}
    (hl : shares.length = parties.length) (hp : parties.length < 4 * pp.l - 1) :
    pp.unpackMissingShares true shares parties = panic' := by
  have h1 := hg.n_eq
  have h2 := hg.t_eq
  unfold PSS.unpackMissingShares
  rw [debugAssert_of (by simp [hl]), ok_bind, if_neg (by omega)]
  unfold PSS.lagrangeUnpack
  rw [debugAssert_of (by simp [hl]), ok_bind]
  have : debugAssert true (decide (parties.length > 2 * (pp.t + pp.l - 1))) = panic' := by
    have : ¬ parties.length > 2 * (pp.t + pp.l - 1) := by omega
    simp [debugAssert, this]
  rw [this]
  rfl

end

/-- From safety of the round to correctness of the results. -/
theorem star_correct [Wire T] [Wire U] (hn : 0 < n) (sid : Sid) (threshold : Nat) (x : Nat → T) (hx : ∀ i < n, Wire.Ok (x i))
    (K : ReceivedShares T → Res (List U)) (fin : Nat → U → Res α) {k k' : Nat} {c c' : Net n α}
    (hc : GSteps Any k (Net.init fun i : Fin n => starProg n i (x i) sid threshold K (fin i)) c)
    {s : Sid} {m : Nat} {own : Bytes} {got : Nat → Option Bytes} {cont : List (Nat × Bytes) → Proc α}
    (hg : c.procs ⟨0, hn⟩ = .gather s m own got cont) (hc' : GSteps Any k' c c') (R : (Nat → α) → Prop)
    (hex : ∃ outs, R outs)
    (hK : ∀ parties answers, Responders n threshold parties → answered n got ≤ parties.length →
      K ⟨parties.map x, parties⟩ = .ok answers → ∃ outs, R outs ∧
        ∀ i < n, ∃ a, answers[i]? = some a ∧ Wire.Ok a ∧ fin i a = .ok (outs i)) :
    ∃ outs, R outs ∧ ∀ i v, c'.procs i = .done (.ok v) → v = outs i := by
  rcases star_safe hn sid threshold x hx K fin hc hg hc' with h | ⟨parties, answers, hr, hm, hk, h⟩
  · obtain ⟨outs, ho⟩ := hex
    exact ⟨outs, ho, fun i v hv => absurd hv (h i v)⟩
  · obtain ⟨outs, ho, ha⟩ := hK parties answers hr (hr.answered_le hm) hk
    refine ⟨outs, ho, fun i v hv => ?_⟩
    obtain ⟨a, y, h1, h2, h3⟩ := h i v hv
    obtain ⟨a', h1', h2', h3'⟩ := ha i i.isLt
    obtain rfl : a = a' := by rw [h1] at h1'; cases h1'; rfl
    unfold decodeOrError at h2
    rw [show Wire.dec (T := U) (Wire.enc a) = some a from h2'] at h2
    cases h2
    rw [h3'] at h3
    cases h3
    rfl

/-- `4l-1` messages if the build checks that, otherwise as many as the sharing has coefficients. -/
def Enough (pp : PSS F) (dbg : Bool) (d : Nat) (count : Nat) : Prop := dbg = true ∨ d ≤ count

section fft
variable [FixedWire F]

theorem PSS.fft2King_debug_panic {pp : PSS F} (hg : pp.Good) {N : Nat} (hN : 0 < N) (g gen : F) (rearrange : Bool) {sh : Nat → List F}
    (hsh : ∀ p < 4 * pp.l, (sh p).length = N) {parties : List Nat} (h0 : 0 < parties.length) (hnd : parties.Nodup)
    (hlt : ∀ p ∈ parties, p < 4 * pp.l) (hp : parties.length < 4 * pp.l - 1) (rng : Nat → Nat → F) :
    pp.fft2King true N N g gen rearrange (parties.map sh) parties rng = panic' := by
  unfold PSS.fft2King
  have ht : transpose (parties.map sh) = .ok ((List.range N).map fun c => parties.map fun p => (sh p).getD c 0) := by
    exact transpose_received hg (dbg := false) one_pos hN (Or.inr ⟨hnd, hlt, h0, by omega, by simp⟩) hsh
  rw [ht, ok_bind]
  dsimp only
  rw [List.length_map, List.length_range, min_self]
  obtain ⟨N, rfl⟩ : ∃ k, N = k + 1 := ⟨N - 1, by omega⟩
  rcases forUp_panic_inv (n := N + 1) (s := List.replicate ((N + 1) * pp.l) (0 : F))
    (body := fun i s1 => do
      let share ← rd ((List.range (N + 1)).map fun c => parties.map fun p => (sh p).getD c 0) i
      let tmp ← pp.unpackMissingShares true share parties
      forUp pp.l (fun j s1 => do
        let x ← rd tmp j
        wr s1 (i * pp.l + j) x) s1)
    (P := fun i _ => i = 0) rfl
    (by
      rintro i hi v rfl
      left
      rw [rd_ok (by simp) [], ok_bind, PSS.unpackMissing_debug_panic hg (by rw [getD_map_range, if_pos (by omega)]; simp) hp]
      rfl) with h | ⟨v, -, h⟩
  · rw [h]; rfl
  · omega

/-- The interactive half of a distributed transform on an arbitrary network. -/
theorem PSS.fft2WithRearrange_lossy {pp : PSS F} (hg : pp.Good) (dbg : Bool) (hn : n = 4 * pp.l) (hn0 : 0 < n) {a b : Nat}
    (ha : a < 64) (hlb : pp.l = 2 ^ b) {gen : F}
    (hprim : IsPrimitiveRoot gen (2 ^ (a + b))) (φ : Nat → Nat → F → F)
    (hφ : ∀ s ≥ a, ∀ j x, φ (s + 1) j x = φ s (2 * j) (x ^ 2) + x * φ s (2 * j + 1) (x ^ 2))
    {d : Nat} (hd2 : 2 * pp.l ≤ d) (hd4 : d ≤ 4 * pp.l - 1)
    {px : Nat → List F} (hpx : pp.SharedVec d (2 ^ a) px
      (fun c => (List.range (2 ^ b)).map fun j => φ a j (gen ^ (2 ^ b * (c + 1)))))
    (g : F) (rearrange : Bool) {mask : Nat → FftMask F} (hm : MasksOk pp a b rearrange g gen mask) (sid : Sid)
    (rng : Nat → Nat → F) {k k' : Nat} {c c' : Net n (List F)}
    (hc : GSteps Any k (Net.init fun i : Fin n => pp.fft2WithRearrange dbg n i (px i) (mask i) rearrange g gen sid rng) c)
    {s : Sid} {m : Nat} {own : Bytes} {got : Nat → Option Bytes} {cont : List (Nat × Bytes) → Proc (List F)}
    (hgot : c.procs ⟨0, hn0⟩ = .gather s m own got cont) (henough : Enough pp dbg d (answered n got))
    (hc' : GSteps Any k' c c') :
    ∃ outs : Nat → List F,
      pp.SharedVec (2 * pp.l) (2 ^ a) outs (packed rearrange a b fun k => g ^ k * φ (a + b) 0 (gen ^ k)) ∧
      ∀ i v, c'.procs i = .done (.ok v) → v = outs i := by
  have hl := hg.lpos
  obtain ⟨outs₀, -, hex⟩ := PSS.fft2WithRearrange_runs hg dbg hn ha hlb hprim φ hφ hd2 hd4 hpx g rearrange hm sid rng
  obtain ⟨ψ, hψ, hin, hout⟩ := hm
  have hsum := SharedVec.add hpx (SharedVec.mono hd2 hin)
  have hsum' : pp.SharedVec d (2 ^ a) (fun p => addMask (px p) (mask p).inMask)
      (fun c => (List.range (2 ^ b)).map fun j => (φ a j (gen ^ (2 ^ b * (c + 1))) + ψ a j (gen ^ (2 ^ b * (c + 1))))) := by
    refine SharedVec.congr hsum (fun _ _ => rfl) fun c hc => ?_
    rw [List.zipWith_map_left, List.zipWith_map_right, List.zipWith_self]
  have hlen : ∀ p < 4 * pp.l, (addMask (px p) (mask p).inMask).length = 2 ^ a := hsum'.1
  have h2a : 2 ^ a < 2 ^ 64 := Nat.pow_lt_pow_right (by norm_num) ha
  have hprog : (fun i : Fin n => pp.fft2WithRearrange dbg n i (px i) (mask i) rearrange g gen sid rng) =
      fun i : Fin n => starProg n i (addMask (px i) (mask i).inMask) sid pp.t
        (fun rs => pp.fft2King dbg (2 ^ a) (2 ^ a) g gen rearrange rs.shares rs.parties rng)
        (fun y => .ok (addMask y (mask i).outMask)) := by
    funext i
    have h1 := hlen i (by omega)
    have h2 := hpx.1 i (by omega)
    unfold PSS.fft2WithRearrange
    dsimp only
    rw [h1, h2]
    rfl
  rw [hprog] at hc
  refine star_correct hn0 sid pp.t (fun i => addMask (px i) (mask i).inMask)
    (fun i hi => Wire.ok_list _ (by rw [hlen i (by omega)]; exact h2a))
    (fun rs => pp.fft2King dbg (2 ^ a) (2 ^ a) g gen rearrange rs.shares rs.parties rng)
    (fun i y => .ok (addMask y (mask i).outMask)) hc hgot hc' _ ⟨outs₀, hex⟩ ?_
  intro parties answers hr hcount hK
  simp only at hK
  have hlong : dbg = true → 4 * pp.l - 1 ≤ parties.length := by
    rintro rfl
    by_contra hcon
    rw [PSS.fft2King_debug_panic hg (by positivity) g gen rearrange hlen (List.length_pos_of_mem hr.king) hr.nodup
      (by rw [← hn]; exact hr.lt) (by omega) rng] at hK
    cases hK
  have hp : pp.Decodable dbg d parties := by
    refine hr.decodable hn ?_ hlong
    rcases henough with h | h
    · have := hlong h; omega
    · omega
  obtain ⟨out, hK', hol, hos⟩ := PSS.fft2King_ok hg dbg hlb hprim (fun s j x => φ s j x + ψ s j x)
    (fun s hs j x => by rw [hφ s hs, hψ s hs]; ring) (by omega : 0 < d) hd4 hp hsum' g rearrange rng
  rw [hK'] at hK
  obtain rfl : out = answers := by injection hK
  refine ⟨fun p => addMask (out.getD p []) (mask p).outMask, ?_, ?_⟩
  · refine SharedVec.congr (SharedVec.add hos hout) (fun _ _ => rfl) fun c hc => ?_
    rw [packed_zipWith]
    congr 1
    funext k
    ring
  · intro i hi
    refine ⟨out.getD i [], ?_, ?_, rfl⟩
    · rw [List.getD_eq_getElem _ _ (by omega), List.getElem?_eq_getElem]
    · exact Wire.ok_list _ (by have := hos.1 i (by omega); simp only at this; rw [this]; exact h2a)

/-- The interactive half of a distributed transform when the king hears exactly `parties` before its time-out. -/
theorem PSS.fft2WithRearrange_timeout {pp : PSS F} (hg : pp.Good) (dbg : Bool) (hn : n = 4 * pp.l) {a b : Nat}
    (ha : a < 64) (hlb : pp.l = 2 ^ b) {gen : F}
    (hprim : IsPrimitiveRoot gen (2 ^ (a + b))) (φ : Nat → Nat → F → F)
    (hφ : ∀ s ≥ a, ∀ j x, φ (s + 1) j x = φ s (2 * j) (x ^ 2) + x * φ s (2 * j + 1) (x ^ 2))
    {d : Nat} (hd2 : 2 * pp.l ≤ d) (hd4 : d ≤ 4 * pp.l - 1)
    {px : Nat → List F} (hpx : pp.SharedVec d (2 ^ a) px
      (fun c => (List.range (2 ^ b)).map fun j => φ a j (gen ^ (2 ^ b * (c + 1)))))
    (g : F) (rearrange : Bool) {mask : Nat → FftMask F} (hm : MasksOk pp a b rearrange g gen mask) (sid : Sid)
    (rng : Nat → Nat → F) {parties : List Nat} (hnd : parties.Nodup) (hlt : ∀ p ∈ parties, p < n) (h0 : 0 ∈ parties)
    (hsn : parties.length < n) (hdp : d ≤ parties.length) (hdbg : dbg = true → 4 * pp.l - 1 ≤ parties.length) :
    ∃ (k : Nat) (outs : Nat → List F),
      GSteps Any k (Net.init fun i : Fin n => pp.fft2WithRearrange dbg n i (px i) (mask i) rearrange g gen sid rng)
        ⟨fun i => .done (.ok (outs i)), leftOver n parties sid fun i => Wire.enc (addMask (px i) (mask i).inMask)⟩ ∧
      pp.SharedVec (2 * pp.l) (2 ^ a) outs (packed rearrange a b fun k => g ^ k * φ (a + b) 0 (gen ^ k)) := by
  have hl := hg.lpos
  obtain ⟨ψ, hψ, hin, hout⟩ := hm
  have hsum := SharedVec.add hpx (SharedVec.mono hd2 hin)
  have hsum' : pp.SharedVec d (2 ^ a) (fun p => addMask (px p) (mask p).inMask)
      (fun c => (List.range (2 ^ b)).map fun j => (φ a j (gen ^ (2 ^ b * (c + 1))) + ψ a j (gen ^ (2 ^ b * (c + 1))))) := by
    refine SharedVec.congr hsum (fun _ _ => rfl) fun c hc => ?_
    rw [List.zipWith_map_left, List.zipWith_map_right, List.zipWith_self]
  have hlen : ∀ p < 4 * pp.l, (addMask (px p) (mask p).inMask).length = 2 ^ a := hsum'.1
  have h2a : 2 ^ a < 2 ^ 64 := Nat.pow_lt_pow_right (by norm_num) ha
  have hprog : (fun i : Fin n => pp.fft2WithRearrange dbg n i (px i) (mask i) rearrange g gen sid rng) =
      fun i : Fin n => (clientSendOrKingReceiveSer n i (addMask (px i) (mask i).inMask) sid pp.t).bind fun r =>
        (Proc.done (kingDo (fun rs : ReceivedShares (List F) =>
          pp.fft2King dbg (2 ^ a) (2 ^ a) g gen rearrange rs.shares rs.parties rng) r)).bind fun a =>
          (clientReceiveOrKingSendSer n i a sid).bind fun y => .done (.ok (addMask y (mask i).outMask)) := by
    funext i
    have h1 := hlen i (by omega)
    have h2 := hpx.1 i (by omega)
    unfold PSS.fft2WithRearrange
    dsimp only
    rw [h1, h2]
    rfl
  obtain ⟨out, hK, hol, hos⟩ := PSS.fft2King_ok hg dbg hlb hprim (fun s j x => φ s j x + ψ s j x)
    (fun s hs j x => by rw [hφ s hs, hψ s hs]; ring) (by omega : 0 < d) hd4
    (Or.inr ⟨hnd, by rw [← hn]; exact hlt, hdp, by omega, hdbg⟩ : pp.Decodable dbg d parties) hsum' g rearrange rng
  obtain ⟨k, hk⟩ := star_timeout (n := n) (by omega) sid pp.t (fun i => addMask (px i) (mask i).inMask)
    (fun i hi => Wire.ok_list _ (by rw [hlen i (by omega)]; exact h2a))
    (fun rs : ReceivedShares (List F) => pp.fft2King dbg (2 ^ a) (2 ^ a) g gen rearrange rs.shares rs.parties rng)
    (fun i y => .done (.ok (addMask y (mask i).outMask))) hnd hlt h0 hsn (by rw [hg.t_eq]; omega)
    (fun p => out.getD p []) (8 + 2 ^ a * FixedWire.width F)
    (by simp only; rw [hK, hn, ← hol, ← list_eq_map_range])
    (fun i hi => by
      have := hos.1 i (by omega)
      simp only at this
      exact ⟨Wire.ok_list _ (by rw [this]; exact h2a), by rw [Wire.enc_list_length, this]⟩)
  rw [← hprog] at hk
  refine ⟨k, fun p => addMask (out.getD p []) (mask p).outMask, hk, ?_⟩
  refine SharedVec.congr (SharedVec.add hos hout) (fun _ _ => rfl) fun c hc => ?_
  rw [packed_zipWith]
  congr 1
  funext k
  ring

/-- `d_fft` is the interactive half applied to the local butterflies. -/
theorem PSS.dFft_split {pp : PSS F} (dbg : Bool) {a b : Nat}
    (hlb : pp.l = 2 ^ b) {dom : Domain F} (hsize : dom.size = 2 ^ (a + b))
    (hprim : IsPrimitiveRoot dom.groupGen (2 ^ (a + b))) {d : Nat}
    {sh : Nat → List F} (x : Nat → F) (hsh : pp.SharedVec d (2 ^ a) sh (packed true a b x)) (n : Nat) (hn : n = 4 * pp.l)
    (mask : Nat → FftMask F) (rearrange : Bool) (sid : Sid) (rng : Nat → Nat → F) :
    ∃ px : Nat → List F,
      (fun i : Fin n => pp.dFft dbg n i (sh i) (mask i) rearrange dom sid rng) =
        (fun i : Fin n => pp.fft2WithRearrange dbg n i (px i) (mask i) rearrange 1 dom.groupGen sid rng) ∧
      pp.SharedVec d (2 ^ a) px (fun c => (List.range (2 ^ b)).map fun j =>
        bp (fun i => x (bitRev (a + b) i)) a j (dom.groupGen ^ (2 ^ b * (c + 1)))) := by
  obtain ⟨px, e1, hpx⟩ := PSS.fft1_shared hlb hprim x hsh
  refine ⟨px, ?_, hpx⟩
  funext i
  have hi : i.val < 4 * pp.l := by omega
  unfold PSS.dFft
  rw [debugAssert_of (by rw [hsh.1 i hi, hlb, hsize, pow_add]; simp), e1 i hi]
  rfl

/-- `d_ifft` is the interactive half applied to the local butterflies. -/
theorem PSS.dIfft_split {pp : PSS F} (dbg : Bool) {a b : Nat}
    (hlb : pp.l = 2 ^ b) {dom : Domain F} (hsize : dom.size = 2 ^ (a + b))
    (hprim : IsPrimitiveRoot dom.groupGenInv (2 ^ (a + b))) {d : Nat}
    {sh : Nat → List F} (x : Nat → F) (hsh : pp.SharedVec d (2 ^ a) sh (packed true a b x)) (n : Nat) (hn : n = 4 * pp.l)
    (g : F) (mask : Nat → FftMask F) (rearrange : Bool) (sid : Sid) (rng : Nat → Nat → F) :
    ∃ px : Nat → List F,
      (fun i : Fin n => pp.dIfft dbg n i (sh i) (mask i) rearrange dom g sid rng) =
        (fun i : Fin n => pp.fft2WithRearrange dbg n i (px i) (mask i) rearrange g dom.groupGenInv sid rng) ∧
      pp.SharedVec d (2 ^ a) px (fun c => (List.range (2 ^ b)).map fun j =>
        bp (fun i => x (bitRev (a + b) i) * dom.sizeInv) a j (dom.groupGenInv ^ (2 ^ b * (c + 1)))) := by
  have hsh' : pp.SharedVec d (2 ^ a) (fun p => (sh p).map fun z => z * dom.sizeInv) (packed true a b fun i => x i * dom.sizeInv) :=
    SharedVec.congr (SharedVec.scale hsh dom.sizeInv) (fun _ _ => rfl) fun c hc => packed_smul _ _ _ _ _ _
  obtain ⟨px, e1, hpx⟩ := PSS.fft1_shared hlb hprim _ hsh'
  refine ⟨px, ?_, hpx⟩
  funext i
  have hi : i.val < 4 * pp.l := by omega
  unfold PSS.dIfft
  have e := e1 i hi
  rw [debugAssert_of (by rw [hsh.1 i hi, hlb, hsize, pow_add]; simp)]
  dsimp only
  rw [e]
  rfl

end fft

section degred
variable {T : Type} [AddCommGroup T] [Module F T] [DecidableEq T]

theorem PSS.degRedKing_debug_panic {pp : PSS F} (hg : pp.Good) {N : Nat} (hN : 0 < N) {sh : Nat → List T}
    (hsh : ∀ p < 4 * pp.l, (sh p).length = N) {parties : List Nat} (h0 : 0 < parties.length) (hnd : parties.Nodup)
    (hlt : ∀ p ∈ parties, p < 4 * pp.l) (hp : parties.length < 4 * pp.l - 1) (rng : Nat → Nat → T) :
    pp.degRedKing true (parties.map sh) parties rng = panic' := by
  unfold PSS.degRedKing
  have ht : transpose (parties.map sh) = .ok ((List.range N).map fun c => parties.map fun p => (sh p).getD c 0) := by
    exact transpose_received hg (dbg := false) one_pos hN (Or.inr ⟨hnd, hlt, h0, by omega, by simp⟩) hsh
  rw [ht, ok_bind, List.length_map, List.length_range]
  rw [mapM_panic (x := 0) (List.mem_range.2 hN) (by
    rw [rd_ok (by simpa using hN) [], ok_bind, PSS.unpackMissing_debug_panic hg (by rw [getD_map_range, if_pos hN]; simp) hp]
    rfl) (by
    intro c hc
    have hc := List.mem_range.1 hc
    left
    rw [rd_ok (by simpa using hc) [], ok_bind, PSS.unpackMissing_debug_panic hg (by rw [getD_map_range, if_pos hc]; simp) hp]
    rfl)]
  rfl

variable [FixedWire T]

/-- `deg_red` on an arbitrary network. -/
theorem PSS.degRed_lossy {pp : PSS F} (hg : pp.Good) (dbg : Bool) (hn : n = 4 * pp.l) (hn0 : 0 < n) {d N : Nat} (hN : 0 < N)
    (hN64 : N < 2 ^ 64) (hd2 : 2 * pp.l ≤ d) (hd4 : d ≤ 4 * pp.l - 1) {sh sec : Nat → List T}
    (hsh : pp.SharedVec d N sh sec) {mask : Nat → DegRedMask T} (hm : DegRedMasksOk pp N mask) (sid : Sid)
    (rng : Nat → Nat → T) {k k' : Nat} {c c' : Net n (List T)}
    (hc : GSteps Any k (Net.init fun i : Fin n => pp.degRed dbg n i (sh i) (mask i) sid rng) c)
    {s : Sid} {m : Nat} {own : Bytes} {got : Nat → Option Bytes} {cont : List (Nat × Bytes) → Proc (List T)}
    (hgot : c.procs ⟨0, hn0⟩ = .gather s m own got cont) (henough : Enough pp dbg d (answered n got))
    (hc' : GSteps Any k' c c') :
    ∃ outs : Nat → List T, pp.SharedVec (2 * pp.l) N outs sec ∧ ∀ i v, c'.procs i = .done (.ok v) → v = outs i := by
  have hl := hg.lpos
  obtain ⟨outs₀, -, hex⟩ := PSS.degRed_runs hg dbg hn hN hN64 hd2 hd4 hsh hm sid rng
  obtain ⟨v, hin, hout⟩ := hm
  have hsum := SharedVec.add hsh (SharedVec.mono hd2 hin)
  have hprog : (fun i : Fin n => pp.degRed dbg n i (sh i) (mask i) sid rng) =
      fun i : Fin n => starProg n i (addMask (sh i) (mask i).inMask) sid pp.t
        (fun rs => pp.degRedKing dbg rs.shares rs.parties rng) (fun y => .ok (addMask y (mask i).outMask)) := by
    funext i
    have hi : i.val < 4 * pp.l := by omega
    unfold PSS.degRed
    rw [debugAssert_of (by rw [hsh.1 i hi, hin.1 i hi]; simp), debugAssert_of (by rw [hsh.1 i hi, hout.1 i hi]; simp)]
    rfl
  rw [hprog] at hc
  refine star_correct hn0 sid pp.t (fun i => addMask (sh i) (mask i).inMask)
    (fun i hi => Wire.ok_list _ (by rw [hsum.1 i (by omega)]; exact hN64))
    (fun rs => pp.degRedKing dbg rs.shares rs.parties rng)
    (fun i y => .ok (addMask y (mask i).outMask)) hc hgot hc' _ ⟨outs₀, hex⟩ ?_
  intro parties answers hr hcount hK
  simp only at hK
  have hlong : dbg = true → 4 * pp.l - 1 ≤ parties.length := by
    rintro rfl
    by_contra hcon
    rw [PSS.degRedKing_debug_panic hg hN hsum.1 (List.length_pos_of_mem hr.king) hr.nodup
      (by rw [← hn]; exact hr.lt) (by omega) rng] at hK
    cases hK
  have hp : pp.Decodable dbg d parties := by
    refine hr.decodable hn ?_ hlong
    rcases henough with h | h
    · have := hlong h; omega
    · omega
  obtain ⟨out, hK', hol, hos⟩ := PSS.degRedKing_ok hg dbg hN (by omega : 0 < d) hd4 hp hsum rng
  rw [hK'] at hK
  obtain rfl : out = answers := by injection hK
  refine ⟨fun p => addMask (out.getD p []) (mask p).outMask, ?_, ?_⟩
  · refine SharedVec.congr (SharedVec.add hos hout) (fun _ _ => rfl) fun c hc => ?_
    exact zipWith_add_neg _ _ (by rw [(hsh.2 c hc).2.1, (hin.2 c hc).2.1])
  · intro i hi
    refine ⟨out.getD i [], ?_, ?_, rfl⟩
    · rw [List.getD_eq_getElem _ _ (by omega), List.getElem?_eq_getElem]
    · exact Wire.ok_list _ (by have := hos.1 i (by omega); simp only at this; rw [this]; exact hN64)

end degred

section dmsm
variable {G : Type} [AddCommGroup G] [Module F G] [DecidableEq G] [FixedWire G]

/-- `d_msm` on an arbitrary network. -/
theorem PSS.dMsm_lossy {pp : PSS F} (hg : pp.Good) (dbg : Bool) (hn : n = 4 * pp.l) (hn0 : 0 < n) {N d1 d2 : Nat}
    (hd2 : 2 * pp.l ≤ d2 + d1 - 1) (hd4 : d2 + d1 - 1 ≤ 4 * pp.l - 1) {bs bsec : Nat → List G} {ss ssec : Nat → List F}
    (hb : pp.SharedVec d1 N bs bsec) (hs : pp.SharedVec d2 N ss ssec) {mask : Nat → MsmMask G} (hm : MsmMasksOk pp mask)
    (sid : Sid) {k k' : Nat} {c c' : Net n G}
    (hc : GSteps Any k (Net.init fun i : Fin n => pp.dMsm dbg n i (bs i) (ss i) (mask i) sid) c)
    {s : Sid} {m : Nat} {own : Bytes} {got : Nat → Option Bytes} {cont : List (Nat × Bytes) → Proc G}
    (hgot : c.procs ⟨0, hn0⟩ = .gather s m own got cont) (henough : Enough pp dbg (d2 + d1 - 1) (answered n got))
    (hc' : GSteps Any k' c c') :
    ∃ outs : Nat → G, pp.Shares (2 * pp.l) ((List.range (4 * pp.l)).map outs)
        (List.replicate pp.l (∑ k ∈ range pp.l, ∑ c ∈ range N, (ssec c).getD k 0 • (bsec c).getD k 0)) ∧
      ∀ i v, c'.procs i = .done (.ok v) → v = outs i := by
  have hl := hg.lpos
  obtain ⟨outs₀, -, hex⟩ := PSS.dMsm_runs hg dbg hn hd2 hd4 hb hs hm sid
  obtain ⟨cs, e1, hcs⟩ := msm_shared hb hs
  obtain ⟨v, hin, hout⟩ := hm
  have hsum := Shares.add hcs (Shares.mono hd2 hin)
  rw [List.zipWith_map_left, List.zipWith_map_right, List.zipWith_self] at hsum
  have hprog : (fun i : Fin n => pp.dMsm dbg n i (bs i) (ss i) (mask i) sid) =
      fun i : Fin n => starProg n i (cs i + (mask i).inMask) sid pp.t
        (fun rs => pp.msmKing dbg n rs.shares rs.parties) (fun y => .ok (y + (mask i).outMask)) := by
    funext i
    have hi : i.val < 4 * pp.l := by omega
    unfold PSS.dMsm
    rw [debugAssert_of (by rw [hb.1 i hi, hs.1 i hi]; simp), e1 i hi]
    rfl
  rw [hprog] at hc
  refine star_correct hn0 sid pp.t (fun i => cs i + (mask i).inMask) (fun i hi => Wire.ok_fixed _)
    (fun rs => pp.msmKing dbg n rs.shares rs.parties)
    (fun i y => .ok (y + (mask i).outMask)) hc hgot hc' _ ⟨outs₀, hex⟩ ?_
  intro parties answers hr hcount hK
  simp only at hK
  have hlong : dbg = true → 4 * pp.l - 1 ≤ parties.length := by
    rintro rfl
    by_contra hcon
    unfold PSS.msmKing at hK
    rw [PSS.unpackMissing_debug_panic hg (by simp) (by omega)] at hK
    cases hK
  have hp : pp.Decodable dbg (d2 + d1 - 1) parties := by
    refine hr.decodable hn ?_ hlong
    rcases henough with h | h
    · have := hlong h; omega
    · omega
  rw [PSS.msmKing_ok hg dbg n hd4 hp hsum] at hK
  rw [sum_zipWith_add _ _ (by simp [hin.2.1]), sum_map_range] at hK
  set tot := ∑ k ∈ range pp.l, ∑ c ∈ range N, (ssec c).getD k 0 • (bsec c).getD k 0
  obtain rfl : List.replicate n (tot + v.sum) = answers := by injection hK
  refine ⟨fun p => (tot + v.sum) + (mask p).outMask, ?_, ?_⟩
  · exact msm_unmask (v := v) hg tot hout
  · intro i hi
    exact ⟨tot + v.sum, by rw [List.getElem?_replicate, if_pos hi], Wire.ok_fixed _, rfl⟩

end dmsm

/-! ### Too few responders -/

/-- Polynomials with given roots. -/
theorem pval_roots (rs : List F) {d : Nat} (hd : rs.length < d) : ∃ c : Nat → F, ∀ x, pval c d x = (rs.map fun r => x - r).prod := by
  suffices h : ∃ c : Nat → F, ∀ x, pval c (rs.length + 1) x = (rs.map fun r => x - r).prod by
    obtain ⟨c, h⟩ := h
    exact ⟨_, fun x => by rw [← h x, pval_extend (by omega : rs.length + 1 ≤ d)]⟩
  clear hd
  induction rs with
  | nil => exact ⟨fun _ => 1, fun x => by simp [pval]⟩
  | cons r rs ih =>
    obtain ⟨c, hc⟩ := ih
    refine ⟨conv (fun j => if j = 0 then -r else 1) 2 c (rs.length + 1), fun x => ?_⟩
    have := pval_mul (T := F) (fun j => if j = 0 then -r else 1) 2 c (rs.length + 1) x
    rw [show 2 + (rs.length + 1) - 1 = (r :: rs).length + 1 by simp; omega] at this
    rw [← this, hc, List.map_cons, List.prod_cons, smul_eq_mul]
    congr 1
    simp [pval, sum_range_succ]
    ring

/-- Every polynomial with `2l` coefficients can be what `pack` uses. -/
theorem PSS.pack_polynomial {pp : PSS F} (hg : pp.Good) (dbg : Bool) (c : Nat → F) :
    ∃ (x : List F) (r : Nat → F) (sx : List F), x.length = pp.l ∧ pp.pack dbg x r = .ok sx ∧
      (∀ k < pp.l, x.getD k 0 = pval c (2 * pp.l) (pp.secret.offset * (pp.share.groupGen ^ 2) ^ k)) ∧
      ∀ i < 4 * pp.l, sx.getD i 0 = pval c (2 * pp.l) (pp.share.groupGen ^ i) := by
  let e : Nat → F := fun k => pval c (2 * pp.l) (pp.secret.offset * (pp.share.groupGen ^ 2) ^ k)
  refine ⟨(List.range pp.l).map e, fun i => e (pp.l + i), _, by simp, PSS.pack_eq hg dbg (by simp) _, ?_, ?_⟩
  · intro k hk; rw [getD_map_range, if_pos hk]
  · intro i hi
    have hco : pp.packCoeffs ((List.range pp.l).map e) (fun i => e (pp.l + i)) = (List.range pp.secret.size).map c := by
      apply Domain.ifft_evals hg.secret_wf
      intro i hi
      rw [hg.secret_size] at hi
      rw [hg.secret_element, hg.secret_size, getD_append', List.length_map, List.length_range, hg.t_eq]
      have : e i = ∑ j ∈ range (2 * pp.l), (pp.secret.offset * (pp.share.groupGen ^ 2) ^ i) ^ j • c j := rfl
      rw [← this]
      split
      · rename_i h; rw [getD_map_range, if_pos h]
      · rename_i h
        rw [getD_map_range, if_pos (by omega), show pp.l + (i - pp.l) = i by omega]
    rw [hco, hg.secret_size, PSS.fft_share hg (d := 2 * pp.l) (by simp) (by omega) hi]
    apply pval_congr
    intro j hj
    rw [getD_map_range, if_pos hj]

/-- The king of a release build hears too few parties, all of whose shares happen to be zero. -/
theorem PSS.degRed_zero_timeout [FixedWire F] {pp : PSS F} (hg : pp.Good) (hn : n = 4 * pp.l) {parties : List Nat}
    (hnd : parties.Nodup) (hlt : ∀ p ∈ parties, p < n) (h0 : 0 ∈ parties) (hmin : pp.l ≤ parties.length)
    (hsn : parties.length < n) (sh : Nat → F) (hz : ∀ p ∈ parties, sh p = 0) (sid : Sid) (rng : Nat → Nat → F) :
    ∃ (k : Nat) (outs : Nat → List F) (Q : Queues),
      GSteps Any k (Net.init fun i : Fin n => pp.degRed false n i [sh i] (DegRedMask.zero 1) sid rng)
        ⟨fun i => .done (.ok (outs i)), Q⟩ ∧ opened pp 1 outs = List.replicate pp.l 0 := by
  have hl := hg.lpos
  have hzero : pp.SharedVec 1 1 (fun _ => [(0 : F)]) (fun _ => List.replicate pp.l 0) := by
    refine ⟨fun _ _ => rfl, fun c hc => ⟨by simp, by simp, fun _ => 0, ?_, ?_⟩⟩
    · intro i hi
      rw [pval_zero, getD_map_range, if_pos hi, show c = 0 by omega]
      rfl
    · intro i hi
      rw [pval_zero, getD_replicate_self]
  obtain ⟨out, hK, hol, hos⟩ := PSS.degRedKing_ok hg false one_pos one_pos (by omega)
    (Or.inr ⟨hnd, by rw [← hn]; exact hlt, by omega, by omega, by simp⟩ : pp.Decodable false 1 parties) hzero rng
  have hadd : ∀ y : F, addMask [y] (DegRedMask.zero (T := F) 1).inMask = [y] := fun y => by
    simp [addMask, DegRedMask.zero]
  have hprog : (fun i : Fin n => pp.degRed false n i [sh i] (DegRedMask.zero 1) sid rng) =
      fun i : Fin n => (clientSendOrKingReceiveSer n i [sh i] sid pp.t).bind fun r =>
        (Proc.done (kingDo (fun rs : ReceivedShares (List F) => pp.degRedKing false rs.shares rs.parties rng) r)).bind fun a =>
          (clientReceiveOrKingSendSer n i a sid).bind fun y => .done (.ok (addMask y (DegRedMask.zero 1).outMask)) := by
    funext i
    unfold PSS.degRed
    rw [hadd]
    rfl
  have hmap : parties.map (fun i => [sh i]) = parties.map fun _ => [(0 : F)] :=
    List.map_congr_left fun p hp => by rw [hz p hp]
  obtain ⟨k, hk⟩ := star_timeout (n := n) (by omega) sid pp.t (fun i => [sh i])
    (fun i hi => Wire.ok_list _ (by simp))
    (fun rs : ReceivedShares (List F) => pp.degRedKing false rs.shares rs.parties rng)
    (fun _ y => .done (.ok (addMask y (DegRedMask.zero 1).outMask))) hnd hlt h0 hsn (by rw [hg.t_eq]; omega)
    (fun p => out.getD p []) (8 + 1 * FixedWire.width F)
    (by simp only; rw [hmap, hK, hn, ← hol, ← list_eq_map_range])
    (fun i hi => by
      have := hos.1 i (by omega)
      simp only at this
      exact ⟨Wire.ok_list _ (by rw [this]; norm_num), by rw [Wire.enc_list_length, this]⟩)
  rw [← hprog] at hk
  refine ⟨k, fun p => addMask (out.getD p []) (DegRedMask.zero 1).outMask, _, hk, ?_⟩
  have := opened_shared hg le_rfl (SharedVec.add hos (SharedVec.zero 1 (2 * pp.l)))
  refine Eq.trans ?_ (this.trans ?_)
  · rfl
  · simp

end ZkSaas
