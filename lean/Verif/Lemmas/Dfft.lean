import Verif.Lemmas.Fft
import Verif.Lemmas.Lagrange
import Verif.Spec.Shared

/-! What the king computes in a distributed Fourier transform, and the masks. -/

set_option linter.unusedSectionVars false

namespace ZkSaas

open Finset Spec

variable {F : Type} [Field F] [DecidableEq F]

section shared
variable {T : Type} [AddCommGroup T] [Module F T]

/-- `Spec.SharedVec` at the points of `pp`. -/
abbrev PSS.SharedVec (pp : PSS F) (d N : Nat) (sh : Nat → List T) (sec : Nat → List T) : Prop :=
  Spec.SharedVec pp.share.groupGen pp.secret.offset pp.l d N sh sec

theorem SharedVec.mono {pp : PSS F} {d d' N : Nat} {sh sec : Nat → List T} (h : d ≤ d')
    (hs : pp.SharedVec d N sh sec) : pp.SharedVec d' N sh sec :=
  ⟨hs.1, fun c hc => Shares.mono h (hs.2 c hc)⟩

theorem SharedVec.congr {pp : PSS F} {d N : Nat} {sh sh' sec sec' : Nat → List T}
    (hs : pp.SharedVec d N sh sec) (h1 : ∀ p < 4 * pp.l, sh p = sh' p) (h2 : ∀ c < N, sec c = sec' c) :
    pp.SharedVec d N sh' sec' := by
  refine ⟨fun p hp => by rw [← h1 p hp]; exact hs.1 p hp, fun c hc => ?_⟩
  have := hs.2 c hc
  rw [h2 c hc] at this
  rw [show (List.range (4 * pp.l)).map (fun p => (sh' p).getD c 0) =
    (List.range (4 * pp.l)).map (fun p => (sh p).getD c 0) from
      List.map_congr_left (fun p hp => by rw [h1 p (List.mem_range.1 hp)])]
  exact this

theorem SharedVec.add [DecidableEq T] {pp : PSS F} {d N : Nat} {sh sh' sec sec' : Nat → List T}
    (h : pp.SharedVec d N sh sec) (h' : pp.SharedVec d N sh' sec') :
    pp.SharedVec d N (fun p => addMask (sh p) (sh' p)) (fun c => List.zipWith (· + ·) (sec c) (sec' c)) := by
  refine ⟨fun p hp => by simp [addMask, h.1 p hp, h'.1 p hp], fun c hc => ?_⟩
  have := Shares.add (h.2 c hc) (h'.2 c hc)
  rw [show (List.range (4 * pp.l)).map (fun p => (addMask (sh p) (sh' p)).getD c 0) = List.zipWith (· + ·)
      ((List.range (4 * pp.l)).map fun p => (sh p).getD c 0) ((List.range (4 * pp.l)).map fun p => (sh' p).getD c 0) from by
    rw [List.zipWith_map_left, List.zipWith_map_right, List.zipWith_self]
    apply List.map_congr_left
    intro p hp
    have hp := List.mem_range.1 hp
    rw [addMask, getD_zipWith _ _ _ _ 0 0 _ (by rw [h.1 p hp]; exact hc) (by rw [h'.1 p hp]; exact hc)]]
  exact this

/-- A linear map applied by every party to its vector of shares acts on the secrets. -/
theorem SharedVec.linear {pp : PSS F} {d N N' U : Nat} {sh sec : Nat → List T}
    (h : pp.SharedVec d N sh sec) (M : Nat → Nat → F) (σ : Nat → Nat) (hσ : ∀ u < U, σ u < N) :
    pp.SharedVec d N'
      (fun p => (List.range N').map fun k => ∑ u ∈ range U, M k u • (sh p).getD (σ u) 0)
      (fun k => (List.range pp.l).map fun j => ∑ u ∈ range U, M k u • (sec (σ u)).getD j 0) := by
  refine ⟨fun p hp => by simp, fun k hk => ⟨by simp, by simp, ?_⟩⟩
  have hc : ∀ u, ∃ c : Nat → T, u < U →
      (∀ i < 4 * pp.l, (sh i).getD (σ u) 0 = pval c d (pp.share.groupGen ^ i)) ∧
      (∀ k < pp.l, (sec (σ u)).getD k 0 = pval c d (pp.secret.offset * (pp.share.groupGen ^ 2) ^ k)) := by
    intro u
    by_cases hu : u < U
    · obtain ⟨_, _, c, h3, h4⟩ := h.2 (σ u) (hσ u hu)
      refine ⟨c, fun _ => ⟨fun i hi => ?_, h4⟩⟩
      rw [← h3 i hi, getD_map_range, if_pos hi]
    · exact ⟨fun _ => 0, fun h => absurd h hu⟩
  choose c hc using hc
  refine ⟨fun j => ∑ u ∈ range U, M k u • c u j, fun i hi => ?_, fun j hj => ?_⟩
  · rw [getD_map_range, if_pos hi, getD_map_range, if_pos hk, ← pval_sum]
    apply sum_congr rfl
    intro u hu
    rw [(hc u (mem_range.1 hu)).1 i hi, pval_smul]
  · rw [getD_map_range, if_pos hj, ← pval_sum]
    apply sum_congr rfl
    intro u hu
    rw [(hc u (mem_range.1 hu)).2 j hj, pval_smul]

/-- From packed rows, transposed, to what every party holds. -/
theorem SharedVec.of_rows [DecidableEq T] {pp : PSS F} (hg : pp.Good) {d N : Nat} (hN : 0 < N) {rows : List (List T)}
    {sec : Nat → List T} (hlen : rows.length = N) (h : ∀ c < N, pp.Shares d (rows.getD c []) (sec c)) :
    ∃ out, transpose rows = .ok out ∧ out.length = 4 * pp.l ∧ pp.SharedVec d N (fun p => out.getD p []) sec := by
  have hl := hg.lpos
  refine ⟨_, transpose_shares hlen hN (by omega) (fun c hc => (h c hc).1), by simp, ?_, ?_⟩
  · intro p hp
    show (((List.range (4 * pp.l)).map _).getD p []).length = N
    rw [getD_map_range, if_pos hp]; simp
  · intro c hc
    have := h c hc
    rw [show (List.range (4 * pp.l)).map (fun p => (((List.range (4 * pp.l)).map fun p =>
        (List.range N).map fun c => (rows.getD c []).getD p 0).getD p []).getD c 0) = rows.getD c [] from by
      rw [list_eq_map_range (rows.getD c []) 0, this.1]
      apply List.map_congr_left
      intro p hp
      have hp := List.mem_range.1 hp
      rw [getD_map_range, if_pos hp, getD_map_range, if_pos hc]]
    exact this

end shared

/-- The party lists with which the king can decode sharings with `d` coefficients. -/
def PSS.Decodable (pp : PSS F) (dbg : Bool) (d : Nat) (parties : List Nat) : Prop :=
  parties = List.range (4 * pp.l) ∨
  (parties.Nodup ∧ (∀ p ∈ parties, p < 4 * pp.l) ∧ d ≤ parties.length ∧ parties.length < 4 * pp.l ∧
    (dbg = true → 4 * pp.l - 1 ≤ parties.length))

section
variable {T : Type} [AddCommGroup T] [Module F T] [DecidableEq T]

theorem PSS.unpackMissing_of_shares {pp : PSS F} (hg : pp.Good) (dbg : Bool) {d : Nat} {parties : List Nat}
    (hp : pp.Decodable dbg d parties) (hd : d ≤ 4 * pp.l - 1) (f : Nat → T) {secrets : List T}
    (h : pp.Shares d ((List.range (4 * pp.l)).map f) secrets) :
    pp.unpackMissingShares dbg (parties.map f) parties = .ok secrets := by
  have hl := hg.lpos
  unfold PSS.unpackMissingShares
  rw [debugAssert_of (by simp), ok_bind]
  rcases hp with rfl | ⟨hnd, hlt, hle, hlt2, hdbg⟩
  · rw [if_pos (by simp [hg.n_eq])]
    exact PSS.unpack2_of_shares hg dbg hd h
  · rw [if_neg (by rw [List.length_map, hg.n_eq]; omega)]
    have := PSS.lagrangeUnpack_of_shares hg dbg hnd hlt hle hdbg h
    rw [show parties.map (fun p => ((List.range (4 * pp.l)).map f).getD p 0) = parties.map f from
      List.map_congr_left (fun p hp => by rw [getD_map_range, if_pos (hlt p hp)])] at this
    exact this

theorem PSS.Decodable.ne_nil {pp : PSS F} (hg : pp.Good) {dbg : Bool} {d : Nat} (hd : 0 < d) {parties : List Nat}
    (hp : pp.Decodable dbg d parties) : parties ≠ [] := by
  have := hg.lpos
  rcases hp with rfl | ⟨_, _, h, _⟩
  · intro h
    rw [List.range_eq_nil] at h
    omega
  · intro h0
    rw [h0] at h
    simp at h
    omega

theorem PSS.Decodable.lt {pp : PSS F} {dbg : Bool} {d : Nat} {parties : List Nat}
    (hp : pp.Decodable dbg d parties) : ∀ p ∈ parties, p < 4 * pp.l := by
  rcases hp with rfl | ⟨_, h, _⟩
  · intro p hp; exact List.mem_range.1 hp
  · exact h

/-- Transposing the received vectors. -/
theorem transpose_received {pp : PSS F} (hg : pp.Good) {dbg : Bool} {d N : Nat} (hd : 0 < d) (hN : 0 < N)
    {parties : List Nat} (hp : pp.Decodable dbg d parties) {sh : Nat → List T}
    (hsh : ∀ p < 4 * pp.l, (sh p).length = N) :
    transpose (parties.map sh) = .ok ((List.range N).map fun c => parties.map fun p => (sh p).getD c 0) := by
  have hne := hp.ne_nil hg hd
  have hpos : 0 < parties.length := List.length_pos_iff.2 hne
  have hrow : ∀ r, (hr : r < parties.length) → (parties.map sh).getD r [] = sh parties[r] := by
    intro r hr
    rw [List.getD_eq_getElem _ _ (by simpa using hr), List.getElem_map]
  rw [transpose_ok (parties.map sh) 0 (cols := N) (by simpa using hne)
    (by rw [hrow 0 hpos]; exact hsh _ (hp.lt _ (List.getElem_mem hpos))) hN
    (by
      intro r hr
      rw [List.length_map] at hr
      rw [hrow r hr, hsh _ (hp.lt _ (List.getElem_mem hr))])]
  congr 1
  apply List.map_congr_left
  intro c _
  rw [List.length_map]
  apply List.ext_getElem (by simp)
  intro r h1 h2
  simp only [List.length_map, List.length_range] at h1 h2
  rw [List.getElem_map, List.getElem_map, List.getElem_range, hrow r h1]

end

/-- `distribute_powers` entry by entry; for `g = 1` it does nothing. -/
theorem distribute_eq (n : Nat) (f : Nat → F) (g : F) :
    (if g ≠ 1 then distributePowers ((List.range n).map f) g else (List.range n).map f) =
      (List.range n).map fun k => g ^ k * f k := by
  by_cases h : g = 1
  · subst h; simp
  · rw [if_pos h]
    unfold distributePowers
    apply List.ext_getElem (by simp)
    intro i h1 h2
    simp

theorem slot_lt (rev : Bool) {a b c j : Nat} (hc : c < 2 ^ a) (hj : j < 2 ^ b) : slot rev a b c j < 2 ^ (a + b) := by
  unfold slot
  split
  · exact bitRev_lt _ _
  · have : (c + 1) * 2 ^ b ≤ 2 ^ a * 2 ^ b := Nat.mul_le_mul_right _ hc
    rw [← pow_add, Nat.add_mul] at this
    omega

theorem stride_lt {a b c j : Nat} (hc : c < 2 ^ a) (hj : j < 2 ^ b) : c + j * 2 ^ a < 2 ^ (a + b) := by
  have : (j + 1) * 2 ^ a ≤ 2 ^ b * 2 ^ a := Nat.mul_le_mul_right _ hj
  rw [← pow_add, Nat.add_mul, Nat.add_comm b a] at this
  omega

theorem packed_length {T : Type} (rev : Bool) (a b : Nat) (x : Nat → T) (c : Nat) :
    (packed rev a b x c).length = 2 ^ b := by simp [packed]

theorem packed_congr {T : Type} (rev : Bool) {a b : Nat} {x y : Nat → T} {c : Nat} (hc : c < 2 ^ a)
    (h : ∀ i < 2 ^ (a + b), x i = y i) : packed rev a b x c = packed rev a b y c := by
  unfold packed
  apply List.map_congr_left
  intro j hj
  exact h _ (slot_lt rev hc (List.mem_range.1 hj))

theorem packed_zipWith {T : Type} (rev : Bool) (a b : Nat) (f : T → T → T) (x y : Nat → T) (c : Nat) :
    List.zipWith f (packed rev a b x c) (packed rev a b y c) = packed rev a b (fun i => f (x i) (y i)) c := by
  unfold packed
  rw [List.zipWith_map_left, List.zipWith_map_right, List.zipWith_self]

/-- Packing a vector in either layout and transposing. -/
theorem pack_layout {pp : PSS F} (hg : pp.Good) (dbg : Bool) {a b : Nat} (hlb : pp.l = 2 ^ b) (z : Nat → F)
    (rearrange : Bool) (rng : Nat → Nat → F) :
    ∃ out, (if rearrange then do
        let s1 ← fftInPlaceRearrange ((List.range (2 ^ (a + b))).map z)
        let outShares ← pp.packStrided dbg s1 rng
        transpose outShares
      else do
        let outShares ← pp.packVec dbg ((List.range (2 ^ (a + b))).map z) rng
        transpose outShares) = .ok out ∧ out.length = 4 * pp.l ∧
      pp.SharedVec (2 * pp.l) (2 ^ a) (fun p => out.getD p []) (packed rearrange a b z) := by
  cases rearrange with
  | true =>
    rw [if_pos rfl, fftInPlaceRearrange_eq (a + b) _ 0 (by simp), ok_bind]
    obtain ⟨rows, e, hl, h⟩ := PSS.packStrided_shares hg dbg (N := 2 ^ a)
      (v := (List.range (2 ^ (a + b))).map fun i => ((List.range (2 ^ (a + b))).map z).getD (bitRev (a + b) i) 0)
      (by rw [List.length_map, List.length_range, hlb, pow_add]) rng
    rw [e, ok_bind]
    obtain ⟨out, e, ho, hs⟩ := SharedVec.of_rows hg (by positivity) hl h
    refine ⟨out, e, ho, SharedVec.congr hs (fun _ _ => rfl) ?_⟩
    intro c hc
    unfold strided packed
    rw [hlb]
    apply List.map_congr_left
    intro j hj
    have hj := List.mem_range.1 hj
    rw [getD_map_range, if_pos (stride_lt hc hj), getD_map_range, if_pos (bitRev_lt _ _), slot, if_pos rfl]
  | false =>
    rw [if_neg (by simp)]
    obtain ⟨rows, e, hl, h⟩ := PSS.packVec_shares hg dbg (N := 2 ^ a)
      (v := (List.range (2 ^ (a + b))).map z)
      (by rw [List.length_map, List.length_range, hlb, pow_add]) rng
    rw [e, ok_bind]
    obtain ⟨out, e, ho, hs⟩ := SharedVec.of_rows hg (by positivity) hl h
    refine ⟨out, e, ho, SharedVec.congr hs (fun _ _ => rfl) ?_⟩
    intro c hc
    have hlen : (chunk ((List.range (2 ^ (a + b))).map z) pp.l c).length = pp.l :=
      chunk_length (N := 2 ^ a) (by rw [List.length_map, List.length_range, hlb, pow_add]) hc
    apply list_ext_getD 0 (by rw [hlen, packed_length, hlb])
    intro j hj
    rw [hlen] at hj
    have hj' : j < 2 ^ b := by rwa [hlb] at hj
    have := slot_lt false hc hj'
    rw [slot, if_neg (by simp)] at this
    rw [chunk, chunk_getD _ _ _ _ _ hj, hlb, getD_map_range, if_pos this, packed, getD_map_range, if_pos hj', slot,
      if_neg (by simp)]

/-- The tail of the king's computation on any vector in butterfly layout. -/
theorem PSS.fft2Finish_ok {pp : PSS F} (hg : pp.Good) (dbg : Bool) {a b : Nat} (hlb : pp.l = 2 ^ b) {gen : F}
    (hprim : IsPrimitiveRoot gen (2 ^ (a + b))) (φ : Nat → Nat → F → F)
    (hφ : ∀ s ≥ a, ∀ j x, φ (s + 1) j x = φ s (2 * j) (x ^ 2) + x * φ s (2 * j + 1) (x ^ 2))
    (s1 : List F) (hl : s1.length = 2 ^ (a + b))
    (hs : ∀ k < 2 ^ a, ∀ j < 2 ^ b, s1.getD (k * 2 ^ b + j) 0 = φ a j (gen ^ (2 ^ b * (k + 1))))
    (g : F) (rearrange : Bool) (post : F → F) (rng : Nat → Nat → F) :
    ∃ out, pp.fft2Finish dbg s1 g gen rearrange post rng = .ok out ∧ out.length = 4 * pp.l ∧
      pp.SharedVec (2 * pp.l) (2 ^ a) (fun p => out.getD p [])
        (packed rearrange a b fun k => post (g ^ k * φ (a + b) 0 (gen ^ k))) := by
  unfold PSS.fft2Finish
  rw [PSS.fft2InPlace_eq hlb hprim φ hφ s1 hl hs, ok_bind]
  simp only
  rw [distribute_eq, List.map_map]
  exact pack_layout hg dbg hlb _ rearrange rng

/-- Extension of the first butterfly layer given as arbitrary functions. -/
def bpf (f : Nat → F → F) : Nat → Nat → F → F
  | 0, j, x => f j x
  | s + 1, j, x => bpf f s (2 * j) (x ^ 2) + x * bpf f s (2 * j + 1) (x ^ 2)

/-- Every vector has a butterfly layout. -/
theorem exists_layout {a b : Nat} {gen : F} (hprim : IsPrimitiveRoot gen (2 ^ (a + b))) (u : Nat → F) :
    ∃ φ : Nat → Nat → F → F,
      (∀ s ≥ a, ∀ j x, φ (s + 1) j x = φ s (2 * j) (x ^ 2) + x * φ s (2 * j + 1) (x ^ 2)) ∧
      ∀ k < 2 ^ a, ∀ j < 2 ^ b, u (k * 2 ^ b + j) = φ a j (gen ^ (2 ^ b * (k + 1))) := by
  have hinj : ∀ k < 2 ^ a, ∀ k' < 2 ^ a, gen ^ (2 ^ b * (k + 1)) = gen ^ (2 ^ b * (k' + 1)) → k = k' := by
    have hp : IsPrimitiveRoot (gen ^ 2 ^ b) (2 ^ a) :=
      hprim.pow (by positivity) (by rw [← pow_add, Nat.add_comm])
    intro k hk k' hk' h
    rw [pow_mul, pow_mul, pow_succ, pow_succ] at h
    have h0 : gen ^ 2 ^ b ≠ 0 := hp.ne_zero (by positivity)
    exact hp.pow_inj hk hk' (mul_right_cancel₀ h0 h)
  let f : Nat → F → F := fun j x => ∑ k ∈ range (2 ^ a), if x = gen ^ (2 ^ b * (k + 1)) then u (k * 2 ^ b + j) else 0
  refine ⟨fun s => bpf f (s - a), ?_, ?_⟩
  · intro s hs j x
    show bpf f (s + 1 - a) j x = _
    rw [Nat.sub_add_comm hs]
    rfl
  · intro k hk j _
    show _ = bpf f (a - a) j _
    rw [Nat.sub_self]
    show _ = ∑ k' ∈ range (2 ^ a), _
    rw [sum_eq_single k]
    · rw [if_pos rfl]
    · intro k' hk' hne
      rw [if_neg]
      intro h
      exact hne (hinj k hk k' (mem_range.1 hk') h).symm
    · intro h; exact absurd (mem_range.2 hk) h

/-- `fft2_with_rearrange` at the king: the part before the transform, on decodable messages sharing `u` chunk by chunk. -/
theorem PSS.fft2King_eq {pp : PSS F} (hg : pp.Good) (dbg : Bool) {a b : Nat} (hlb : pp.l = 2 ^ b) {gen : F}
    (φ : Nat → Nat → F → F)
    {d : Nat} (hd : 0 < d) (hd4 : d ≤ 4 * pp.l - 1) {parties : List Nat} (hp : pp.Decodable dbg d parties)
    {sh : Nat → List F} (hsh : pp.SharedVec d (2 ^ a) sh
      (fun c => (List.range (2 ^ b)).map fun j => φ a j (gen ^ (2 ^ b * (c + 1)))))
    (g : F) (rearrange : Bool) :
    ∃ s1 : List F, s1.length = 2 ^ (a + b) ∧
      (∀ k < 2 ^ a, ∀ j < 2 ^ b, s1.getD (k * 2 ^ b + j) 0 = φ a j (gen ^ (2 ^ b * (k + 1)))) ∧
      ∀ rng : Nat → Nat → F, pp.fft2King dbg (2 ^ a) (2 ^ a) g gen rearrange (parties.map sh) parties rng =
        pp.fft2Finish dbg s1 g gen rearrange id rng := by
  have hN : 2 ^ a * pp.l = 2 ^ (a + b) := by rw [hlb, pow_add]
  obtain ⟨s1, e, h1, h2⟩ := forUp_inv (n := 2 ^ a) (s := List.replicate (2 ^ a * pp.l) (0 : F))
    (body := fun i s1 => do
      let share ← rd ((List.range (2 ^ a)).map fun c => parties.map fun p => (sh p).getD c 0) i
      let tmp ← pp.unpackMissingShares dbg share parties
      forUp pp.l (fun j s1 => do
        let x ← rd tmp j
        wr s1 (i * pp.l + j) x) s1)
    (P := fun i (u : List F) => u.length = 2 ^ (a + b) ∧
      ∀ k < i, ∀ j < 2 ^ b, u.getD (k * 2 ^ b + j) 0 = φ a j (gen ^ (2 ^ b * (k + 1))))
    ⟨by simp [hN], fun k hk => absurd hk (by omega)⟩
    (by
      rintro i hi u ⟨u1, u2⟩
      rw [rd_ok (by simpa using hi) [], ok_bind, getD_map_range, if_pos hi,
        PSS.unpackMissing_of_shares hg dbg hp hd4 _ (hsh.2 i hi), ok_bind]
      obtain ⟨w, e, w1, w2, w3⟩ := forUp_inv (n := pp.l) (s := u)
        (body := fun j s1 => do
          let x ← rd ((List.range (2 ^ b)).map fun j => φ a j (gen ^ (2 ^ b * (i + 1)))) j
          wr s1 (i * pp.l + j) x)
        (P := fun j' (w : List F) => w.length = 2 ^ (a + b) ∧
          (∀ k < i, ∀ j < 2 ^ b, w.getD (k * 2 ^ b + j) 0 = φ a j (gen ^ (2 ^ b * (k + 1)))) ∧
          ∀ j < j', w.getD (i * 2 ^ b + j) 0 = φ a j (gen ^ (2 ^ b * (i + 1))))
        ⟨u1, u2, fun j hj => absurd hj (by omega)⟩
        (by
          rintro j hj w ⟨w1, w2, w3⟩
          rw [hlb] at hj
          have hlt := slot_lt false hi hj
          rw [slot, if_neg (by simp)] at hlt
          rw [rd_ok (by simpa using hj) 0, ok_bind, getD_map_range, if_pos hj, hlb, wr_ok (by omega)]
          refine ⟨_, rfl, by simpa using w1, ?_, ?_⟩
          · intro k hk j' hj'
            rw [getD_set, if_neg, w2 k hk j' hj']
            rintro ⟨h, _⟩
            have := (block_inj hj hj' h).1
            omega
          · intro j' hj'
            rw [getD_set]
            by_cases h : j = j'
            · subst h; rw [if_pos ⟨rfl, by omega⟩]
            · rw [if_neg (by omega), w3 j' (by omega)])
      refine ⟨w, e, w1, ?_⟩
      intro k hk j hj
      by_cases h : k = i
      · subst h; exact w3 j (by rwa [hlb])
      · exact w2 k (by omega) j hj)
  refine ⟨s1, h1, h2, fun rng => ?_⟩
  unfold PSS.fft2King
  rw [transpose_received hg hd (by positivity) hp hsh.1, ok_bind]
  simp only [List.length_map, List.length_range, min_self]
  rw [e, ok_bind]

/-- `fft2_with_rearrange` at the king: on decodable messages sharing `u` chunk by chunk. -/
theorem PSS.fft2King_ok {pp : PSS F} (hg : pp.Good) (dbg : Bool) {a b : Nat} (hlb : pp.l = 2 ^ b) {gen : F}
    (hprim : IsPrimitiveRoot gen (2 ^ (a + b))) (φ : Nat → Nat → F → F)
    (hφ : ∀ s ≥ a, ∀ j x, φ (s + 1) j x = φ s (2 * j) (x ^ 2) + x * φ s (2 * j + 1) (x ^ 2))
    {d : Nat} (hd : 0 < d) (hd4 : d ≤ 4 * pp.l - 1) {parties : List Nat} (hp : pp.Decodable dbg d parties)
    {sh : Nat → List F} (hsh : pp.SharedVec d (2 ^ a) sh
      (fun c => (List.range (2 ^ b)).map fun j => φ a j (gen ^ (2 ^ b * (c + 1)))))
    (g : F) (rearrange : Bool) (rng : Nat → Nat → F) :
    ∃ out, pp.fft2King dbg (2 ^ a) (2 ^ a) g gen rearrange (parties.map sh) parties rng = .ok out ∧
      out.length = 4 * pp.l ∧
      pp.SharedVec (2 * pp.l) (2 ^ a) (fun p => out.getD p [])
        (packed rearrange a b fun k => g ^ k * φ (a + b) 0 (gen ^ k)) := by
  obtain ⟨s1, h1, h2, e⟩ := PSS.fft2King_eq hg dbg hlb φ hd hd4 hp hsh g rearrange
  rw [e]
  exact PSS.fft2Finish_ok hg dbg hlb hprim φ hφ s1 h1 h2 g rearrange id rng

/-- Sampled masks: the in-masks share arbitrary values chunk by chunk, the out-masks share minus the transform of these
values in the output layout. -/
theorem FftMask.sample_ok {pp : PSS F} (hg : pp.Good) (dbg : Bool) {a b : Nat} (hlb : pp.l = 2 ^ b) {gen : F}
    (hprim : IsPrimitiveRoot gen (2 ^ (a + b))) (rearrange : Bool) (g : F) (vals : Nat → F)
    (rngIn rngOut : Nat → Nat → F) :
    ∃ (masks : List (FftMask F)) (φ : Nat → Nat → F → F),
      FftMask.sample pp dbg rearrange g gen (2 ^ (a + b)) vals rngIn rngOut = .ok masks ∧
      masks.length = 4 * pp.l ∧
      (∀ s ≥ a, ∀ j x, φ (s + 1) j x = φ s (2 * j) (x ^ 2) + x * φ s (2 * j + 1) (x ^ 2)) ∧
      (∀ k < 2 ^ a, ∀ j < 2 ^ b, vals (k * 2 ^ b + j) = φ a j (gen ^ (2 ^ b * (k + 1)))) ∧
      pp.SharedVec (2 * pp.l) (2 ^ a) (fun p => (masks.getD p (FftMask.zero 0)).inMask)
        (fun c => (List.range (2 ^ b)).map fun j => φ a j (gen ^ (2 ^ b * (c + 1)))) ∧
      pp.SharedVec (2 * pp.l) (2 ^ a) (fun p => (masks.getD p (FftMask.zero 0)).outMask)
        (packed rearrange a b fun k => -(g ^ k * φ (a + b) 0 (gen ^ k))) := by
  obtain ⟨φ, hφ, hu⟩ := exists_layout (a := a) (b := b) hprim vals
  unfold FftMask.sample
  simp only
  obtain ⟨outI, eI, lI, hI⟩ := pack_layout hg dbg (a := a) hlb vals false rngIn
  rw [if_neg (by simp)] at eI
  have eI' : ∃ rows, pp.packVec dbg ((List.range (2 ^ (a + b))).map vals) rngIn = .ok rows ∧ transpose rows = .ok outI := by
    cases h : pp.packVec dbg ((List.range (2 ^ (a + b))).map vals) rngIn with
    | error e => rw [h] at eI; cases eI
    | ok rows => rw [h, ok_bind] at eI; exact ⟨rows, rfl, eI⟩
  obtain ⟨rows, er, et⟩ := eI'
  obtain ⟨outO, eO, lO, hO⟩ := PSS.fft2Finish_ok hg dbg (a := a) hlb hprim φ hφ ((List.range (2 ^ (a + b))).map vals)
    (by simp) (by
      intro k hk j hj
      have := slot_lt false hk hj
      rw [slot, if_neg (by simp)] at this
      rw [getD_map_range, if_pos this, hu k hk j hj]) g rearrange (fun x => -x) rngOut
  rw [er, ok_bind, et, ok_bind, eO, ok_bind]
  refine ⟨_, φ, rfl, by simp [lI, lO], hφ, hu, ?_, ?_⟩
  · apply SharedVec.congr hI
    · intro p hp
      rw [getD_zipWith FftMask.mk outI outO p [] [] _ (by omega) (by omega)]
    · intro c hc
      unfold packed
      apply List.map_congr_left
      intro j hj
      rw [slot, if_neg (by simp), hu c hc j (List.mem_range.1 hj)]
  · apply SharedVec.congr hO
    · intro p hp
      rw [getD_zipWith FftMask.mk outI outO p [] [] _ (by omega) (by omega)]
    · intro c hc; rfl

end ZkSaas
