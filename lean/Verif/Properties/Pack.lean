import Verif.Lemmas.Pack
import Verif.Lemmas.BitRev
import Verif.Properties.Pss

/-!
# C16 – C18: transposition, chunk packing and bit reversal
-/

set_option linter.unusedSectionVars false

namespace ZkSaas.Properties

open ZkSaas ZkSaas.Spec

section transpose

variable {T : Type}

/-- C16: transposing a rectangular matrix with `rows ≥ 1` and `cols ≥ 1` succeeds, entry `[c][r]` of the result is entry
`[r][c]` of the input. -/
theorem C16_transpose_entries (m : List (List T)) (rows cols : Nat) (hr : m.length = rows) (hrp : 0 < rows)
    (hcp : 0 < cols) (hrect : ∀ row ∈ m, row.length = cols) :
    ∃ m', transpose m = .ok m' ∧ m'.length = cols ∧ (∀ row ∈ m', row.length = rows) ∧
      ∀ r c, r < rows → c < cols → (m'[c]?.bind fun row => row[r]?) = (m[r]?.bind fun row => row[c]?) := by
  have hne : m ≠ [] := by rintro rfl; simp at hr; omega
  obtain ⟨r0, hr0⟩ := List.exists_mem_of_ne_nil m hne
  have hrow : ∀ r < m.length, (m.getD r []).length = cols := by
    intro r hr
    rw [List.getD_eq_getElem _ _ hr]
    exact hrect _ (List.getElem_mem hr)
  obtain ⟨d, -⟩ : ∃ d : T, True := by
    have := hrect r0 hr0
    cases r0 with
    | nil => simp at this; omega
    | cons x _ => exact ⟨x, trivial⟩
  refine ⟨_, transpose_ok m d hne (hrow 0 (by omega)) hcp (fun r hr => (hrow r hr).ge), by simp, ?_, ?_⟩
  · intro row h
    simp only [List.mem_map] at h
    obtain ⟨c, -, rfl⟩ := h
    simp [hr]
  · intro r c h1 h2
    have h1' : r < m.length := by omega
    have hlt : c < m[r].length := by
      have := hrow r h1'
      rw [List.getD_eq_getElem _ _ h1'] at this
      omega
    simp [h2, h1', List.getElem?_eq_getElem hlt]

/-- C16: transposing twice is the identity. -/
theorem C16_transpose_twice (m : List (List T)) (rows cols : Nat) (hr : m.length = rows) (hrp : 0 < rows)
    (hcp : 0 < cols) (hrect : ∀ row ∈ m, row.length = cols) :
    (transpose m).bind transpose = .ok m := by
  obtain ⟨m', e, h1, h2, h3⟩ := C16_transpose_entries m rows cols hr hrp hcp hrect
  obtain ⟨m'', e', h1', h2', h3'⟩ := C16_transpose_entries m' cols rows h1 hcp hrp h2
  rw [e]
  show transpose m' = _
  rw [e']
  congr 1
  apply List.ext_getElem (by omega)
  intro r hr1 hr2
  have hl1 : m''[r].length = cols := h2' _ (List.getElem_mem hr1)
  have hl2 : m[r].length = cols := hrect _ (List.getElem_mem hr2)
  apply List.ext_getElem (by omega)
  intro c hc1 hc2
  have q := h3' c r (by omega) (by omega)
  rw [h3 r c (by omega) (by omega)] at q
  simpa [hr1, hr2, hc1, hc2] using q

/-- C16: it panics on an empty matrix, on an empty first row, and when some row is shorter than the first. -/
theorem C16_transpose_panics (m : List (List T))
    (h : m = [] ∨ m[0]? = some [] ∨ ∃ row0 row, m[0]? = some row0 ∧ row ∈ m ∧ row.length < row0.length) :
    transpose m = panic' := by
  rcases h with rfl | h | ⟨row0, row, h0, hm, hlt⟩
  · rfl
  · exact transpose_row0_nil m (by rw [List.getD_eq_getElem?_getD, h]; rfl)
  · obtain ⟨r, hr, e⟩ := List.getElem_of_mem hm
    refine transpose_short m hr ?_
    rw [List.getD_eq_getElem _ _ hr, e, List.getD_eq_getElem?_getD (i := 0), h0]
    exact hlt

/-- C16: rows longer than the first are silently cut to its length (a client can therefore not make a king's transposition
of received vectors fail by sending more, only by sending less). -/
theorem C16_transpose_long_rows (m : List (List T)) (row0 : List T) (h0 : m[0]? = some row0) (hne : row0 ≠ [])
    (hlong : ∀ row ∈ m, row0.length ≤ row.length) :
    transpose m = transpose (m.map fun row => row.take row0.length) := by
  have hm : m ≠ [] := by rintro rfl; simp at h0
  have hpos : 0 < row0.length := List.length_pos_iff.2 hne
  have g0 : m.getD 0 [] = row0 := by rw [List.getD_eq_getElem?_getD, h0]; rfl
  have hrow : ∀ r < m.length, row0.length ≤ (m.getD r []).length := by
    intro r hr
    rw [List.getD_eq_getElem _ _ hr]
    exact hlong _ (List.getElem_mem hr)
  have hrow' : ∀ r < m.length, ((m.map fun row => row.take row0.length).getD r []) = (m.getD r []).take row0.length := by
    intro r hr
    rw [List.getD_eq_getElem _ _ (by simpa using hr), List.getD_eq_getElem _ _ hr]
    simp
  have hlen0 := List.length_pos_iff.2 hm
  rw [transpose_ok m (row0[0]) hm (by rw [g0]) hpos hrow,
    transpose_ok (m.map fun row => row.take row0.length) (row0[0]) (by simpa using hm) (cols := row0.length)
      (by rw [hrow' 0 hlen0, g0]; simp) hpos (fun r hr => by
        rw [List.length_map] at hr
        rw [hrow' r hr, List.length_take]
        have := hrow r hr
        omega)]
  congr 1
  apply List.map_congr_left
  intro c hc
  rw [List.mem_range] at hc
  rw [List.length_map]
  apply List.map_congr_left
  intro r hr
  rw [List.mem_range] at hr
  rw [hrow' r hr, getD_take, if_pos hc]

/-- Example for C16. -/
example : transpose [[1, 2, 3], [4, 5, 6]] = .ok [[1, 4], [2, 5], [3, 6]] ∧
    transpose [[1, 2, 3], [4, 5]] = (panic' : Res (List (List Nat))) ∧
    transpose [[1, 2], [4, 5, 6]] = .ok [[1, 4], [2, 5]] ∧
    (∀ row ∈ [[1, 2, 3], [4, 5, 6]], row.length = 3) := by
  refine ⟨rfl, rfl, rfl, by decide⟩

end transpose

section pack

variable {F : Type} [Field F] [DecidableEq F] [FftField F]
variable {T : Type} [AddCommGroup T] [Module F T] [DecidableEq T]

theorem flatten_chunks (v : List T) (l N : Nat) (hv : v.length = N * l) :
    ((List.range N).map fun c => chunk v l c).flatten = v := by
  induction N generalizing v with
  | zero => simp at hv; simp [hv]
  | succ N ih =>
    rw [List.range_succ_eq_map, List.map_cons, List.flatten_cons, List.map_map]
    have h1 : (fun c => chunk v l c) ∘ Nat.succ = fun c => chunk (v.drop l) l c := by
      funext c
      simp only [Function.comp, chunk, List.drop_drop, Nat.succ_eq_add_one, Nat.add_mul, Nat.one_mul]
      rw [Nat.add_comm]
    rw [h1, ih (v.drop l) (by rw [List.length_drop, hv, Nat.add_mul]; omega)]
    simp [chunk]

/-- C17: packing a vector of `N` chunks of `l = 2^b` secrets succeeds for every randomness and yields `N` vectors of `n`
shares; unpacking them and concatenating gives back the vector. -/
theorem C17_pack_vec_round_trip {dbg₀ : Bool} {b : Nat} {pp : PSS F} (hpp : PSS.new dbg₀ (2 ^ b) = .ok pp)
    (dbg : Bool) (N : Nat) (v : List T) (hv : v.length = N * 2 ^ b) (rng : Nat → Nat → T) :
    ∃ rows, pp.packVec dbg v rng = .ok rows ∧ rows.length = N ∧ (∀ row ∈ rows, row.length = 4 * 2 ^ b) ∧
      (rows.map pp.unpack).flatten = v ∧ (∀ row ∈ rows, (pp.unpack row).length = 2 ^ b) ∧
      rows.mapM (pp.unpack2 dbg) = .ok (rows.map pp.unpack) := by
  have hg := PSS.good_of_new hpp
  have hle := l_eq hpp
  have hlp := hg.lpos
  obtain ⟨rows, e, hlen, h⟩ := PSS.packVec_shares hg dbg (N := N) (by rw [hle]; exact hv) rng
  have hmem : ∀ row ∈ rows, ∃ c < N, pp.Shares (2 * pp.l) row (chunk v pp.l c) := by
    intro row hr
    obtain ⟨c, hc, rfl⟩ := List.getElem_of_mem hr
    refine ⟨c, by omega, ?_⟩
    have := h c (by omega)
    rwa [List.getD_eq_getElem _ _ hc] at this
  refine ⟨rows, e, hlen, ?_, ?_, ?_, ?_⟩
  · intro row hr
    obtain ⟨c, _, hs⟩ := hmem row hr
    rw [hs.1, hle]
  · rw [← flatten_chunks v (2 ^ b) N hv]
    congr 1
    apply List.ext_getElem (by simp [hlen])
    intro c h1 h2
    have hs := h c (by simpa using h2)
    simp only [List.length_map] at h1
    rw [List.getD_eq_getElem _ _ h1] at hs
    simp only [List.getElem_map, List.getElem_range]
    rw [PSS.unpack_of_shares hg le_rfl hs, hle]
  · intro row hr
    obtain ⟨c, _, hs⟩ := hmem row hr
    rw [PSS.unpack_of_shares hg le_rfl hs, hs.2.1, hle]
  · apply mapM_ok
    intro row hr
    obtain ⟨c, _, hs⟩ := hmem row hr
    rw [PSS.unpack_of_shares hg le_rfl hs, PSS.unpack2_of_shares hg dbg (by omega) hs]

/-- C17: in a debug build a length that is not a multiple of `l` panics. -/
theorem C17_pack_vec_length {dbg₀ : Bool} {b : Nat} {pp : PSS F} (hpp : PSS.new dbg₀ (2 ^ b) = .ok pp)
    (v : List T) (hv : ¬ 2 ^ b ∣ v.length) (rng : Nat → Nat → T) : pp.packVec true v rng = panic' := by
  have hle := l_eq hpp
  unfold PSS.packVec
  have : (v.length % pp.l == 0) = false := by
    rw [hle]; simpa using fun h => hv (Nat.dvd_of_mod_eq_zero h)
  rw [this]
  rfl

/-- Example for C17. -/
example : ∃ (pp : PSS (ZMod 17)) (rows : List (List (ZMod 17))), PSS.new true (2 ^ 1) = .ok pp ∧
    pp.packVec true [3, 14, 15, 9, 2, 6] (fun c i => (c + 2 * i : ZMod 17)) = .ok rows ∧
    (rows.map pp.unpack).flatten = [3, 14, 15, 9, 2, 6] := by
  obtain ⟨rows, e, _, _, h, _⟩ := C17_pack_vec_round_trip (pp17_eq true) true 3 [3, 14, 15, 9, 2, 6] rfl
    (fun c i => (c + 2 * i : ZMod 17))
  exact ⟨pp17, rows, pp17_eq true, e, h⟩

end pack

section bitrev

variable {T : Type}

/-- C18: on a vector of length `2^k`, `fft_in_place_rearrange` never goes out of bounds, keeps the length, and puts at
position `i` the element formerly at `rev i`, where `rev i < 2^k` is the number whose binary digit `j` is digit `k-1-j`
of `i`. -/
theorem C18_rearrange (k : Nat) (v : List T) (hv : v.length = 2 ^ k) :
    ∃ w, fftInPlaceRearrange v = .ok w ∧ w.length = 2 ^ k ∧
      ∀ i r, i < 2 ^ k → r < 2 ^ k → (∀ j < k, r.testBit j = i.testBit (k - 1 - j)) → w[i]? = v[r]? := by
  obtain ⟨d, -⟩ : ∃ d : T, True := by
    cases v with
    | nil => simp at hv; exact absurd hv.symm (by positivity)
    | cons x _ => exact ⟨x, trivial⟩
  refine ⟨_, fftInPlaceRearrange_eq k v d hv, by simp, ?_⟩
  intro i r hi hr hbits
  have : r = bitRev k i := by
    apply Nat.eq_of_testBit_eq
    intro j
    by_cases hj : j < k
    · rw [hbits j hj, bitRev_testBit k i j hj]
    · rw [bitRev_testBit_ge k i j (by omega), Nat.testBit_lt_two_pow]
      exact lt_of_lt_of_le hr (Nat.pow_le_pow_right (by norm_num) (by omega))
  subst this
  rw [List.getElem?_map, List.getElem?_range hi, Option.map_some, List.getD_eq_getElem _ _ (by omega),
    List.getElem?_eq_getElem (by omega)]

/-- C18: it is an involution. -/
theorem C18_rearrange_twice (k : Nat) (v : List T) (hv : v.length = 2 ^ k) :
    (fftInPlaceRearrange v).bind fftInPlaceRearrange = .ok v := by
  obtain ⟨d, -⟩ : ∃ d : T, True := by
    cases v with
    | nil => simp at hv; exact absurd hv.symm (by positivity)
    | cons x _ => exact ⟨x, trivial⟩
  rw [fftInPlaceRearrange_eq k v d hv]
  show fftInPlaceRearrange _ = _
  rw [fftInPlaceRearrange_eq k _ d (by simp)]
  congr 1
  apply list_ext_getD d (by simp [hv])
  intro i hi
  rw [getD_map_range, getD_map_range]
  rw [List.length_map, List.length_range] at hi
  rw [if_pos hi, if_pos (bitRev_lt k i), bitRev_bitRev k i hi]

/-- Example for C18. -/
example : fftInPlaceRearrange [10, 11, 12, 13, 14, 15, 16, 17] = .ok [10, 14, 12, 16, 11, 15, 13, 17] := by
  decide +kernel

end bitrev

/-- Examples for C16, C17 and C18: the theorems on concrete lists. -/
example : ∃ m', transpose [[1, 2, 3], [4, 5, 6]] = .ok m' ∧ m'.length = 3 :=
  let ⟨m', h1, h2, _⟩ := C16_transpose_entries [[1, 2, 3], [4, 5, 6]] 2 3 rfl (by decide) (by decide) (by decide)
  ⟨m', h1, h2⟩

example : (transpose [[1, 2, 3], [4, 5, 6]]).bind transpose = .ok [[1, 2, 3], [4, 5, 6]] :=
  C16_transpose_twice _ 2 3 rfl (by decide) (by decide) (by decide)

example : transpose [[1, 2, 3], [4, 5]] = panic' :=
  C16_transpose_panics _ (Or.inr (Or.inr ⟨[1, 2, 3], [4, 5], rfl, by decide, by decide⟩))

example : transpose [[1, 2], [4, 5, 6]] = transpose [[1, 2], [4, 5]] :=
  C16_transpose_long_rows [[1, 2], [4, 5, 6]] [1, 2] rfl (by decide) (by decide)

example (rng : Nat → Nat → ZMod 17) : pp17.packVec true [1, 2, 3] rng = panic' :=
  C17_pack_vec_length (b := 1) (pp17_eq true) [1, 2, 3] (by decide) rng

example : ∃ w, fftInPlaceRearrange [10, 11, 12, 13, 14, 15, 16, 17] = .ok w ∧ w[1]? = some 14 := by
  obtain ⟨w, h1, -, h2⟩ := C18_rearrange 3 [10, 11, 12, 13, 14, 15, 16, 17] rfl
  exact ⟨w, h1, h2 1 4 (by decide) (by decide) (by decide)⟩

example : (fftInPlaceRearrange [10, 11, 12, 13, 14, 15, 16, 17]).bind fftInPlaceRearrange = .ok [10, 11, 12, 13, 14, 15, 16, 17] :=
  C18_rearrange_twice 3 _ rfl

end ZkSaas.Properties
