import Verif.Model.Pack
import Verif.Lemmas.Pss

/-! `transpose`, `pack_vec` and the strided packing. -/

set_option linter.unusedSectionVars false

namespace ZkSaas

open Finset Spec

/-- Loop rule with panics. -/
theorem forUp_panic_inv {σ : Type _} (P : Nat → σ → Prop) {n : Nat} {body : Nat → σ → Res σ} {s : σ}
    (h0 : P 0 s)
    (hs : ∀ i < n, ∀ s, P i s → body i s = panic' ∨ ∃ s', body i s = .ok s' ∧ P (i + 1) s') :
    forUp n body s = panic' ∨ ∃ s', forUp n body s = .ok s' ∧ P n s' := by
  induction n with
  | zero => exact .inr ⟨s, rfl, h0⟩
  | succ n ih =>
    rw [forUp_succ]
    rcases ih (fun i hi => hs i (Nat.lt_succ_of_lt hi)) with h | ⟨s1, e1, p1⟩
    · rw [h]; exact .inl rfl
    · rw [e1, ok_bind]
      exact hs n (Nat.lt_succ_self n) s1 p1

section transpose
variable {T : Type}

theorem transpose_ok (m : List (List T)) (d : T) {cols : Nat} (hne : m ≠ [])
    (hc : (m.getD 0 []).length = cols) (hpos : 0 < cols)
    (hrows : ∀ r < m.length, cols ≤ (m.getD r []).length) :
    transpose m = .ok ((List.range cols).map fun c =>
      (List.range m.length).map fun r => (m.getD r []).getD c d) := by
  have hm : 0 < m.length := List.length_pos_iff.2 hne
  unfold transpose
  rw [assert_of (by cases m <;> simp_all), ok_bind, rd_ok hm [], ok_bind]
  simp only [hc]
  rw [rd_ok (by omega) d, ok_bind]
  generalize (m.getD 0 []).getD 0 d = x
  obtain ⟨w, e, hl, hw⟩ := forUp_inv (n := cols)
    (s := List.replicate cols (List.replicate m.length x))
    (body := fun c result =>
      forUp m.length (fun r result => do
        let row ← rd m r
        let y ← rd row c
        let column ← rd result c
        let column ← wr column r y
        wr result c column) result)
    (P := fun c (s : List (List T)) => s.length = cols ∧ ∀ c' < cols,
      (s.getD c' []).length = m.length ∧
      (c' < c → s.getD c' [] = (List.range m.length).map fun r => (m.getD r []).getD c' d))
    ⟨by simp, fun c' hc' => ⟨by rw [getD_replicate', if_pos hc']; simp, fun h => absurd h (by omega)⟩⟩
    (by
      rintro c hcc s ⟨hs1, hs2⟩
      obtain ⟨w, e, w1, w2, w3, w4⟩ := forUp_inv (n := m.length) (s := s)
        (body := fun r result => do
          let row ← rd m r
          let y ← rd row c
          let column ← rd result c
          let column ← wr column r y
          wr result c column)
        (P := fun r (u : List (List T)) => u.length = cols ∧ (∀ c' ≠ c, u.getD c' [] = s.getD c' []) ∧
          (u.getD c []).length = m.length ∧
          ∀ r' < r, (u.getD c []).getD r' d = (m.getD r' []).getD c d)
        ⟨hs1, fun _ _ => rfl, (hs2 c hcc).1, fun r' h => absurd h (by omega)⟩
        (by
          rintro r hr u ⟨u1, u2, u3, u4⟩
          have := hrows r hr
          rw [rd_ok hr [], ok_bind, rd_ok (by omega) d, ok_bind, rd_ok (by omega) [], ok_bind,
            wr_ok (by omega), ok_bind, wr_ok (by omega)]
          refine ⟨_, rfl, by simpa using u1, ?_, ?_, ?_⟩
          · intro c' hc'
            rw [getD_set, if_neg (fun h => hc' h.1.symm), u2 c' hc']
          · rw [getD_set, if_pos ⟨rfl, by omega⟩]; simpa using u3
          · intro r' hr'
            rw [getD_set, if_pos ⟨rfl, by omega⟩, getD_set]
            by_cases h : r = r'
            · subst h; rw [if_pos ⟨rfl, by omega⟩]
            · rw [if_neg (by tauto)]; exact u4 r' (by omega))
      refine ⟨w, e, w1, ?_⟩
      intro c' hc'
      by_cases h : c' = c
      · subst h
        refine ⟨w3, fun _ => ?_⟩
        apply list_ext_getD d (by simpa using w3)
        intro r hr
        rw [w3] at hr
        rw [w4 r hr, getD_map_range, if_pos hr]
      · rw [w2 c' h]
        exact ⟨(hs2 c' hc').1, fun h' => (hs2 c' hc').2 (by omega)⟩)
  rw [e]
  congr 1
  apply list_ext_getD [] (by simpa using hl)
  intro c hcc
  rw [hl] at hcc
  rw [(hw c hcc).2 hcc, getD_map_range, if_pos hcc]

theorem transpose_nil : transpose ([] : List (List T)) = panic' := rfl

theorem transpose_row0_nil (m : List (List T)) (h : (m.getD 0 []) = []) : transpose m = panic' := by
  cases m with
  | nil => rfl
  | cons r m =>
    simp at h
    subst h
    rfl

theorem transpose_short (m : List (List T)) {r : Nat} (hr : r < m.length)
    (h : (m.getD r []).length < (m.getD 0 []).length) : transpose m = panic' := by
  have hm : 0 < m.length := by omega
  unfold transpose
  rw [assert_of (by cases m <;> simp_all), ok_bind, rd_ok hm [], ok_bind]
  simp only
  have hpos : 0 < (m.getD 0 []).length := by omega
  rw [rd_ok' hpos, ok_bind]
  generalize (m.getD 0 [])[0] = x
  set cols := (m.getD 0 []).length with hcols
  rcases forUp_panic_inv (n := cols)
    (s := List.replicate cols (List.replicate m.length x))
    (body := fun c result =>
      forUp m.length (fun r result => do
        let row ← rd m r
        let y ← rd row c
        let column ← rd result c
        let column ← wr column r y
        wr result c column) result)
    (P := fun c (s : List (List T)) => c ≤ (m.getD r []).length ∧ s.length = cols ∧
      ∀ c' < cols, (s.getD c' []).length = m.length)
    ⟨by omega, by simp, fun c' hc' => by rw [getD_replicate', if_pos hc']; simp⟩
    (by
      rintro c hcc s ⟨hs0, hs1, hs2⟩
      rcases forUp_panic_inv (n := m.length) (s := s)
        (body := fun r result => do
          let row ← rd m r
          let y ← rd row c
          let column ← rd result c
          let column ← wr column r y
          wr result c column)
        (P := fun r' (u : List (List T)) => (r < r' → c + 1 ≤ (m.getD r []).length) ∧ u.length = cols ∧
          ∀ c' < cols, (u.getD c' []).length = m.length)
        ⟨by omega, hs1, hs2⟩
        (by
          rintro r' hr' u ⟨u0, u1, u2⟩
          rw [rd_ok hr' [], ok_bind]
          by_cases hsh : c < (m.getD r' []).length
          · right
            have := u2 c hcc
            rw [rd_ok' hsh, ok_bind, rd_ok (by omega) [], ok_bind, wr_ok (by omega), ok_bind, wr_ok (by omega)]
            refine ⟨_, rfl, ?_, by simpa using u1, ?_⟩
            · intro h3
              by_cases h4 : r < r'
              · exact u0 h4
              · have : r = r' := by omega
                subst this; omega
            · intro c' hc'
              rw [getD_set]
              split
              · simpa using u2 c hcc
              · exact u2 c' hc'
          · left
            rw [rd_panic (by omega)]; rfl) with h1 | ⟨w, e, w0, w1, w2⟩
      · exact .inl h1
      · exact .inr ⟨w, e, w0 hr, w1, w2⟩) with h1 | ⟨w, e, w0, _⟩
  · exact h1
  · omega

end transpose

section pack
variable {F : Type} [Field F] [DecidableEq F] {T : Type} [AddCommGroup T] [Module F T] [DecidableEq T]

theorem mapM_exists {α β : Type _} [Inhabited β] {f : α → Res β} {R : α → β → Prop} {xs : List α}
    (h : ∀ x ∈ xs, ∃ y, f x = .ok y ∧ R x y) :
    ∃ ys, xs.mapM f = .ok ys ∧ ys.length = xs.length ∧
      ∀ i (hi : i < xs.length), R xs[i] (ys.getD i default) := by
  induction xs with
  | nil => exact ⟨[], rfl, rfl, fun i hi => absurd hi (by simp)⟩
  | cons x xs ih =>
    obtain ⟨y, e, r⟩ := h x (by simp)
    obtain ⟨ys, es, hl, hr⟩ := ih (fun z hz => h z (by simp [hz]))
    refine ⟨y :: ys, by rw [List.mapM_cons, e, es]; rfl, by simp [hl], ?_⟩
    intro i hi
    cases i with
    | zero => simpa using r
    | succ i => simpa using hr i (by simpa using hi)

theorem chunk_length {v : List T} {l c N : Nat} (hv : v.length = N * l) (hc : c < N) :
    (chunk v l c).length = l := by
  unfold chunk
  rw [List.length_take, List.length_drop, hv]
  have : (c + 1) * l ≤ N * l := Nat.mul_le_mul_right _ hc
  rw [Nat.add_mul] at this
  omega

theorem chunk_getD {α : Type _} (v : List α) (l c i : Nat) (d : α) (hi : i < l) :
    (((v.drop (c * l)).take l)).getD i d = v.getD (c * l + i) d := by
  rw [getD_take, if_pos hi, getD_drop]

theorem numChunks_eq {v : List T} {l N : Nat} (hl : 0 < l) (hv : v.length = N * l) :
    numChunks v l = N := by
  unfold numChunks
  rw [hv]
  have : N * l + l - 1 = (l - 1) + l * N := by rw [Nat.mul_comm l]; omega
  rw [this, Nat.add_mul_div_left _ _ hl, Nat.div_eq_of_lt (by omega), Nat.zero_add]

/-- `pack_vec` on a vector of `N` chunks. -/
theorem PSS.packVec_shares {pp : PSS F} (hg : pp.Good) (dbg : Bool) {v : List T} {N : Nat}
    (hv : v.length = N * pp.l) (rng : Nat → Nat → T) :
    ∃ rows, pp.packVec dbg v rng = .ok rows ∧ rows.length = N ∧
      ∀ c < N, pp.Shares (2 * pp.l) (rows.getD c []) (chunk v pp.l c) := by
  have hl := hg.lpos
  unfold PSS.packVec
  rw [debugAssert_of (by simp [hv]), ok_bind, assert_of (by simp; omega), ok_bind, numChunks_eq hl hv]
  obtain ⟨rows, e, hlen, h⟩ := mapM_exists (xs := List.range N)
    (f := fun c => pp.pack dbg (chunk v pp.l c) (rng c))
    (R := fun c shares => pp.Shares (2 * pp.l) shares (chunk v pp.l c))
    (fun c hc => PSS.pack_shares hg dbg (chunk_length hv (List.mem_range.1 hc)) (rng c))
  refine ⟨rows, e, by simpa using hlen, fun c hc => ?_⟩
  have := h c (by simpa using hc)
  rw [List.getElem_range] at this
  exact this

/-- The elements `v[c], v[c+N], …` (`N = v.len()/l`). -/
def strided {α : Type _} (d : α) (v : List α) (l N c : Nat) : List α :=
  (List.range l).map fun j => v.getD (c + j * N) d

theorem PSS.packStrided_shares {pp : PSS F} (hg : pp.Good) (dbg : Bool) {v : List T} {N : Nat}
    (hv : v.length = N * pp.l) (rng : Nat → Nat → T) :
    ∃ rows, pp.packStrided dbg v rng = .ok rows ∧ rows.length = N ∧
      ∀ c < N, pp.Shares (2 * pp.l) (rows.getD c []) (strided 0 v pp.l N c) := by
  have hl := hg.lpos
  have hd : v.length / pp.l = N := by rw [hv, Nat.mul_div_cancel _ hl]
  unfold PSS.packStrided
  rw [assert_of (by simp; omega), ok_bind, hd]
  obtain ⟨rows, e, hlen, h⟩ := mapM_exists (xs := List.range N)
    (f := fun c => pp.pack dbg (skipStep v c N) (rng c))
    (R := fun c shares => pp.Shares (2 * pp.l) shares (strided 0 v pp.l N c))
    (fun c hc => by
      have hc := List.mem_range.1 hc
      have : skipStep v c N = strided 0 v pp.l N c :=
        skipStep_exact v c N pp.l 0 (by omega) hc (by rw [hv, Nat.mul_comm])
      rw [this]
      exact PSS.pack_shares hg dbg (by simp [strided]) (rng c))
  refine ⟨rows, e, by simpa using hlen, fun c hc => ?_⟩
  have := h c (by simpa using hc)
  rw [List.getElem_range] at this
  exact this

/-- `transpose` of `N` rows of shares: party `p`'s vector holds its share of every row. -/
theorem transpose_shares {rows : List (List T)} {N n : Nat} (hlen : rows.length = N) (hN : 0 < N) (hn : 0 < n)
    (h : ∀ c < N, (rows.getD c []).length = n) :
    transpose rows = .ok ((List.range n).map fun p => (List.range N).map fun c => (rows.getD c []).getD p 0) := by
  rw [transpose_ok rows 0 (cols := n) (by intro h0; rw [h0] at hlen; simp at hlen; omega) (h 0 hN) hn
    (fun r hr => by rw [h r (by omega)]), hlen]

end pack

end ZkSaas
