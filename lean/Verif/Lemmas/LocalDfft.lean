import Verif.Model.Checks
import Verif.Lemmas.Protocols

/-! The single-machine transform of `dist-primitives/examples/local_dfft_test.rs`. -/

set_option linter.unusedSectionVars false

namespace ZkSaas

open Finset Spec

theorem forUp_sim {σ τ ι : Type} (I : σ → Prop) (π : ι → σ → τ) {n : Nat} {body : Nat → σ → Res σ} {body' : Nat → τ → Res τ}
    {s : σ} (h0 : I s)
    (hs : ∀ k < n, ∀ s, I s → ∃ s', body k s = .ok s' ∧ I s' ∧ ∀ i, body' k (π i s) = .ok (π i s')) :
    ∃ s', forUp n body s = .ok s' ∧ I s' ∧ ∀ i, forUp n body' (π i s) = .ok (π i s') := by
  induction n with
  | zero => exact ⟨s, rfl, h0, fun _ => rfl⟩
  | succ n ih =>
    obtain ⟨s1, e1, h1, f1⟩ := ih fun k hk => hs k (by omega)
    obtain ⟨s2, e2, h2, f2⟩ := hs n (by omega) s1 h1
    refine ⟨s2, by rw [forUp_succ, e1, ok_bind, e2], h2, fun i => ?_⟩
    rw [forUp_succ, f1 i, ok_bind, f2 i]

theorem forDown_sim {σ τ ι : Type} (I : σ → Prop) (π : ι → σ → τ) {n : Nat} {body : Nat → σ → Res σ} {body' : Nat → τ → Res τ}
    {s : σ} (h0 : I s)
    (hs : ∀ k < n, ∀ s, I s → ∃ s', body k s = .ok s' ∧ I s' ∧ ∀ i, body' k (π i s) = .ok (π i s')) :
    ∃ s', forDown n body s = .ok s' ∧ I s' ∧ ∀ i, forDown n body' (π i s) = .ok (π i s') := by
  induction n generalizing s with
  | zero => exact ⟨s, rfl, h0, fun _ => rfl⟩
  | succ n ih =>
    obtain ⟨s1, e1, h1, f1⟩ := hs n (by omega) s h0
    obtain ⟨s2, e2, h2, f2⟩ := ih h1 fun k hk => hs k (by omega)
    refine ⟨s2, by rw [forDown_succ, e1, ok_bind, e2], h2, fun i => ?_⟩
    rw [forDown_succ, f1 i, ok_bind, f2 i]

variable {F : Type} [Field F] [DecidableEq F]

/-- `N` rows of `l` values. -/
def RowsOf (N l : Nat) (s : List (List F)) : Prop := s.length = N ∧ ∀ c < N, (s.getD c []).length = l

/-- Column `ii`. -/
def colOf {l : Nat} (ii : Fin l) (s : List (List F)) : List F := s.map fun r => r.getD ii 0

theorem colOf_getD {N l : Nat} {s : List (List F)} (hs : RowsOf N l s) (ii : Fin l) {c : Nat} (hc : c < N) :
    (colOf ii s).getD c 0 = (s.getD c []).getD ii 0 :=
  getD_map_of_lt _ _ _ [] 0 (by rw [hs.1]; exact hc)

theorem colOf_length {N l : Nat} {s : List (List F)} (hs : RowsOf N l s) (ii : Fin l) : (colOf ii s).length = N := by
  rw [colOf, List.length_map, hs.1]

/-- One pair of rows. -/
theorem local_pair {N l C D C' D' : Nat} (hC' : C' = C) (hD' : D' = D) (hC : C < N) (hD : D < N) (hne : C ≠ D) (f : F)
    (s : List (List F)) (hs : RowsOf N l s) :
    ∃ s', forUp l (fun ii (s1 : List (List F)) => do
        let row ← rd s1 C
        let x ← rd row ii
        let row ← rd s1 D
        let y ← rd row ii
        let y := y * f
        let row ← rd s1 C'
        let row ← wr row ii (x + y)
        let s1 ← wr s1 C' row
        let row ← rd s1 D'
        let row ← wr row ii (x - y)
        wr s1 D' row) s = .ok s' ∧ RowsOf N l s' ∧ ∀ ii : Fin l, (do
          let x ← rd (colOf ii s) C
          let y ← rd (colOf ii s) D
          let y := y * f
          let px ← wr (colOf ii s) C' (x + y)
          wr px D' (x - y)) = .ok (colOf ii s') := by
  subst hC' hD'
  obtain ⟨s', e, h1, h2⟩ := forUp_inv (n := l) (s := s)
    (body := fun ii (s1 : List (List F)) => do
        let row ← rd s1 C'
        let x ← rd row ii
        let row ← rd s1 D'
        let y ← rd row ii
        let y := y * f
        let row ← rd s1 C'
        let row ← wr row ii (x + y)
        let s1 ← wr s1 C' row
        let row ← rd s1 D'
        let row ← wr row ii (x - y)
        wr s1 D' row)
    (P := fun t (u : List (List F)) => RowsOf N l u ∧ ∀ c < N, ∀ ii < l, (u.getD c []).getD ii 0 =
      if ii < t ∧ c = D' then (s.getD C' []).getD ii 0 - (s.getD D' []).getD ii 0 * f
      else if ii < t ∧ c = C' then (s.getD C' []).getD ii 0 + (s.getD D' []).getD ii 0 * f
      else (s.getD c []).getD ii 0)
    ⟨hs, fun c _ ii _ => by rw [if_neg (by omega), if_neg (by omega)]⟩
    (by
      rintro t ht u ⟨⟨u1, u2⟩, u3⟩
      have lC := u2 C' hC
      have lD := u2 D' hD
      have vC := u3 C' hC t ht
      have vD := u3 D' hD t ht
      rw [if_neg (by omega), if_neg (by omega)] at vC vD
      have gD : ∀ r, (u.set C' r).getD D' [] = u.getD D' [] := fun r => by
        rw [getD_set, if_neg (fun h => hne h.1)]
      rw [rd_ok (by omega) [], ok_bind, rd_ok (by omega) 0, ok_bind, rd_ok (by omega) [], ok_bind, rd_ok (by omega) 0, ok_bind]
      dsimp only
      rw [ok_bind, wr_ok (by omega), ok_bind, wr_ok (by omega), ok_bind,
        rd_ok (by rw [List.length_set]; omega) [], ok_bind, gD, wr_ok (by omega), ok_bind, wr_ok (by rw [List.length_set]; omega)]
      refine ⟨_, rfl, ⟨by rw [List.length_set, List.length_set, u1], fun c hc => ?_⟩, fun c hc ii hii => ?_⟩
      · rw [getD_set, getD_set, List.length_set]
        split
        · rw [List.length_set, lD]
        · split
          · rw [List.length_set, lC]
          · exact u2 c hc
      · have old := u3 c hc ii hii
        rw [getD_set, getD_set, List.length_set, vC, vD]
        by_cases cD : D' = c
        · subst cD
          rw [if_pos ⟨rfl, by omega⟩, getD_set]
          by_cases ct : t = ii
          · subst ct
            rw [if_pos ⟨rfl, by omega⟩, if_pos ⟨by omega, rfl⟩]
          · rw [if_neg (fun h => ct h.1), old]
            by_cases hlt : ii < t
            · rw [if_pos ⟨hlt, rfl⟩, if_pos ⟨by omega, rfl⟩]
            · rw [if_neg (by omega), if_neg (by omega), if_neg (by omega), if_neg (by omega)]
        · rw [if_neg (fun h => cD h.1)]
          by_cases cC : C' = c
          · subst cC
            rw [if_pos ⟨rfl, by omega⟩, getD_set]
            by_cases ct : t = ii
            · subst ct
              rw [if_pos ⟨rfl, by omega⟩, if_neg (by omega), if_pos ⟨by omega, rfl⟩]
            · rw [if_neg (fun h => ct h.1), old]
              by_cases hlt : ii < t
              · rw [if_neg (by omega), if_pos ⟨hlt, rfl⟩, if_neg (by omega), if_pos ⟨by omega, rfl⟩]
              · rw [if_neg (by omega), if_neg (by omega), if_neg (by omega), if_neg (by omega)]
          · rw [if_neg (fun h => cC h.1), old, if_neg (by omega), if_neg (by omega), if_neg (by omega), if_neg (by omega)])
  refine ⟨s', e, h1, fun ii => ?_⟩
  have lc := colOf_length hs ii
  rw [rd_ok (by omega) 0, ok_bind, rd_ok (by omega) 0, ok_bind]
  dsimp only
  rw [wr_ok (by omega), ok_bind, wr_ok (by rw [List.length_set]; omega)]
  congr 1
  apply list_ext_getD 0 (by rw [List.length_set, List.length_set, lc, colOf_length h1 ii])
  intro c hc
  rw [List.length_set, List.length_set, lc] at hc
  rw [colOf_getD h1 ii hc, h2 c hc ii ii.2, getD_set, getD_set, List.length_set, lc, colOf_getD hs ii hC, colOf_getD hs ii hD,
    colOf_getD hs ii hc]
  by_cases cD : D' = c
  · rw [if_pos ⟨cD, by omega⟩, if_pos ⟨ii.2, cD.symm⟩]
  · rw [if_neg (fun h => cD h.1)]
    by_cases cC : C' = c
    · rw [if_pos ⟨cC, by omega⟩, if_neg (fun h => cD h.2.symm), if_pos ⟨ii.2, cC.symm⟩]
    · rw [if_neg (fun h => cC h.1), if_neg (fun h => cD h.2.symm), if_neg (fun h => cC h.2.symm)]

/-- `fft1` on rows is `fft1_in_place` on every column. -/
theorem localFft1_columns {pp : PSS F} {a b : Nat} (hlb : pp.l = 2 ^ b) {dom : Domain F} (hsize : dom.size = 2 ^ (a + b))
    (hoff : dom.offset = 1) (s : List (List F)) (hs : RowsOf (2 ^ a) (2 ^ b) s) :
    ∃ s', localFft1 (2 ^ b) dom s = .ok s' ∧ RowsOf (2 ^ a) (2 ^ b) s' ∧
      ∀ ii : Fin (2 ^ b), pp.fft1InPlace (colOf ii s) dom.groupGen = .ok (colOf ii s') := by
  unfold localFft1 PSS.fft1InPlace
  have hd : 2 ^ a * 2 ^ b = 2 ^ (a + b) := by rw [pow_add]
  simp only [colOf_length hs, hlb, hd, hsize, log2_two_pow, Domain.element, hoff, one_mul]
  rw [show a + b - b = a by omega]
  refine forDown_sim (RowsOf (2 ^ a) (2 ^ b)) colOf hs fun i' hi' s hs => ?_
  have hps : 2 ^ (a + b) / 2 ^ (b + 1 + i') = 2 ^ (a - (i' + 1)) := by
    rw [Nat.pow_div (by omega) (by norm_num)]; congr 1; omega
  have hpj : 2 ^ (b + 1 + i' - 1) / 2 ^ b = 2 ^ i' := by
    rw [Nat.pow_div (by omega) (by norm_num)]; congr 1; omega
  rw [hps, hpj]
  obtain ⟨⟨s', f⟩, e, h1, h2⟩ := forUp_sim (n := 2 ^ (a - (i' + 1)))
    (fun st : List (List F) × F => RowsOf (2 ^ a) (2 ^ b) st.1)
    (fun (ii : Fin (2 ^ b)) (st : List (List F) × F) => (colOf ii st.1, st.2)) (s := (s, dom.groupGen ^ 2 ^ (b + 1 + i' - 1)))
    (body := fun k (st : List (List F) × F) => do
      let s1 ← forUp (2 ^ i') (fun j s1 =>
        forUp (2 ^ b) (fun ii s1 => do
          let row ← rd s1 (2 * j * 2 ^ (a - (i' + 1)) + k)
          let x ← rd row ii
          let row ← rd s1 ((2 * j + 1) * 2 ^ (a - (i' + 1)) + k)
          let y ← rd row ii
          let y := y * st.2
          let row ← rd s1 (j * (2 * 2 ^ (a - (i' + 1))) + k)
          let row ← wr row ii (x + y)
          let s1 ← wr s1 (j * (2 * 2 ^ (a - (i' + 1))) + k) row
          let row ← rd s1 (j * (2 * 2 ^ (a - (i' + 1))) + k + 2 ^ (a - (i' + 1)))
          let row ← wr row ii (x - y)
          wr s1 (j * (2 * 2 ^ (a - (i' + 1))) + k + 2 ^ (a - (i' + 1))) row) s1) st.1
      pure (s1, st.2 * dom.groupGen ^ 2 ^ (b + 1 + i' - 1)))
    (body' := fun k (st : List F × F) => do
      let px ← forUp (2 ^ i') (fun j px => do
        let x ← rd px (2 * j * 2 ^ (a - (i' + 1)) + k)
        let y ← rd px ((2 * j + 1) * 2 ^ (a - (i' + 1)) + k)
        let y := y * st.2
        let px ← wr px (j * (2 * 2 ^ (a - (i' + 1))) + k) (x + y)
        wr px (j * (2 * 2 ^ (a - (i' + 1))) + k + 2 ^ (a - (i' + 1))) (x - y)) st.1
      pure (px, st.2 * dom.groupGen ^ 2 ^ (b + 1 + i' - 1))) hs
    (by
      rintro k hk ⟨s, f⟩ hs
      dsimp only at hs ⊢
      obtain ⟨s', e, h1, h2⟩ := forUp_sim (n := 2 ^ i') (RowsOf (2 ^ a) (2 ^ b)) (colOf (l := 2 ^ b))
        (body := fun j s1 => forUp (2 ^ b) (fun ii s1 => do
          let row ← rd s1 (2 * j * 2 ^ (a - (i' + 1)) + k)
          let x ← rd row ii
          let row ← rd s1 ((2 * j + 1) * 2 ^ (a - (i' + 1)) + k)
          let y ← rd row ii
          let y := y * f
          let row ← rd s1 (j * (2 * 2 ^ (a - (i' + 1))) + k)
          let row ← wr row ii (x + y)
          let s1 ← wr s1 (j * (2 * 2 ^ (a - (i' + 1))) + k) row
          let row ← rd s1 (j * (2 * 2 ^ (a - (i' + 1))) + k + 2 ^ (a - (i' + 1)))
          let row ← wr row ii (x - y)
          wr s1 (j * (2 * 2 ^ (a - (i' + 1))) + k + 2 ^ (a - (i' + 1))) row) s1)
        (body' := fun j px => do
          let x ← rd px (2 * j * 2 ^ (a - (i' + 1)) + k)
          let y ← rd px ((2 * j + 1) * 2 ^ (a - (i' + 1)) + k)
          let y := y * f
          let px ← wr px (j * (2 * 2 ^ (a - (i' + 1))) + k) (x + y)
          wr px (j * (2 * 2 ^ (a - (i' + 1))) + k + 2 ^ (a - (i' + 1))) (x - y)) hs fun j hj s hs =>
        local_pair (N := 2 ^ a) (l := 2 ^ b) (C := 2 * j * 2 ^ (a - (i' + 1)) + k) (D := (2 * j + 1) * 2 ^ (a - (i' + 1)) + k)
          (C' := j * (2 * 2 ^ (a - (i' + 1))) + k) (D' := j * (2 * 2 ^ (a - (i' + 1))) + k + 2 ^ (a - (i' + 1)))
          (by ring) (by ring)
          (block_lt (by rw [show a - (a - (i' + 1)) = i' + 1 by omega, pow_succ]; omega) hk (by omega))
          (block_lt (by rw [show a - (a - (i' + 1)) = i' + 1 by omega, pow_succ]; omega) hk (by omega))
          (by rw [Nat.add_mul]; omega) f s hs
      refine ⟨(s', f * dom.groupGen ^ 2 ^ (b + 1 + i' - 1)), ?_, h1, fun ii => ?_⟩
      · rw [e]; rfl
      · rw [h2 ii]; rfl)
  refine ⟨s', ?_, h1, fun ii => ?_⟩
  · rw [e]; rfl
  · rw [h2 ii]; rfl

/-- Appending the rows one after the other. -/
theorem append_rows {N : Nat} (s : List (List F)) (hs : s.length = N) :
    forUp N (fun i (sx : List F) => do
      let row ← rd s i
      pure (sx ++ row)) [] = .ok s.flatten := by
  obtain ⟨w, e, h⟩ := forUp_inv (n := N) (s := ([] : List F)) (body := fun i (sx : List F) => do
      let row ← rd s i
      pure (sx ++ row)) (P := fun i w => w = (s.take i).flatten) (by simp)
    (by
      rintro i hi w rfl
      rw [rd_ok (by omega) [], ok_bind]
      refine ⟨_, rfl, ?_⟩
      rw [List.take_succ, List.getElem?_eq_getElem (by omega), List.getD_eq_getElem _ _ (by omega), List.flatten_append]
      simp)
  rw [e, h, List.take_of_length_le hs.le]

/-- The transform on one machine. -/
theorem PSS.localDfft_eq {pp : PSS F} {a b : Nat} (hlb : pp.l = 2 ^ b) {dom : Domain F} (hsize : dom.size = 2 ^ (a + b))
    (hoff : dom.offset = 1) (hprim : IsPrimitiveRoot dom.groupGen (2 ^ (a + b))) (x : List F) (hx : x.length = 2 ^ (a + b)) :
    pp.localDfft dom x = .ok ((List.range (2 ^ (a + b))).map fun k =>
      ∑ u ∈ range (2 ^ (a + b)), (dom.groupGen ^ k) ^ u * x.getD u 0) := by
  have hm : dom.size / pp.l = 2 ^ a := by rw [hsize, hlb, pow_add, Nat.mul_div_cancel _ (by positivity)]
  unfold PSS.localDfft
  rw [hm, hlb, fftInPlaceRearrange_eq (a + b) x 0 hx, ok_bind]
  set y := (List.range (2 ^ (a + b))).map fun i => x.getD (bitRev (a + b) i) 0 with hy
  have hskip : ∀ c < 2 ^ a, skipStep y c (2 ^ a) = (List.range (2 ^ b)).map fun k => y.getD (c + k * 2 ^ a) 0 := fun c hc =>
    skipStep_exact y c (2 ^ a) (2 ^ b) 0 (by positivity) hc (by rw [hy, List.length_map, List.length_range, pow_add, Nat.mul_comm])
  have hrow : ∀ c < 2 ^ a, ((List.range (2 ^ a)).map fun i => skipStep y i (2 ^ a)).getD c [] =
      (List.range (2 ^ b)).map fun k => y.getD (c + k * 2 ^ a) 0 := fun c hc => by
    rw [getD_map_range, if_pos hc, hskip c hc]
  have hs : RowsOf (2 ^ a) (2 ^ b) ((List.range (2 ^ a)).map fun i => skipStep y i (2 ^ a)) :=
    ⟨by simp, fun c hc => by rw [hrow c hc]; simp⟩
  obtain ⟨s', e, h1, h2⟩ := localFft1_columns hlb hsize hoff _ hs
  rw [e, ok_bind, append_rows s' h1.1, ok_bind]
  have hval : ∀ c < 2 ^ a, ∀ j < 2 ^ b, (s'.getD c []).getD j 0 =
      bp (fun i => x.getD (bitRev (a + b) i) 0) a j (dom.groupGen ^ (2 ^ b * (c + 1))) := by
    intro c hc j hj
    have h3 := h2 ⟨j, hj⟩
    rw [PSS.fft1InPlace_eq hlb hprim _ (colOf_length hs _)] at h3
    have h4 := congrArg (fun r => r.getD c 0) (Except.ok.inj h3)
    rw [getD_map_range, if_pos hc, colOf_getD h1 _ hc] at h4
    rw [← h4, bp_eq, bp_eq]
    apply sum_congr rfl
    intro u _
    have hu := bitRev_lt a u
    rw [Nat.zero_mul, Nat.zero_add, colOf_getD hs _ hu, hrow _ hu, getD_map_range, if_pos hj, hy, getD_map_range,
      if_pos (stride_lt hu hj), Nat.add_comm (bitRev a u)]
  have hflat : s'.flatten = (List.range (2 ^ a * 2 ^ b)).map fun i => (s'.getD (i / 2 ^ b) []).getD (i % 2 ^ b) 0 := by
    rw [← flatten_chunks]
    congr 1
    apply list_ext_getD [] (by rw [h1.1, List.length_map, List.length_range])
    intro c hc
    rw [h1.1] at hc
    rw [getD_map_range, if_pos hc]
    apply list_ext_getD 0 (by rw [h1.2 c hc]; simp [chunks])
    intro j hj
    rw [h1.2 c hc] at hj
    rw [chunks, getD_map_range, if_pos hj, Nat.add_comm (c * 2 ^ b) j, Nat.add_mul_div_right _ _ (by positivity), Nat.div_eq_of_lt hj,
      Nat.zero_add, Nat.add_mul_mod_self_right, Nat.mod_eq_of_lt hj]
  have hlen : s'.flatten.length = 2 ^ (a + b) := by rw [hflat, List.length_map, List.length_range, pow_add]
  unfold localFft2
  simp only [log2_two_pow, hsize, Domain.element, hoff, one_mul]
  rw [fft2_loop hprim (bp fun i => x.getD (bitRev (a + b) i) 0) (fun _ _ _ _ => rfl) s'.flatten s'.flatten hlen hlen]
  · congr 1
    apply List.map_congr_left
    intro k _
    rw [bp_eq]
    apply sum_congr rfl
    intro u hu
    rw [Nat.zero_mul, Nat.zero_add, bitRev_bitRev _ u (mem_range.1 hu)]
  · intro k hk j hj
    have hlt : k * 2 ^ b + j < 2 ^ a * 2 ^ b := by
      have : (k + 1) * 2 ^ b ≤ 2 ^ a * 2 ^ b := Nat.mul_le_mul_right _ hk
      rw [Nat.add_mul] at this
      omega
    rw [hflat, getD_map_range, if_pos hlt, Nat.add_comm (k * 2 ^ b) j, Nat.add_mul_div_right _ _ (by positivity), Nat.div_eq_of_lt hj,
      Nat.zero_add, Nat.add_mul_mod_self_right, Nat.mod_eq_of_lt hj, hval k hk j hj]

end ZkSaas
