import Verif.Lemmas.Session

/-! The debug assertion of `unpack2` is a checksum over all shares. A king of a debug build therefore never uses a share that
one single party has changed. -/

set_option linter.unusedSectionVars false

namespace ZkSaas

open Finset Spec

variable {F : Type} [Field F] [DecidableEq F] {n : Nat}

theorem forUp_step_ok {σ : Type} {m : Nat} {body : Nat → σ → Res σ} {s s' : σ} (h : forUp m body s = .ok s') :
    ∀ i < m, ∃ t t', body i t = .ok t' := by
  induction m generalizing s' with
  | zero => intro i hi; omega
  | succ m ih =>
    rw [forUp_succ] at h
    cases e : forUp m body s with
    | error err => rw [e] at h; cases h
    | ok t =>
      rw [e] at h
      intro i hi
      rcases Nat.lt_succ_iff_lt_or_eq.1 hi with hi | rfl
      · exact ih e i hi
      · exact ⟨t, s', h⟩

theorem bind_eq_ok {α β : Type} {r : Res α} {f : α → Res β} {b : β} (h : (r >>= f) = .ok b) : ∃ a, r = .ok a ∧ f a = .ok b := by
  cases r with
  | error e => cases h
  | ok a => exact ⟨a, rfl, h⟩

section checksum
variable {T : Type} [AddCommGroup T] [Module F T] [DecidableEq T]

/-- The checksum of `4l` values. -/
def PSS.checksum (pp : PSS F) (z : Nat → T) : T := ∑ i ∈ range (4 * pp.l), pp.share.groupGen ^ i • z i

theorem PSS.ifft_top {pp : PSS F} (hg : pp.Good) (z : Nat → T) :
    (pp.share.ifft ((List.range (4 * pp.l)).map z)).getD (4 * pp.l - 1) 0 = pp.share.sizeInv • pp.checksum z := by
  have hl := hg.lpos
  have hω : pp.share.groupGen ^ (4 * pp.l) = 1 := by
    have := hg.share_wf.prim.pow_eq_one
    rwa [hg.share_size] at this
  have hω0 : pp.share.groupGen ≠ 0 := hg.share_wf.prim.ne_zero hg.share_wf.pos.ne'
  rw [Domain.ifft, getD_map_range, if_pos (by rw [hg.share_size]; omega), evalAt_resize, hg.share_size]
  unfold PSS.checksum
  rw [hg.share_wf.ginv, hg.share_wf.offinv, hg.share_off, inv_one, one_pow, one_mul]
  congr 1
  apply sum_congr rfl
  intro i hi
  rw [getD_map_range, if_pos (mem_range.1 hi)]
  have h1 : (pp.share.groupGen⁻¹) ^ (4 * pp.l - 1) = pp.share.groupGen := by
    have : pp.share.groupGen⁻¹ ^ (4 * pp.l - 1) * pp.share.groupGen⁻¹ = 1 := by
      rw [← pow_succ, show 4 * pp.l - 1 + 1 = 4 * pp.l by omega, inv_pow, hω, inv_one]
    calc pp.share.groupGen⁻¹ ^ (4 * pp.l - 1) = pp.share.groupGen⁻¹ ^ (4 * pp.l - 1) * pp.share.groupGen⁻¹ * pp.share.groupGen := by
          rw [mul_assoc, inv_mul_cancel₀ hω0, mul_one]
      _ = _ := by rw [this, one_mul]
  rw [h1]

theorem PSS.sizeInv_ne {pp : PSS F} (hg : pp.Good) : pp.share.sizeInv ≠ 0 := by
  rw [hg.share_wf.sinv]
  exact inv_ne_zero hg.share_wf.szne

theorem PSS.ifft_drop {pp : PSS F} (hg : pp.Good) (z : Nat → T) :
    (pp.share.ifft ((List.range (4 * pp.l)).map z)).drop (2 * (pp.l + pp.t) - 1) = [pp.share.sizeInv • pp.checksum z] := by
  have hl := hg.lpos
  have hlen : (pp.share.ifft ((List.range (4 * pp.l)).map z)).length = 4 * pp.l := by
    simp [Domain.ifft, hg.share_size]
  rw [hg.t_eq, show 2 * (pp.l + pp.l) - 1 = 4 * pp.l - 1 by omega, List.drop_eq_getElem_cons (by omega),
    ← List.getD_eq_getElem _ 0, PSS.ifft_top hg, List.drop_eq_nil_of_le (by omega)]

/-- The debug assertion of `unpack2` checks the checksum. -/
theorem PSS.unpack2_checks {pp : PSS F} (hg : pp.Good) {z : Nat → T} {r : List T}
    (h : pp.unpack2 true ((List.range (4 * pp.l)).map z) = .ok r) : pp.checksum z = 0 := by
  unfold PSS.unpack2 at h
  simp only at h
  rw [PSS.ifft_drop hg] at h
  by_contra hne
  have hb : (decide (pp.share.sizeInv • pp.checksum z = 0)) = false := by
    rw [decide_eq_false_iff_not, smul_eq_zero, not_or]
    exact ⟨PSS.sizeInv_ne hg, hne⟩
  simp only [List.all_cons, List.all_nil, hb] at h
  cases h

/-- It panics or succeeds. -/
theorem PSS.unpack2_panics {pp : PSS F} (hg : pp.Good) {z : Nat → T}
    (h : ∀ r, pp.unpack2 true ((List.range (4 * pp.l)).map z) ≠ .ok r) :
    pp.unpack2 true ((List.range (4 * pp.l)).map z) = panic' := by
  have hl := hg.lpos
  unfold PSS.unpack2 at h ⊢
  simp only at h ⊢
  rw [PSS.ifft_drop hg] at h ⊢
  by_cases hb : (decide (pp.share.sizeInv • pp.checksum z = 0)) = true
  · simp only [List.all_cons, List.all_nil, hb] at h
    exfalso
    unfold everyOther at h
    rw [if_pos (by simp [Domain.fft, hg.secret2_size]; omega)] at h
    exact h _ rfl
  · simp only [List.all_cons, List.all_nil, Bool.not_eq_true _ ▸ hb]
    rfl

theorem PSS.shares_checksum {pp : PSS F} (hg : pp.Good) {d : Nat} (hd : d ≤ 4 * pp.l - 1) {y : Nat → T} {sec : List T}
    (h : pp.Shares d ((List.range (4 * pp.l)).map y) sec) : pp.checksum y = 0 :=
  PSS.unpack2_checks hg (PSS.unpack2_of_shares hg true hd h)

/-- One changed share is detected. -/
theorem PSS.unpack2_detects {pp : PSS F} (hg : pp.Good) {d : Nat} (hd : d ≤ 4 * pp.l - 1) {y z : Nat → T} {sec : List T}
    (h : pp.Shares d ((List.range (4 * pp.l)).map y) sec) {p : Nat} (hz : ∀ i < 4 * pp.l, i ≠ p → z i = y i) {r : List T}
    (hr' : pp.unpack2 true ((List.range (4 * pp.l)).map z) = .ok r) :
    ∀ i < 4 * pp.l, z i = y i := by
  have h1 := PSS.unpack2_checks hg hr'
  have h2 := PSS.shares_checksum hg hd h
  intro i hi
  by_cases hip : i = p
  · subst hip
    have hω0 : pp.share.groupGen ≠ 0 := hg.share_wf.prim.ne_zero hg.share_wf.pos.ne'
    have : pp.checksum z - pp.checksum y = pp.share.groupGen ^ i • (z i - y i) := by
      unfold PSS.checksum
      rw [← sum_sub_distrib, sum_eq_single i]
      · rw [smul_sub]
      · intro j hj hji
        rw [hz j (mem_range.1 hj) hji, sub_self]
      · intro h; exact absurd (mem_range.2 hi) h
    rw [h1, h2, sub_zero, eq_comm, smul_eq_zero] at this
    rcases this with h | h
    · exact absurd h (pow_ne_zero _ hω0)
    · exact sub_eq_zero.1 h
  · exact hz i hi hip

theorem PSS.unpack_detects {pp : PSS F} (hg : pp.Good) {d : Nat} (hd : d ≤ 4 * pp.l - 1) {y z : Nat → T} {sec : List T}
    (h : pp.Shares d ((List.range (4 * pp.l)).map y) sec) {p : Nat} (hz : ∀ i < 4 * pp.l, i ≠ p → z i = y i) {r : List T}
    (hr : pp.unpackMissingShares true ((List.range (4 * pp.l)).map z) (List.range (4 * pp.l)) = .ok r) :
    ∀ i < 4 * pp.l, z i = y i := by
  unfold PSS.unpackMissingShares at hr
  rw [debugAssert_of (by simp), ok_bind, if_pos (by simp [hg.n_eq])] at hr
  exact PSS.unpack2_detects hg hd h hz hr

/-- What a king gets out of messages of which one may be anything. -/
theorem transpose_evil {L N : Nat} (hL : 0 < L) (hN : 0 < N) {y z : Nat → List T} (hy : ∀ i < L, (y i).length = N) {p : Nat} (hp : p ≠ 0)
    (hz : ∀ i < L, i ≠ p → z i = y i) {cols : List (List T)} (h : transpose ((List.range L).map z) = .ok cols) :
    cols = (List.range N).map fun c => (List.range L).map fun i => (z i).getD c 0 := by
  have hrow : ∀ r < L, ((List.range L).map z).getD r [] = z r := fun r hr => by rw [getD_map_range, if_pos hr]
  have hz0 : (z 0).length = N := by rw [hz 0 hL hp.symm, hy 0 hL]
  have hlong : ∀ r < L, N ≤ (z r).length := by
    intro r hr
    by_contra hlt
    have := transpose_short ((List.range L).map z) (r := r) (by simpa using hr) (by rw [hrow r hr, hrow 0 hL, hz0]; omega)
    rw [this] at h
    cases h
  rw [transpose_ok _ 0 (cols := N) (by intro h0; simp at h0; omega) (by rw [hrow 0 hL, hz0]) hN
    (fun r hr => by
      have hr : r < L := by simpa using hr
      rw [hrow r hr]; exact hlong r hr)] at h
  cases h
  rw [List.length_map, List.length_range]
  apply List.map_congr_left
  intro c _
  apply List.map_congr_left
  intro r hr
  rw [hrow r (List.mem_range.1 hr)]

theorem transpose_honest {L N : Nat} (hL : 0 < L) (hN : 0 < N) {y : Nat → List T} (hy : ∀ i < L, (y i).length = N) :
    transpose ((List.range L).map y) = .ok ((List.range N).map fun c => (List.range L).map fun i => (y i).getD c 0) := by
  have hrow : ∀ r < L, ((List.range L).map y).getD r [] = y r := fun r hr => by rw [getD_map_range, if_pos hr]
  rw [transpose_ok _ 0 (cols := N) (by intro h0; simp at h0; omega) (by rw [hrow 0 hL, hy 0 hL]) hN
    (fun r hr => by
      have hr : r < L := by simpa using hr
      rw [hrow r hr, hy r hr]), List.length_map, List.length_range]
  congr 1
  apply List.map_congr_left
  intro c _
  apply List.map_congr_left
  intro r hr
  rw [hrow r (List.mem_range.1 hr)]

/-- If every column passes the check the king works on the right matrix. -/
theorem PSS.transpose_robust {pp : PSS F} (hg : pp.Good) {d N : Nat} (hN : 0 < N) (hd : d ≤ 4 * pp.l - 1) {y z sec : Nat → List T}
    (h : pp.SharedVec d N y sec) {p : Nat} (hp : p ≠ 0) (hz : ∀ i < 4 * pp.l, i ≠ p → z i = y i) {cols : List (List T)}
    (ht : transpose ((List.range (4 * pp.l)).map z) = .ok cols)
    (hcols : ∀ c < N, ∃ r, pp.unpackMissingShares true (cols.getD c []) (List.range (4 * pp.l)) = .ok r) :
    transpose ((List.range (4 * pp.l)).map z) = transpose ((List.range (4 * pp.l)).map y) := by
  have hl := hg.lpos
  have hc := transpose_evil (by omega : 0 < 4 * pp.l) hN h.1 hp hz ht
  rw [ht, transpose_honest (by omega) hN h.1, hc]
  congr 1
  apply List.map_congr_left
  intro c hcN
  have hcN := List.mem_range.1 hcN
  obtain ⟨r, hr⟩ := hcols c hcN
  rw [hc, getD_map_range, if_pos hcN] at hr
  have := PSS.unpack_detects hg hd (z := fun i => (z i).getD c 0) (y := fun i => (y i).getD c 0) (h.2 c hcN) (p := p)
    (fun i hi hip => by rw [hz i hi hip]) hr
  exact List.map_congr_left fun i hi => this i (List.mem_range.1 hi)

theorem PSS.degRedKing_robust {pp : PSS F} (hg : pp.Good) {d N : Nat} (hN : 0 < N) (hd : d ≤ 4 * pp.l - 1) {y z sec : Nat → List T}
    (h : pp.SharedVec d N y sec) {p : Nat} (hp : p ≠ 0) (hz : ∀ i < 4 * pp.l, i ≠ p → z i = y i) {rng : Nat → Nat → T}
    {out : List (List T)} (ho : pp.degRedKing true ((List.range (4 * pp.l)).map z) (List.range (4 * pp.l)) rng = .ok out) :
    pp.degRedKing true ((List.range (4 * pp.l)).map y) (List.range (4 * pp.l)) rng = .ok out := by
  have hl := hg.lpos
  have ho' := ho
  unfold PSS.degRedKing at ho'
  obtain ⟨cols, e1, ho'⟩ := bind_eq_ok ho'
  obtain ⟨rows, e2, -⟩ := bind_eq_ok ho'
  have hc := transpose_evil (by omega : 0 < 4 * pp.l) hN h.1 hp hz e1
  have hlen : cols.length = N := by rw [hc]; simp
  have ht := PSS.transpose_robust hg hN hd h hp hz e1 fun c hcN => by
    obtain ⟨w, hw⟩ := mapM_mem_ok e2 (x := c) (by rw [hlen]; exact List.mem_range.2 hcN)
    rw [rd_ok (by omega) [], ok_bind] at hw
    obtain ⟨r, hr, -⟩ := bind_eq_ok hw
    exact ⟨r, hr⟩
  rw [← ho]
  unfold PSS.degRedKing
  rw [ht]

theorem PSS.msmKing_robust {pp : PSS F} (hg : pp.Good) {d : Nat} (hd : d ≤ 4 * pp.l - 1) {y z : Nat → T} {sec : List T}
    (h : pp.Shares d ((List.range (4 * pp.l)).map y) sec) {p : Nat} (hz : ∀ i < 4 * pp.l, i ≠ p → z i = y i)
    {out : List T} (ho : pp.msmKing true n ((List.range (4 * pp.l)).map z) (List.range (4 * pp.l)) = .ok out) :
    pp.msmKing true n ((List.range (4 * pp.l)).map y) (List.range (4 * pp.l)) = .ok out := by
  have ho' := ho
  unfold PSS.msmKing at ho'
  obtain ⟨r, hr, -⟩ := bind_eq_ok ho'
  have := PSS.unpack_detects hg hd h hz hr
  rw [← ho]
  congr 1
  exact List.map_congr_left fun i hi => (this i (List.mem_range.1 hi)).symm

end checksum

theorem PSS.ppKing_robust {pp : PSS F} (hg : pp.Good) {d N : Nat} (hN : 0 < N) (hd : d ≤ 4 * pp.l - 1) {y z sec : Nat → List F}
    (h : pp.SharedVec d N y sec) {p : Nat} (hp : p ≠ 0) (hz : ∀ i < 4 * pp.l, i ≠ p → z i = y i) {rng : Nat → Nat → F}
    {out : List (List F)} (ho : pp.ppKing true ((List.range (4 * pp.l)).map z) (List.range (4 * pp.l)) rng = .ok out) :
    pp.ppKing true ((List.range (4 * pp.l)).map y) (List.range (4 * pp.l)) rng = .ok out := by
  have hl := hg.lpos
  have ho' := ho
  unfold PSS.ppKing at ho'
  obtain ⟨-, -, ho'⟩ := bind_eq_ok ho'
  obtain ⟨cols, e1, ho'⟩ := bind_eq_ok ho'
  obtain ⟨rows, e2, -⟩ := bind_eq_ok ho'
  have hc := transpose_evil (by omega : 0 < 4 * pp.l) hN h.1 hp hz e1
  have hlen : cols.length = N := by rw [hc]; simp
  have ht := PSS.transpose_robust hg hN hd h hp hz e1 fun c hcN => by
    rw [List.getD_eq_getElem _ _ (by omega)]
    exact mapM_mem_ok e2 (List.getElem_mem (by omega))
  rw [← ho]
  unfold PSS.ppKing
  rw [ht]
  simp only [List.length_map]

theorem PSS.fft2King_robust {pp : PSS F} (hg : pp.Good) {d N : Nat} (hN : 0 < N) (hd : d ≤ 4 * pp.l - 1) {y z sec : Nat → List F}
    (h : pp.SharedVec d N y sec) {p : Nat} (hp : p ≠ 0) (hz : ∀ i < 4 * pp.l, i ≠ p → z i = y i) {rng : Nat → Nat → F}
    {M : Nat} {g gen : F} {rearrange : Bool}
    {out : List (List F)} (ho : pp.fft2King true M N g gen rearrange ((List.range (4 * pp.l)).map z) (List.range (4 * pp.l)) rng = .ok out) :
    pp.fft2King true M N g gen rearrange ((List.range (4 * pp.l)).map y) (List.range (4 * pp.l)) rng = .ok out := by
  have hl := hg.lpos
  have ho' := ho
  unfold PSS.fft2King at ho'
  obtain ⟨cols, e1, ho'⟩ := bind_eq_ok ho'
  simp only at ho'
  obtain ⟨s1, e2, -⟩ := bind_eq_ok ho'
  have hc := transpose_evil (by omega : 0 < 4 * pp.l) hN h.1 hp hz e1
  have hlen : cols.length = N := by rw [hc]; simp
  have ht := PSS.transpose_robust hg hN hd h hp hz e1 fun c hcN => by
    obtain ⟨t, t', hw⟩ := forUp_step_ok e2 c (by omega)
    rw [rd_ok (by omega) [], ok_bind] at hw
    obtain ⟨r, hr, -⟩ := bind_eq_ok hw
    exact ⟨r, hr⟩
  rw [← ho]
  unfold PSS.fft2King
  rw [ht]

/-! ### Messages that do not come at all -/

theorem forUp_congr {σ : Type} {m : Nat} {body body' : Nat → σ → Res σ} (h : ∀ i < m, body i = body' i) (s : σ) :
    forUp m body s = forUp m body' s := by
  induction m with
  | zero => rfl
  | succ m ih => rw [forUp_succ, forUp_succ, ih fun i hi => h i (by omega), h m (by omega)]

theorem mapM_congr_ok {α β : Type} {f f' : α → Res β} {xs : List α} (h : ∀ x ∈ xs, f x = f' x) : xs.mapM f = xs.mapM f' := by
  induction xs with
  | nil => rfl
  | cons x xs ih => rw [List.mapM_cons, List.mapM_cons, h x (by simp), ih fun y hy => h y (by simp [hy])]

/-- If one client cheats the king works with all messages, or with exactly those of the others. -/
theorem Responders.cheater {threshold : Nat} {parties : List Nat} (h : Responders n threshold parties) {p : Nat}
    (hmem : ∀ i < n, i ≠ p → i ∈ parties) : parties = List.range n ∨ (parties.length < n ∧ n - 1 ≤ parties.length ∧ ∀ i ∈ parties, i ≠ p) := by
  by_cases hl : parties.length = n
  · exact Or.inl (h.full hl)
  have hlt : parties.length < n := lt_of_le_of_ne h.length_le hl
  refine Or.inr ⟨hlt, ?_, ?_⟩
  · have hsub : (range n).erase p ⊆ parties.toFinset := by
      intro i hi
      rw [mem_erase, mem_range] at hi
      exact List.mem_toFinset.2 (hmem i hi.2 hi.1)
    have h1 := card_le_card hsub
    rw [List.toFinset_card_of_nodup h.nodup] at h1
    have h2 := pred_card_le_card_erase (s := range n) (a := p)
    rw [card_range] at h2
    omega
  · rintro i hi rfl
    have hsub : range n ⊆ parties.toFinset := by
      intro j hj
      rw [List.mem_toFinset]
      by_cases hji : j = i
      · rw [hji]; exact hi
      · exact hmem j (mem_range.1 hj) hji
    have h1 := card_le_card hsub
    rw [List.toFinset_card_of_nodup h.nodup, card_range] at h1
    omega

section missing
variable {T : Type} [AddCommGroup T] [Module F T] [DecidableEq T]

theorem PSS.degRedKing_missing {pp : PSS F} (hg : pp.Good) (dbg : Bool) {d N : Nat} (hN : 0 < N) (hd0 : 0 < d) (hd : d ≤ 4 * pp.l - 1)
    {y sec : Nat → List T} (h : pp.SharedVec d N y sec) {parties : List Nat} (hp : pp.Decodable dbg d parties) (rng : Nat → Nat → T) :
    pp.degRedKing dbg (parties.map y) parties rng = pp.degRedKing dbg ((List.range (4 * pp.l)).map y) (List.range (4 * pp.l)) rng := by
  have hq : pp.Decodable dbg d (List.range (4 * pp.l)) := Or.inl rfl
  unfold PSS.degRedKing
  rw [transpose_received hg hd0 hN hp h.1, transpose_received hg hd0 hN hq h.1, ok_bind, ok_bind, List.length_map, List.length_map]
  rw [mapM_congr_ok]
  intro c hc
  have hc : c < N := by simpa using hc
  rw [rd_ok (by simpa using hc) [], rd_ok (by simpa using hc) [], ok_bind, ok_bind, getD_map_range, if_pos hc, getD_map_range, if_pos hc,
    PSS.unpackMissing_of_shares hg dbg hp hd _ (h.2 c hc), PSS.unpackMissing_of_shares hg dbg hq hd _ (h.2 c hc)]

end missing

theorem PSS.fft2King_missing {pp : PSS F} (hg : pp.Good) (dbg : Bool) {d N : Nat} (hN : 0 < N) (hd0 : 0 < d) (hd : d ≤ 4 * pp.l - 1)
    {y sec : Nat → List F} (h : pp.SharedVec d N y sec) {parties : List Nat} (hp : pp.Decodable dbg d parties) (M K : Nat) (g gen : F)
    (rearrange : Bool) (rng : Nat → Nat → F) :
    pp.fft2King dbg M K g gen rearrange (parties.map y) parties rng =
      pp.fft2King dbg M K g gen rearrange ((List.range (4 * pp.l)).map y) (List.range (4 * pp.l)) rng := by
  have hq : pp.Decodable dbg d (List.range (4 * pp.l)) := Or.inl rfl
  unfold PSS.fft2King
  rw [transpose_received hg hd0 hN hp h.1, transpose_received hg hd0 hN hq h.1, ok_bind, ok_bind]
  dsimp only
  rw [List.length_map, List.length_map, List.length_range]
  rw [forUp_congr]
  intro c hc
  have hc : c < N := by omega
  funext s
  rw [rd_ok (by simpa using hc) [], rd_ok (by simpa using hc) [], ok_bind, ok_bind, getD_map_range, if_pos hc, getD_map_range, if_pos hc,
    PSS.unpackMissing_of_shares hg dbg hp hd _ (h.2 c hc), PSS.unpackMissing_of_shares hg dbg hq hd _ (h.2 c hc)]

/-- `d_pp` insists on all messages in debug builds. -/
theorem PSS.ppKing_missing {pp : PSS F} (hg : pp.Good) {shares : List (List F)} {parties : List Nat} (h : shares.length < 4 * pp.l)
    (rng : Nat → Nat → F) : pp.ppKing true shares parties rng = panic' := by
  unfold PSS.ppKing
  have : debugAssert true (shares.length == pp.n) = panic' := by
    have : ¬ shares.length = pp.n := by rw [hg.n_eq]; omega
    simp [debugAssert, this]
  rw [this]
  rfl

end ZkSaas
