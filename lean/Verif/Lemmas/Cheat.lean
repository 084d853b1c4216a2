import Verif.Lemmas.LossyProtocols

/-!
# Undetected cheating

Error polynomials, and `deg_red` in a release build on values that are not on a polynomial of low degree.
-/

set_option linter.unusedSectionVars false

namespace ZkSaas

open Finset Spec

variable {F : Type} [Field F] [DecidableEq F] [FftField F]

/-- A polynomial that vanishes at the share points of `S` and is one at the secret point `j`. -/
theorem PSS.error_poly {pp : PSS F} (hg : pp.Good) (hoff : pp.secret.offset ^ (4 * pp.l) ≠ 1) (S : List Nat) {d : Nat}
    (hd : S.length < d) (j : Nat) :
    ∃ e : Nat → F, (∀ i ∈ S, pval e d (pp.share.groupGen ^ i) = 0) ∧
      pval e d (pp.secret.offset * (pp.share.groupGen ^ 2) ^ j) = 1 := by
  have hω : pp.share.groupGen ^ (4 * pp.l) = 1 := by
    have := hg.share_wf.prim.pow_eq_one
    rwa [hg.share_size] at this
  set ω := pp.share.groupGen
  have hne : ∀ k i, pp.secret.offset * (ω ^ 2) ^ k - ω ^ i ≠ 0 := by
    intro k i h
    have h : pp.secret.offset * (ω ^ 2) ^ k = ω ^ i := sub_eq_zero.1 h
    apply hoff
    have := congrArg (· ^ (4 * pp.l)) h
    simp only [mul_pow, ← pow_mul] at this
    rw [mul_comm 2 k, mul_comm (k * 2), pow_mul ω, hω, one_pow, mul_one, mul_comm i, pow_mul ω, hω, one_pow] at this
    exact this
  obtain ⟨c, hc⟩ := pval_roots (S.map (ω ^ ·)) (d := d) (by simpa using hd)
  have hnz : ((S.map (ω ^ ·)).map fun r => pp.secret.offset * (ω ^ 2) ^ j - r).prod ≠ 0 := by
    rw [List.map_map]
    apply List.prod_ne_zero
    intro h
    obtain ⟨p, -, hp⟩ := List.mem_map.1 h
    exact hne j p hp
  refine ⟨fun k => (((S.map (ω ^ ·)).map fun r => pp.secret.offset * (ω ^ 2) ^ j - r).prod)⁻¹ • c k, fun i hi => ?_, ?_⟩
  · rw [← pval_smul, hc]
    rw [show ((S.map (ω ^ ·)).map fun r => ω ^ i - r).prod = 0 from ?_, smul_zero]
    apply List.prod_eq_zero
    rw [List.map_map, List.mem_map]
    exact ⟨i, hi, by simp⟩
  · rw [← pval_smul, hc, smul_eq_mul, inv_mul_cancel₀ hnz]

section
variable {T : Type} [AddCommGroup T] [Module F T] [DecidableEq T]

omit [DecidableEq T] in
theorem pval_smul_const (e : Nat → F) (d : Nat) (x : F) (v : T) : pval (fun j => e j • v) d x = pval e d x • v := by
  simp only [pval, sum_smul, smul_assoc]

/-- The errors of the shares of column `c₀`. -/
def errorShares (pp : PSS F) (N c₀ : Nat) (e : Nat → F) (d : Nat) (v : T) (i : Nat) : List T :=
  (List.range N).map fun c => if c = c₀ then pval e d (pp.share.groupGen ^ i) • v else 0

omit [DecidableEq T] in
theorem errorShares_shared (pp : PSS F) (N c₀ : Nat) (e : Nat → F) (d : Nat) (v : T) :
    pp.SharedVec d N (errorShares pp N c₀ e d v) fun c => (List.range pp.l).map fun k =>
      if c = c₀ then pval e d (pp.secret.offset * (pp.share.groupGen ^ 2) ^ k) • v else 0 := by
  refine ⟨fun i _ => by simp [errorShares], fun c hc => ⟨by simp, by simp, fun j => if c = c₀ then e j • v else 0, ?_, ?_⟩⟩
  · intro i hi
    rw [getD_map_range, if_pos hi, errorShares, getD_map_range, if_pos hc]
    split
    · rw [pval_smul_const]
    · rw [pval_zero]
  · intro k hk
    rw [getD_map_range, if_pos hk]
    split
    · rw [pval_smul_const]
    · rw [pval_zero]

/-- No error at the roots. -/
theorem addMask_errorShares {pp : PSS F} {N c₀ : Nat} {e : Nat → F} {d : Nat} {v : T} {i : Nat}
    (h : pval e d (pp.share.groupGen ^ i) = 0) {x : List T} (hx : x.length = N) :
    addMask x (errorShares pp N c₀ e d v i) = x := by
  have : errorShares pp N c₀ e d v i = List.replicate N 0 := by
    unfold errorShares
    rw [h]
    simp
  rw [this, addMask]
  apply list_ext_getD 0 (by simp [hx])
  intro k hk
  simp [hx] at hk
  rw [getD_zipWith _ _ _ _ 0 0 _ (by omega) (by simpa using hk), getD_replicate_self, add_zero]

/-- In a release build `unpack2` opens whatever polynomial the shares are on. -/
theorem PSS.unpack2_release {pp : PSS F} (hg : pp.Good) {shares secrets : List T} (h : pp.Shares (4 * pp.l) shares secrets) :
    pp.unpack2 false shares = .ok secrets := by
  obtain ⟨_, h2, c, h3, h4⟩ := h
  unfold PSS.unpack2
  simp only
  rw [PSS.ifft_shares hg le_rfl h3]
  show everyOther (pp.secret2.fft _) pp.l = _
  apply PSS.secret2_eval hg (d := 4 * pp.l) (c := c) le_rfl _ h2 h4
  intro j hj
  rw [getD_map_range, if_pos hj]

theorem PSS.degRedKing_release {pp : PSS F} (hg : pp.Good) {N : Nat} (hN : 0 < N) {sh sec : Nat → List T}
    (hsh : pp.SharedVec (4 * pp.l) N sh sec) (rng : Nat → Nat → T) :
    ∃ out, pp.degRedKing false ((List.range (4 * pp.l)).map sh) (List.range (4 * pp.l)) rng = .ok out ∧ out.length = 4 * pp.l ∧
      pp.SharedVec (2 * pp.l) N (fun p => out.getD p []) sec := by
  have hl := hg.lpos
  unfold PSS.degRedKing
  rw [transpose_received hg (by omega) hN (Or.inl rfl : pp.Decodable false (4 * pp.l) _) hsh.1, ok_bind]
  obtain ⟨rows, e, hlen, h⟩ := mapM_exists (xs := List.range ((List.range N).map fun c =>
      (List.range (4 * pp.l)).map fun p => (sh p).getD c 0).length)
    (f := fun c => do
      let xShare ← rd ((List.range N).map fun c => (List.range (4 * pp.l)).map fun p => (sh p).getD c 0) c
      let xi ← pp.unpackMissingShares false xShare (List.range (4 * pp.l))
      pp.pack false xi (rng c)) (R := fun c row => pp.Shares (2 * pp.l) row (sec c))
    (by
      intro c hc
      rw [List.length_map, List.length_range] at hc
      have hc := List.mem_range.1 hc
      have hs := hsh.2 c hc
      obtain ⟨row, e, hr⟩ := PSS.pack_shares hg false hs.2.1 (rng c)
      refine ⟨row, ?_, hr⟩
      rw [rd_ok (by simpa using hc) [], ok_bind, getD_map_range, if_pos hc]
      unfold PSS.unpackMissingShares
      rw [debugAssert_of (by simp), ok_bind, if_pos (by simp [hg.n_eq]), PSS.unpack2_release hg hs, ok_bind, e])
  rw [e, ok_bind]
  rw [List.length_range, List.length_map, List.length_range] at hlen
  exact SharedVec.of_rows hg hN hlen fun c hc => by
    have := h c (by simpa using hc)
    rw [List.getElem_range] at this
    exact this

variable [FixedWire T] {n : Nat}

/-- `deg_red` of a release build on arbitrary shares. -/
theorem PSS.degRed_runs_release {pp : PSS F} (hg : pp.Good) (hn : n = 4 * pp.l) {N : Nat} (hN : 0 < N)
    (hN64 : N < 2 ^ 64) {sh sec : Nat → List T}
    (hsh : pp.SharedVec (4 * pp.l) N sh sec) {mask : Nat → DegRedMask T} (hm : DegRedMasksOk pp N mask) (sid : Sid)
    (rng : Nat → Nat → T) :
    ∃ outs : Nat → List T,
      Runs (Upto (8 + N * FixedWire.width T)) (only sid) (fun i : Fin n => pp.degRed false n i (sh i) (mask i) sid rng) (fun i => outs i) ∧
      pp.SharedVec (2 * pp.l) N outs sec := by
  have hl := hg.lpos
  have hn0 : 0 < n := by omega
  obtain ⟨v, hin, hout⟩ := hm
  have hsum := SharedVec.add hsh (SharedVec.mono (by omega) hin)
  obtain ⟨out, hK, hol, hos⟩ := PSS.degRedKing_release hg hN hsum rng
  refine ⟨fun p => addMask (out.getD p []) (mask p).outMask, ?_, ?_⟩
  · refine (runs_round hn0 sid pp.t (fun i => addMask (sh i) (mask i).inMask)
      (fun i hi => Wire.ok_list _ (by rw [hsum.1 i (by omega)]; exact hN64))
      (fun i rs => pp.degRedKing false rs.shares rs.parties rng)
      (fun i => out.getD i []) (8 + N * FixedWire.width T) ?_ ?_
      (fun i y => .done (.ok (addMask y (mask i).outMask))) (Runs.done _)
      (fun i hi _ => by rw [Upto, Wire.enc_list_length, hsum.1 i (by omega)])
      (fun i hi _ => by rw [Upto, Wire.enc_list_length, hos.1 i (by omega)])).congr (fun i => ?_) (fun i => rfl)
    · rw [hn, hK, map_getD_range _ _ hol]
    · intro i hi
      have := hos.1 i (by omega)
      exact ⟨Wire.ok_list _ (by rw [this]; exact hN64), by rw [Wire.enc_list_length, this]⟩
    · rfl
  · refine SharedVec.congr (SharedVec.add hos hout) (fun _ _ => rfl) fun c hc => ?_
    exact zipWith_add_neg _ _ (by rw [(hsh.2 c hc).2.1, (hin.2 c hc).2.1])

/-- `deg_red` when the king hears all but party `q` and times out: only the shares of the others matter. -/
theorem PSS.degRed_timeout {pp : PSS F} (hg : pp.Good) (dbg : Bool) (hn : n = 4 * pp.l) {N : Nat} (hN : 0 < N)
    (hN64 : N < 2 ^ 64) {parties : List Nat} (hnd : parties.Nodup) (hlt : ∀ p ∈ parties, p < n) (h0 : 0 ∈ parties)
    (hsn : parties.length = n - 1) {sh sh' sec : Nat → List T} (hsh : pp.SharedVec (4 * pp.l - 1) N sh' sec)
    (heq : ∀ p ∈ parties, sh p = sh' p) (hlen : ∀ p < n, (sh p).length = N)
    {mask : Nat → DegRedMask T} (hm : DegRedMasksOk pp N mask) (sid : Sid) (rng : Nat → Nat → T) :
    ∃ (k : Nat) (outs : Nat → List T) (Q : Queues),
      GSteps Any k (Net.init fun i : Fin n => pp.degRed dbg n i (sh i) (mask i) sid rng) ⟨fun i => .done (.ok (outs i)), Q⟩ ∧
      pp.SharedVec (2 * pp.l) N outs sec := by
  have hl := hg.lpos
  obtain ⟨v, hin, hout⟩ := hm
  have hsum := SharedVec.add hsh (SharedVec.mono (by omega) hin)
  obtain ⟨out, hK, hol, hos⟩ := PSS.degRedKing_ok hg dbg hN (by omega : 0 < 4 * pp.l - 1) le_rfl
    (Or.inr ⟨hnd, by rw [← hn]; exact hlt, by omega, by omega, by omega⟩ : pp.Decodable dbg (4 * pp.l - 1) parties) hsum rng
  have hprog : (fun i : Fin n => pp.degRed dbg n i (sh i) (mask i) sid rng) =
      fun i : Fin n => (clientSendOrKingReceiveSer n i (addMask (sh i) (mask i).inMask) sid pp.t).bind fun r =>
        (Proc.done (kingDo (fun rs : ReceivedShares (List T) => pp.degRedKing dbg rs.shares rs.parties rng) r)).bind fun a =>
          (clientReceiveOrKingSendSer n i a sid).bind fun y => .done (.ok (addMask y (mask i).outMask)) := by
    funext i
    have hi : i.val < 4 * pp.l := by omega
    unfold PSS.degRed
    rw [debugAssert_of (by rw [hlen i i.2, hin.1 i hi]; simp), debugAssert_of (by rw [hlen i i.2, hout.1 i hi]; simp)]
    rfl
  have hmap : parties.map (fun i => addMask (sh i) (mask i).inMask) = parties.map fun i => addMask (sh' i) (mask i).inMask :=
    List.map_congr_left fun p hp => by rw [heq p hp]
  obtain ⟨k, hk⟩ := star_timeout (n := n) (by omega) sid pp.t (fun i => addMask (sh i) (mask i).inMask)
    (fun i hi => Wire.ok_list _ (by rw [addMask, List.length_zipWith, hlen i hi]; omega))
    (fun rs : ReceivedShares (List T) => pp.degRedKing dbg rs.shares rs.parties rng)
    (fun i y => .done (.ok (addMask y (mask i).outMask))) hnd hlt h0 (by omega) (by rw [hg.t_eq]; omega)
    (fun p => out.getD p []) (8 + N * FixedWire.width T)
    (by simp only; rw [hmap, hK, hn, ← hol, ← list_eq_map_range])
    (fun i hi => by
      have := hos.1 i (by omega)
      simp only at this
      exact ⟨Wire.ok_list _ (by rw [this]; exact hN64), by rw [Wire.enc_list_length, this]⟩)
  rw [← hprog] at hk
  refine ⟨k, fun p => addMask (out.getD p []) (mask p).outMask, _, hk, ?_⟩
  refine SharedVec.congr (SharedVec.add hos hout) (fun _ _ => rfl) fun c hc => ?_
  exact zipWith_add_neg _ _ (by rw [(hsh.2 c hc).2.1, (hin.2 c hc).2.1])

end

end ZkSaas
