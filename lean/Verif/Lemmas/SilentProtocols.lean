import Verif.Lemmas.SilentRound
import Verif.Lemmas.Robust
import Verif.Lemmas.ExtWit

/-! The protocols of `dist-primitives` when some clients fall silent. -/

set_option linter.unusedSectionVars false

namespace ZkSaas

open Finset Spec

variable {F : Type} [Field F] [DecidableEq F] {n : Nat}

theorem Timed.tryJoin3 {α β γ δ : Type} {hn : 0 < n} {S : Nat → Prop} {ps : Fin n → Proc α} {qs : Fin n → Proc β} {us : Fin n → Proc γ}
    {rs : Fin n → α} {ss : Fin n → β} {ts : Fin n → γ} (h1 : Timed hn S (only .zero) ps rs) (h2 : Timed hn S (only .one) qs ss)
    (h3 : Timed hn S (only .two) us ts) {k : Fin n → α → β → γ → Proc δ} {out : Fin n → δ}
    (hk : Timed hn S (fun _ => True) (fun i => k i (rs i) (ss i) (ts i)) out) :
    Timed hn S (fun _ => True) (fun i => ZkSaas.tryJoin3 (ps i) (qs i) (us i) (k i)) out := by
  have h12 : Timed hn S (fun s => s = .zero ∨ s = .one) (fun i => Proc.par (ps i) (qs i) fun x y => .done (.ok (x, y)))
      fun i => (rs i, ss i) :=
    Timed.par h1 h2 (fun _ h => .inl h) (fun _ h => .inr h) (by intro s h h'; rw [h] at h'; cases h') (Timed.done fun i => (rs i, ss i))
  exact Timed.par h12 h3 (fun _ _ => trivial) (fun _ _ => trivial)
    (by rintro s (h | h) h' <;> rw [h] at h' <;> cases h') hk


/-- The shares of the parties that are not silent determine sharings with `d` coefficients, and a debug build accepts them. -/
structure Suffices (pp : PSS F) (n : Nat) (S : Nat → Prop) (dbg : Bool) (d : Nat) : Prop where
  degree : Remain n S d
  debug : dbg = true → Remain n S (4 * pp.l - 1)
  threshold : Remain n S pp.t

theorem Suffices.decodable {pp : PSS F} (hn : n = 4 * pp.l) {S : Nat → Prop} {dbg : Bool} {d : Nat} (h : Suffices pp n S dbg d) {threshold : Nat}
    {parties : List Nat} (hr : Responders n threshold parties) (hmem : ∀ i < n, ¬ S i → i ∈ parties) : pp.Decodable dbg d parties :=
  hr.decodable hn (h.degree parties hr.nodup hmem) fun hd => h.debug hd parties hr.nodup hmem

section fft
variable [FixedWire F]

theorem PSS.fft2WithRearrange_timed {pp : PSS F} (hg : pp.Good) (hn : n = 4 * pp.l) (hn0 : 0 < n) {S : Nat → Prop} (dbg : Bool) {a b : Nat}
    (ha : a < 64) (hlb : pp.l = 2 ^ b) {gen : F}
    (hprim : IsPrimitiveRoot gen (2 ^ (a + b))) (φ : Nat → Nat → F → F)
    (hφ : ∀ s ≥ a, ∀ j x, φ (s + 1) j x = φ s (2 * j) (x ^ 2) + x * φ s (2 * j + 1) (x ^ 2))
    {d : Nat} (hd2 : 2 * pp.l ≤ d) (hd4 : d ≤ 4 * pp.l - 1) (hS : Suffices pp n S dbg d)
    {px : Nat → List F} (hpx : pp.SharedVec d (2 ^ a) px
      (fun c => (List.range (2 ^ b)).map fun j => φ a j (gen ^ (2 ^ b * (c + 1)))))
    (g : F) (rearrange : Bool) {mask : Nat → FftMask F} (hm : MasksOk pp a b rearrange g gen mask) (sid : Sid)
    (rng : Nat → Nat → F) :
    ∃ outs : Nat → List F,
      Timed hn0 S (only sid) (fun i : Fin n => pp.fft2WithRearrange dbg n i (px i) (mask i) rearrange g gen sid rng)
        (fun i => outs i) ∧
      pp.SharedVec (2 * pp.l) (2 ^ a) outs (packed rearrange a b fun k => g ^ k * φ (a + b) 0 (gen ^ k)) := by
  have hl := hg.lpos
  obtain ⟨ψ, hψ, hin, hout⟩ := hm
  have hsum := SharedVec.add hpx (SharedVec.mono hd2 hin)
  have hsum' : pp.SharedVec d (2 ^ a) (fun p => addMask (px p) (mask p).inMask)
      (fun c => (List.range (2 ^ b)).map fun j => (φ a j (gen ^ (2 ^ b * (c + 1))) + ψ a j (gen ^ (2 ^ b * (c + 1))))) := by
    refine SharedVec.congr hsum (fun _ _ => rfl) fun c hc => ?_
    rw [List.zipWith_map_left, List.zipWith_map_right, List.zipWith_self]
  obtain ⟨out, hK, hol, hos⟩ := PSS.fft2King_ok hg dbg hlb hprim (fun s j x => φ s j x + ψ s j x)
    (fun s hs j x => by rw [hφ s hs, hψ s hs]; ring) (by omega : 0 < d) hd4 (Or.inl rfl : pp.Decodable dbg d _) hsum' g rearrange rng
  have hlen : ∀ p < 4 * pp.l, (addMask (px p) (mask p).inMask).length = 2 ^ a := hsum'.1
  have h2a : 2 ^ a < 2 ^ 64 := Nat.pow_lt_pow_right (by norm_num) ha
  refine ⟨fun p => addMask (out.getD p []) (mask p).outMask, ?_, ?_⟩
  · refine (timed_round sid pp.t hS.threshold (fun i => addMask (px i) (mask i).inMask)
      (fun i hi => Wire.ok_list _ (by rw [hlen i (by omega)]; exact h2a))
      (fun i rs => pp.fft2King dbg (addMask (px i) (mask i).inMask).length (px i).length g gen rearrange rs.shares rs.parties rng)
      (fun i => out.getD i []) ?_ (fun i hi => Wire.ok_list _ (by rw [hos.1 i (by omega)]; exact h2a))
      (fun i hi => by rw [Wire.enc_list_length, Wire.enc_list_length, hos.1 i (by omega), hos.1 0 (by omega)])
      (fun i y => .done (.ok (addMask y (mask i).outMask))) (Timed.done _)).congr (fun i => rfl) (fun i => rfl)
    intro parties hr hmem
    refine ⟨out, ?_, fun i hi => by rw [List.getElem?_eq_getElem (by omega), List.getD_eq_getElem _ _ (by omega)]⟩
    dsimp only
    rw [hlen 0 (by omega), hpx.1 0 (by omega),
      PSS.fft2King_missing hg dbg (Nat.two_pow_pos a) (by omega) hd4 hsum' (hS.decodable hn hr hmem)]
    exact hK
  · refine SharedVec.congr (SharedVec.add hos hout) (fun _ _ => rfl) fun c hc => ?_
    rw [packed_zipWith]
    congr 1
    funext k
    ring

/-- `d_fft`. -/
theorem PSS.dFft_timed {pp : PSS F} (hg : pp.Good) (hn : n = 4 * pp.l) (hn0 : 0 < n) {S : Nat → Prop} (dbg : Bool) {a b : Nat}
    (ha : a < 64) (hlb : pp.l = 2 ^ b) {dom : Domain F} (hsize : dom.size = 2 ^ (a + b))
    (hprim : IsPrimitiveRoot dom.groupGen (2 ^ (a + b)))
    {d : Nat} (hd2 : 2 * pp.l ≤ d) (hd4 : d ≤ 4 * pp.l - 1) (hS : Suffices pp n S dbg d)
    {sh : Nat → List F} (x : Nat → F) (hsh : pp.SharedVec d (2 ^ a) sh (packed true a b x))
    (rearrange : Bool) {mask : Nat → FftMask F} (hm : MasksOk pp a b rearrange 1 dom.groupGen mask) (sid : Sid)
    (rng : Nat → Nat → F) :
    ∃ outs : Nat → List F,
      Timed hn0 S (only sid) (fun i : Fin n => pp.dFft dbg n i (sh i) (mask i) rearrange dom sid rng) (fun i => outs i) ∧
      pp.SharedVec (2 * pp.l) (2 ^ a) outs
        (packed rearrange a b fun k => ∑ u ∈ range (2 ^ (a + b)), (dom.groupGen ^ k) ^ u * x u) := by
  obtain ⟨px, e1, hpx⟩ := PSS.fft1_shared hlb hprim x hsh
  obtain ⟨outs, hr, ho⟩ := PSS.fft2WithRearrange_timed hg hn hn0 dbg ha hlb hprim
    (bp (fun i => x (bitRev (a + b) i))) (fun _ _ _ _ => rfl) hd2 hd4 hS hpx 1 rearrange hm sid rng
  refine ⟨outs, ?_, ?_⟩
  · refine hr.congr (fun i => ?_) fun _ => rfl
    have hi : i.val < 4 * pp.l := by omega
    unfold PSS.dFft
    rw [debugAssert_of (by rw [hsh.1 i hi, hlb, hsize, pow_add]; simp), e1 i hi]
    rfl
  · refine SharedVec.congr ho (fun _ _ => rfl) fun c hc => ?_
    congr 1
    funext k
    rw [bp_top, one_pow, one_mul]

/-- `d_ifft`. -/
theorem PSS.dIfft_timed {pp : PSS F} (hg : pp.Good) (hn : n = 4 * pp.l) (hn0 : 0 < n) {S : Nat → Prop} (dbg : Bool) {a b : Nat}
    (ha : a < 64) (hlb : pp.l = 2 ^ b) {dom : Domain F} (hsize : dom.size = 2 ^ (a + b))
    (hprim : IsPrimitiveRoot dom.groupGenInv (2 ^ (a + b)))
    {d : Nat} (hd2 : 2 * pp.l ≤ d) (hd4 : d ≤ 4 * pp.l - 1) (hS : Suffices pp n S dbg d)
    {sh : Nat → List F} (x : Nat → F) (hsh : pp.SharedVec d (2 ^ a) sh (packed true a b x)) (g : F)
    (rearrange : Bool) {mask : Nat → FftMask F} (hm : MasksOk pp a b rearrange g dom.groupGenInv mask) (sid : Sid)
    (rng : Nat → Nat → F) :
    ∃ outs : Nat → List F,
      Timed hn0 S (only sid) (fun i : Fin n => pp.dIfft dbg n i (sh i) (mask i) rearrange dom g sid rng) (fun i => outs i) ∧
      pp.SharedVec (2 * pp.l) (2 ^ a) outs
        (packed rearrange a b fun k => g ^ k * ∑ u ∈ range (2 ^ (a + b)), (dom.groupGenInv ^ k) ^ u * (x u * dom.sizeInv)) := by
  have hsh' : pp.SharedVec d (2 ^ a) (fun p => (sh p).map fun z => z * dom.sizeInv) (packed true a b fun i => x i * dom.sizeInv) :=
    SharedVec.congr (SharedVec.scale hsh dom.sizeInv) (fun _ _ => rfl) fun c hc => packed_smul _ _ _ _ _ _
  obtain ⟨px, e1, hpx⟩ := PSS.fft1_shared hlb hprim _ hsh'
  obtain ⟨outs, hr, ho⟩ := PSS.fft2WithRearrange_timed hg hn hn0 dbg ha hlb hprim
    (bp (fun i => (fun i => x i * dom.sizeInv) (bitRev (a + b) i))) (fun _ _ _ _ => rfl) hd2 hd4 hS hpx g rearrange hm sid rng
  refine ⟨outs, ?_, ?_⟩
  · refine hr.congr (fun i => ?_) fun _ => rfl
    have hi : i.val < 4 * pp.l := by omega
    unfold PSS.dIfft
    have e := e1 i hi
    rw [debugAssert_of (by rw [hsh.1 i hi, hlb, hsize, pow_add]; simp)]
    dsimp only
    rw [e]
    rfl
  · refine SharedVec.congr ho (fun _ _ => rfl) fun c hc => ?_
    congr 1
    funext k
    rw [bp_top fun i => x i * dom.sizeInv]

end fft

section degred
variable {T : Type} [AddCommGroup T] [Module F T] [DecidableEq T] [FixedWire T]

/-- `deg_red`. -/
theorem PSS.degRed_timed {pp : PSS F} (hg : pp.Good) (hn : n = 4 * pp.l) (hn0 : 0 < n) {S : Nat → Prop} (dbg : Bool) {d N : Nat} (hN : 0 < N)
    (hN64 : N < 2 ^ 64) (hd2 : 2 * pp.l ≤ d) (hd4 : d ≤ 4 * pp.l - 1) (hS : Suffices pp n S dbg d) {sh sec : Nat → List T}
    (hsh : pp.SharedVec d N sh sec) {mask : Nat → DegRedMask T} (hm : DegRedMasksOk pp N mask) (sid : Sid)
    (rng : Nat → Nat → T) :
    ∃ outs : Nat → List T,
      Timed hn0 S (only sid) (fun i : Fin n => pp.degRed dbg n i (sh i) (mask i) sid rng) (fun i => outs i) ∧
      pp.SharedVec (2 * pp.l) N outs sec := by
  have hl := hg.lpos
  obtain ⟨v, hin, hout⟩ := hm
  have hsum := SharedVec.add hsh (SharedVec.mono hd2 hin)
  obtain ⟨out, hK, hol, hos⟩ := PSS.degRedKing_ok hg dbg hN (by omega : 0 < d) hd4 (Or.inl rfl : pp.Decodable dbg d _) hsum rng
  refine ⟨fun p => addMask (out.getD p []) (mask p).outMask, ?_, ?_⟩
  · refine (timed_round sid pp.t hS.threshold (fun i => addMask (sh i) (mask i).inMask)
      (fun i hi => Wire.ok_list _ (by rw [hsum.1 i (by omega)]; exact hN64))
      (fun i rs => pp.degRedKing dbg rs.shares rs.parties rng)
      (fun i => out.getD i []) ?_ (fun i hi => Wire.ok_list _ (by rw [hos.1 i (by omega)]; exact hN64))
      (fun i hi => by rw [Wire.enc_list_length, Wire.enc_list_length, hos.1 i (by omega), hos.1 0 (by omega)])
      (fun i y => .done (.ok (addMask y (mask i).outMask))) (Timed.done _)).congr (fun i => ?_) (fun i => rfl)
    · intro parties hr hmem
      refine ⟨out, ?_, fun i hi => by rw [List.getElem?_eq_getElem (by omega), List.getD_eq_getElem _ _ (by omega)]⟩
      dsimp only
      rw [PSS.degRedKing_missing hg dbg hN (by omega) hd4 hsum (hS.decodable hn hr hmem)]
      exact hK
    · have hi : i.val < 4 * pp.l := by omega
      unfold PSS.degRed
      rw [debugAssert_of (by rw [hsh.1 i hi, hin.1 i hi]; simp), debugAssert_of (by rw [hsh.1 i hi, hout.1 i hi]; simp)]
      rfl
  · refine SharedVec.congr (SharedVec.add hos hout) (fun _ _ => rfl) fun c hc => ?_
    exact zipWith_add_neg _ _ (by rw [(hsh.2 c hc).2.1, (hin.2 c hc).2.1])

end degred

section dmsm
variable {G : Type} [AddCommGroup G] [Module F G] [DecidableEq G] [FixedWire G]

/-- `d_msm`. -/
theorem PSS.dMsm_timed {pp : PSS F} (hg : pp.Good) (hn : n = 4 * pp.l) (hn0 : 0 < n) {S : Nat → Prop} (dbg : Bool) {N d1 d2 : Nat}
    (hd2 : 2 * pp.l ≤ d2 + d1 - 1) (hd4 : d2 + d1 - 1 ≤ 4 * pp.l - 1) (hS : Suffices pp n S dbg (d2 + d1 - 1)) {bs bsec : Nat → List G} {ss ssec : Nat → List F}
    (hb : pp.SharedVec d1 N bs bsec) (hs : pp.SharedVec d2 N ss ssec) {mask : Nat → MsmMask G} (hm : MsmMasksOk pp mask)
    (sid : Sid) :
    ∃ outs : Nat → G,
      Timed hn0 S (only sid) (fun i : Fin n => pp.dMsm dbg n i (bs i) (ss i) (mask i) sid) (fun i => outs i) ∧
      pp.Shares (2 * pp.l) ((List.range (4 * pp.l)).map outs)
        (List.replicate pp.l (∑ k ∈ range pp.l, ∑ c ∈ range N, (ssec c).getD k 0 • (bsec c).getD k 0)) := by
  have hl := hg.lpos
  obtain ⟨c, e1, hc⟩ := msm_shared hb hs
  obtain ⟨v, hin, hout⟩ := hm
  have hsum := Shares.add hc (Shares.mono hd2 hin)
  rw [List.zipWith_map_left, List.zipWith_map_right, List.zipWith_self] at hsum
  have hK := PSS.msmKing_ok hg dbg n hd4 (Or.inl rfl : pp.Decodable dbg (d2 + d1 - 1) _) hsum
  rw [sum_zipWith_add _ _ (by simp [hin.2.1]), sum_map_range] at hK
  set tot := ∑ k ∈ range pp.l, ∑ c ∈ range N, (ssec c).getD k 0 • (bsec c).getD k 0
  refine ⟨fun p => (tot + v.sum) + (mask p).outMask, ?_, ?_⟩
  · refine (timed_round sid pp.t hS.threshold (fun i => c i + (mask i).inMask) (fun i hi => Wire.ok_fixed _)
      (fun i rs => pp.msmKing dbg n rs.shares rs.parties) (fun i => tot + v.sum) ?_
      (fun i hi => Wire.ok_fixed _) (fun i hi => rfl)
      (fun i y => .done (.ok (y + (mask i).outMask))) (Timed.done _)).congr (fun i => ?_) (fun i => rfl)
    · intro parties hr hmem
      refine ⟨List.replicate n (tot + v.sum), ?_, fun i hi => by simp [hi]⟩
      dsimp only
      rw [PSS.msmKing_ok hg dbg n hd4 (hS.decodable hn hr hmem) hsum, sum_zipWith_add _ _ (by simp [hin.2.1]), sum_map_range]
    · have hi : i.val < 4 * pp.l := by omega
      unfold PSS.dMsm
      rw [debugAssert_of (by rw [hb.1 i hi, hs.1 i hi]; simp), e1 i hi]
      rfl
  · exact msm_unmask (v := v) hg tot hout

end dmsm

section dpp
variable [FixedWire F]

/-- In a release build `d_pp`'s king does not mind missing shares. -/
theorem PSS.ppKing_decodable {pp : PSS F} (hg : pp.Good) {d N : Nat} (hN : 0 < N) (hd : 0 < d)
    (hd4 : d ≤ 4 * pp.l - 1) {sh sec : Nat → List F} (hsh : pp.SharedVec d N sh sec) {parties : List Nat} (hp : pp.Decodable false d parties)
    (rng : Nat → Nat → F) :
    pp.ppKing false (parties.map sh) parties rng = pp.ppKing false ((List.range (4 * pp.l)).map sh) (List.range (4 * pp.l)) rng := by
  have hq : pp.Decodable false d (List.range (4 * pp.l)) := Or.inl rfl
  unfold PSS.ppKing
  have h1 := mapM_ok (g := sec) (xs := List.range N)
    (fun c hc => PSS.unpackMissing_of_shares hg false hp hd4 _ (hsh.2 c (List.mem_range.1 hc)))
  have h2 := mapM_ok (g := sec) (xs := List.range N)
    (fun c hc => PSS.unpackMissing_of_shares hg false hq hd4 _ (hsh.2 c (List.mem_range.1 hc)))
  rw [transpose_received hg hd hN hp hsh.1, transpose_received hg hd hN hq hsh.1]
  simp only [ok_bind, debugAssert, List.mapM_map, Function.comp_def]
  rw [h1, h2]
  rfl

/-- `d_pp` in a release build. -/
theorem PSS.dPp_timed {pp : PSS F} (hg : pp.Good) (hn : n = 4 * pp.l) (hn0 : 0 < n) {S : Nat → Prop} {N d : Nat} (hN : 0 < N)
    (hN64 : N + N < 2 ^ 64) (hd2 : 2 * pp.l ≤ d) (hd4 : d ≤ 4 * pp.l - 1) (hS : Suffices pp n S false d) {num den : Nat → List F} (x y : Nat → F)
    (hy : ∀ i < N * pp.l, y i ≠ 0)
    (hnum : pp.SharedVec d N num (chunks pp.l x)) (hden : pp.SharedVec d N den (chunks pp.l y))
    {mask : Nat → DegRedMask F} (hm : DegRedMasksOk pp N mask) (sid : Sid) (rng rng' : Nat → Nat → F) :
    ∃ outs : Nat → List F,
      Timed hn0 S (only sid) (fun i : Fin n => pp.dPp false n i (num i) (den i) (mask i) sid rng rng') (fun i => outs i) ∧
      pp.SharedVec (2 * pp.l) N outs (chunks pp.l (runProd x y)) := by
  have hl := hg.lpos
  have hsh := SharedVec.append hnum hden
  obtain ⟨out, hK, hol, hos⟩ := PSS.ppKing_ok hg false hN (by omega : 0 < d) hd4 x y hy hsh rng
  have hS' : Suffices pp n S false (2 * pp.l) := ⟨fun ps h1 h2 => hd2.trans (hS.degree ps h1 h2), fun h => (by cases h), hS.threshold⟩
  obtain ⟨outs, hr, ho⟩ := PSS.degRed_timed hg hn hn0 false hN (by omega : N < 2 ^ 64) le_rfl (by omega) hS' hos hm sid rng'
  refine ⟨outs, ?_, ho⟩
  refine (timed_round sid pp.t hS.threshold (fun i => num i ++ den i)
    (fun i hi => Wire.ok_list _ (by rw [hsh.1 i (by omega)]; exact hN64))
    (fun i rs => pp.ppKing false rs.shares rs.parties rng)
    (fun i => out.getD i []) ?_ (fun i hi => Wire.ok_list _ (by rw [hos.1 i (by omega)]; omega))
    (fun i hi => by rw [Wire.enc_list_length, Wire.enc_list_length, hos.1 i (by omega), hos.1 0 (by omega)])
    (fun i y => pp.degRed false n i y (mask i) sid rng') hr).congr (fun i => ?_) (fun i => rfl)
  · intro parties hr hmem
    refine ⟨out, ?_, fun i hi => by rw [List.getElem?_eq_getElem (by omega), List.getD_eq_getElem _ _ (by omega)]⟩
    dsimp only
    rw [PSS.ppKing_decodable hg (by omega) (by omega) hd4 hsh (hS.decodable hn hr hmem)]
    exact hK
  · exact PSS.dPp_eq _ _ _ _ _ _ _ _ _ _

end dpp

end ZkSaas
