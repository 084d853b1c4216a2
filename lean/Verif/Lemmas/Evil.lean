import Verif.Lemmas.Robust
import Verif.Lemmas.ExtWit

/-! The protocols of `dist-primitives` in a debug build as sessions in which one client does what it likes. -/

set_option linter.unusedSectionVars false

namespace ZkSaas

open Finset Spec

variable {F : Type} [Field F] [DecidableEq F] {n : Nat}

/-- One misbehaving party. -/
abbrev Cheater (p : Nat) : Nat → Prop := fun i => i = p

theorem Session.tryJoin3 {α β γ δ : Type} {hn : 0 < n} {bad : Nat → Prop} {ps : Fin n → Proc α} {qs : Fin n → Proc β} {us : Fin n → Proc γ}
    {rs : Fin n → α} {ss : Fin n → β} {ts : Fin n → γ} (h1 : Session hn bad (only .zero) ps rs) (h2 : Session hn bad (only .one) qs ss)
    (h3 : Session hn bad (only .two) us ts) {k : Fin n → α → β → γ → Proc δ} {out : Fin n → δ}
    (hk : Session hn bad (fun _ => True) (fun i => k i (rs i) (ss i) (ts i)) out) :
    Session hn bad (fun _ => True) (fun i => ZkSaas.tryJoin3 (ps i) (qs i) (us i) (k i)) out := by
  have h12 : Session hn bad (fun s => s = .zero ∨ s = .one) (fun i => Proc.par (ps i) (qs i) fun x y => .done (.ok (x, y)))
      fun i => (rs i, ss i) :=
    Session.par h1 h2 (fun _ h => .inl h) (fun _ h => .inr h) (by intro s h h'; rw [h] at h'; cases h') (Session.done fun i => (rs i, ss i))
  exact Session.par h12 h3 (fun _ _ => trivial) (fun _ _ => trivial)
    (by rintro s (h | h) h' <;> rw [h] at h' <;> cases h') hk

/-- The two cases of a round with one cheater. -/
theorem cheater_round {T U : Type} {pp : PSS F} (hn : n = 4 * pp.l) {d : Nat} (hd4 : d ≤ 4 * pp.l - 1) {p : Nat} {y z : Nat → T}
    (hz : ∀ i < n, ¬ Cheater p i → z i = y i) {threshold : Nat} {parties : List Nat} (hr : Responders n threshold parties)
    (hmem : ∀ i < n, ¬ Cheater p i → i ∈ parties) (K : List T → List Nat → Res U) {u : U}
    (h : K (parties.map z) parties = .ok u)
    (hfull : K ((List.range (4 * pp.l)).map z) (List.range (4 * pp.l)) = .ok u → K ((List.range (4 * pp.l)).map y) (List.range (4 * pp.l)) = .ok u)
    (hmiss : parties.length < 4 * pp.l → pp.Decodable true d parties → K (parties.map y) parties = .ok u →
      K ((List.range (4 * pp.l)).map y) (List.range (4 * pp.l)) = .ok u) :
    K ((List.range (4 * pp.l)).map y) (List.range (4 * pp.l)) = .ok u := by
  rcases hr.cheater hmem with rfl | ⟨h1, h2, h3⟩
  · rw [hn] at h; exact hfull h
  · have hd : pp.Decodable true d parties := hr.decodable hn (by omega) (fun _ => by omega)
    rw [List.map_congr_left fun i hi => hz i (hr.lt i hi) (h3 i hi)] at h
    exact hmiss (by omega) hd h

section fft
variable [FixedWire F]

theorem PSS.fft2WithRearrange_session {pp : PSS F} (hg : pp.Good) (hn : n = 4 * pp.l) (hn0 : 0 < n) {p : Nat} (hp : p ≠ 0) {a b : Nat}
    (ha : a < 64) (hlb : pp.l = 2 ^ b) {gen : F}
    (hprim : IsPrimitiveRoot gen (2 ^ (a + b))) (φ : Nat → Nat → F → F)
    (hφ : ∀ s ≥ a, ∀ j x, φ (s + 1) j x = φ s (2 * j) (x ^ 2) + x * φ s (2 * j + 1) (x ^ 2))
    {d : Nat} (hd2 : 2 * pp.l ≤ d) (hd4 : d ≤ 4 * pp.l - 1)
    {px : Nat → List F} (hpx : pp.SharedVec d (2 ^ a) px
      (fun c => (List.range (2 ^ b)).map fun j => φ a j (gen ^ (2 ^ b * (c + 1)))))
    (g : F) (rearrange : Bool) {mask : Nat → FftMask F} (hm : MasksOk pp a b rearrange g gen mask) (sid : Sid)
    (rng : Nat → Nat → F) :
    ∃ outs : Nat → List F,
      Session hn0 (Cheater p) (only sid) (fun i : Fin n => pp.fft2WithRearrange true n i (px i) (mask i) rearrange g gen sid rng)
        (fun i => outs i) ∧
      pp.SharedVec (2 * pp.l) (2 ^ a) outs (packed rearrange a b fun k => g ^ k * φ (a + b) 0 (gen ^ k)) := by
  have hl := hg.lpos
  have hbad : ¬ Cheater p 0 := fun h => hp h.symm
  obtain ⟨ψ, hψ, hin, hout⟩ := hm
  have hsum := SharedVec.add hpx (SharedVec.mono hd2 hin)
  have hsum' : pp.SharedVec d (2 ^ a) (fun p => addMask (px p) (mask p).inMask)
      (fun c => (List.range (2 ^ b)).map fun j => (φ a j (gen ^ (2 ^ b * (c + 1))) + ψ a j (gen ^ (2 ^ b * (c + 1))))) := by
    refine SharedVec.congr hsum (fun _ _ => rfl) fun c hc => ?_
    rw [List.zipWith_map_left, List.zipWith_map_right, List.zipWith_self]
  obtain ⟨out, hK, hol, hos⟩ := PSS.fft2King_ok hg true hlb hprim (fun s j x => φ s j x + ψ s j x)
    (fun s hs j x => by rw [hφ s hs, hψ s hs]; ring) (by omega : 0 < d) hd4 (Or.inl rfl : pp.Decodable true d _) hsum' g rearrange rng
  have hlen : ∀ p < 4 * pp.l, (addMask (px p) (mask p).inMask).length = 2 ^ a := hsum'.1
  have h2a : 2 ^ a < 2 ^ 64 := Nat.pow_lt_pow_right (by norm_num) ha
  refine ⟨fun p => addMask (out.getD p []) (mask p).outMask, ?_, ?_⟩
  · refine (session_round hbad sid pp.t (fun i => addMask (px i) (mask i).inMask)
      (fun i hi _ => Wire.ok_list _ (by rw [hlen i (by omega)]; exact h2a))
      (fun i rs => pp.fft2King true (addMask (px i) (mask i).inMask).length (px i).length g gen rearrange rs.shares rs.parties rng)
      (fun i => out.getD i []) ?_ (fun i hi _ => Wire.ok_list _ (by rw [hos.1 i (by omega)]; exact h2a))
      (fun i y => .done (.ok (addMask y (mask i).outMask))) (Session.done _)).congr hbad (fun i _ => rfl) (fun i _ => rfl)
    intro z hz parties hr hmem answers hans i hi _
    have := cheater_round (d := d) hn hd4 hz hr hmem
      (fun shares parties => pp.fft2King true (addMask (px 0) (mask 0).inMask).length (px 0).length g gen rearrange shares parties rng) hans (fun h => by
        rw [hlen 0 (by omega), hpx.1 0 (by omega)] at h ⊢
        exact PSS.fft2King_robust hg (Nat.two_pow_pos a) hd4 hsum' hp (fun i hi hip => hz i (by omega) hip) h)
      (fun _ hdec h => by
        rw [PSS.fft2King_missing hg true (Nat.two_pow_pos a) (by omega) hd4 hsum' hdec] at h
        exact h)
    rw [hlen 0 (by omega), hpx.1 0 (by omega), hK] at this
    cases this
    rw [List.getElem?_eq_getElem (by omega), List.getD_eq_getElem _ _ (by omega)]
  · refine SharedVec.congr (SharedVec.add hos hout) (fun _ _ => rfl) fun c hc => ?_
    rw [packed_zipWith]
    congr 1
    funext k
    ring

/-- `d_fft`. -/
theorem PSS.dFft_session {pp : PSS F} (hg : pp.Good) (hn : n = 4 * pp.l) (hn0 : 0 < n) {p : Nat} (hp : p ≠ 0) {a b : Nat}
    (ha : a < 64) (hlb : pp.l = 2 ^ b) {dom : Domain F} (hsize : dom.size = 2 ^ (a + b))
    (hprim : IsPrimitiveRoot dom.groupGen (2 ^ (a + b)))
    {d : Nat} (hd2 : 2 * pp.l ≤ d) (hd4 : d ≤ 4 * pp.l - 1)
    {sh : Nat → List F} (x : Nat → F) (hsh : pp.SharedVec d (2 ^ a) sh (packed true a b x))
    (rearrange : Bool) {mask : Nat → FftMask F} (hm : MasksOk pp a b rearrange 1 dom.groupGen mask) (sid : Sid)
    (rng : Nat → Nat → F) :
    ∃ outs : Nat → List F,
      Session hn0 (Cheater p) (only sid) (fun i : Fin n => pp.dFft true n i (sh i) (mask i) rearrange dom sid rng) (fun i => outs i) ∧
      pp.SharedVec (2 * pp.l) (2 ^ a) outs
        (packed rearrange a b fun k => ∑ u ∈ range (2 ^ (a + b)), (dom.groupGen ^ k) ^ u * x u) := by
  have hbad : ¬ Cheater p 0 := fun h => hp h.symm
  obtain ⟨px, e1, hpx⟩ := PSS.fft1_shared hlb hprim x hsh
  obtain ⟨outs, hr, ho⟩ := PSS.fft2WithRearrange_session hg hn hn0 hp ha hlb hprim
    (bp (fun i => x (bitRev (a + b) i))) (fun _ _ _ _ => rfl) hd2 hd4 hpx 1 rearrange hm sid rng
  refine ⟨outs, ?_, ?_⟩
  · refine hr.congr hbad (fun i _ => ?_) fun _ _ => rfl
    have hi : i.val < 4 * pp.l := by omega
    unfold PSS.dFft
    rw [debugAssert_of (by rw [hsh.1 i hi, hlb, hsize, pow_add]; simp), e1 i hi]
    rfl
  · refine SharedVec.congr ho (fun _ _ => rfl) fun c hc => ?_
    congr 1
    funext k
    rw [bp_top, one_pow, one_mul]

/-- `d_ifft`. -/
theorem PSS.dIfft_session {pp : PSS F} (hg : pp.Good) (hn : n = 4 * pp.l) (hn0 : 0 < n) {p : Nat} (hp : p ≠ 0) {a b : Nat}
    (ha : a < 64) (hlb : pp.l = 2 ^ b) {dom : Domain F} (hsize : dom.size = 2 ^ (a + b))
    (hprim : IsPrimitiveRoot dom.groupGenInv (2 ^ (a + b)))
    {d : Nat} (hd2 : 2 * pp.l ≤ d) (hd4 : d ≤ 4 * pp.l - 1)
    {sh : Nat → List F} (x : Nat → F) (hsh : pp.SharedVec d (2 ^ a) sh (packed true a b x)) (g : F)
    (rearrange : Bool) {mask : Nat → FftMask F} (hm : MasksOk pp a b rearrange g dom.groupGenInv mask) (sid : Sid)
    (rng : Nat → Nat → F) :
    ∃ outs : Nat → List F,
      Session hn0 (Cheater p) (only sid) (fun i : Fin n => pp.dIfft true n i (sh i) (mask i) rearrange dom g sid rng) (fun i => outs i) ∧
      pp.SharedVec (2 * pp.l) (2 ^ a) outs
        (packed rearrange a b fun k => g ^ k * ∑ u ∈ range (2 ^ (a + b)), (dom.groupGenInv ^ k) ^ u * (x u * dom.sizeInv)) := by
  have hbad : ¬ Cheater p 0 := fun h => hp h.symm
  have hsh' : pp.SharedVec d (2 ^ a) (fun p => (sh p).map fun z => z * dom.sizeInv) (packed true a b fun i => x i * dom.sizeInv) :=
    SharedVec.congr (SharedVec.scale hsh dom.sizeInv) (fun _ _ => rfl) fun c hc => packed_smul _ _ _ _ _ _
  obtain ⟨px, e1, hpx⟩ := PSS.fft1_shared hlb hprim _ hsh'
  obtain ⟨outs, hr, ho⟩ := PSS.fft2WithRearrange_session hg hn hn0 hp ha hlb hprim
    (bp (fun i => (fun i => x i * dom.sizeInv) (bitRev (a + b) i))) (fun _ _ _ _ => rfl) hd2 hd4 hpx g rearrange hm sid rng
  refine ⟨outs, ?_, ?_⟩
  · refine hr.congr hbad (fun i _ => ?_) fun _ _ => rfl
    have hi : i.val < 4 * pp.l := by omega
    unfold PSS.dIfft
    have e := e1 i hi
    rw [debugAssert_of (by rw [hsh.1 i hi, hlb, hsize, pow_add]; simp)]
    dsimp only
    rw [e]
    rfl
  · refine SharedVec.congr ho (fun _ _ => rfl) fun c hc => ?_
    congr 1
    funext k
    rw [bp_top fun i => x i * dom.sizeInv]

end fft

section degred
variable {T : Type} [AddCommGroup T] [Module F T] [DecidableEq T] [FixedWire T]

/-- `deg_red`. -/
theorem PSS.degRed_session {pp : PSS F} (hg : pp.Good) (hn : n = 4 * pp.l) (hn0 : 0 < n) {p : Nat} (hp : p ≠ 0) {d N : Nat} (hN : 0 < N)
    (hN64 : N < 2 ^ 64) (hd2 : 2 * pp.l ≤ d) (hd4 : d ≤ 4 * pp.l - 1) {sh sec : Nat → List T}
    (hsh : pp.SharedVec d N sh sec) {mask : Nat → DegRedMask T} (hm : DegRedMasksOk pp N mask) (sid : Sid)
    (rng : Nat → Nat → T) :
    ∃ outs : Nat → List T,
      Session hn0 (Cheater p) (only sid) (fun i : Fin n => pp.degRed true n i (sh i) (mask i) sid rng) (fun i => outs i) ∧
      pp.SharedVec (2 * pp.l) N outs sec := by
  have hl := hg.lpos
  have hbad : ¬ Cheater p 0 := fun h => hp h.symm
  obtain ⟨v, hin, hout⟩ := hm
  have hsum := SharedVec.add hsh (SharedVec.mono hd2 hin)
  obtain ⟨out, hK, hol, hos⟩ := PSS.degRedKing_ok hg true hN (by omega : 0 < d) hd4 (Or.inl rfl : pp.Decodable true d _) hsum rng
  refine ⟨fun p => addMask (out.getD p []) (mask p).outMask, ?_, ?_⟩
  · refine (session_round hbad sid pp.t (fun i => addMask (sh i) (mask i).inMask)
      (fun i hi _ => Wire.ok_list _ (by rw [hsum.1 i (by omega)]; exact hN64))
      (fun i rs => pp.degRedKing true rs.shares rs.parties rng)
      (fun i => out.getD i []) ?_ (fun i hi _ => Wire.ok_list _ (by rw [hos.1 i (by omega)]; exact hN64))
      (fun i y => .done (.ok (addMask y (mask i).outMask))) (Session.done _)).congr hbad (fun i _ => ?_) (fun i _ => rfl)
    · intro z hz parties hr hmem answers hans i hi _
      have := cheater_round (d := d) hn hd4 hz hr hmem (fun shares parties => pp.degRedKing true shares parties rng) hans
        (PSS.degRedKing_robust hg hN hd4 hsum hp (fun i hi hip => hz i (by omega) hip))
        (fun _ hdec h => by
          rw [PSS.degRedKing_missing hg true hN (by omega) hd4 hsum hdec] at h
          exact h)
      rw [hK] at this
      cases this
      rw [List.getElem?_eq_getElem (by omega), List.getD_eq_getElem _ _ (by omega)]
    · have hi : i.val < 4 * pp.l := by omega
      unfold PSS.degRed
      rw [debugAssert_of (by rw [hsh.1 i hi, hin.1 i hi]; simp), debugAssert_of (by rw [hsh.1 i hi, hout.1 i hi]; simp)]
      rfl
  · refine SharedVec.congr (SharedVec.add hos hout) (fun _ _ => rfl) fun c hc => ?_
    exact zipWith_add_neg _ _ (by rw [(hsh.2 c hc).2.1, (hin.2 c hc).2.1])

end degred

section dmsm
variable {G : Type} [AddCommGroup G] [Module F G] [DecidableEq G] [FixedWire G]

/-- `d_msm`. -/
theorem PSS.dMsm_session {pp : PSS F} (hg : pp.Good) (hn : n = 4 * pp.l) (hn0 : 0 < n) {p : Nat} (hp : p ≠ 0) {N d1 d2 : Nat}
    (hd2 : 2 * pp.l ≤ d2 + d1 - 1) (hd4 : d2 + d1 - 1 ≤ 4 * pp.l - 1) {bs bsec : Nat → List G} {ss ssec : Nat → List F}
    (hb : pp.SharedVec d1 N bs bsec) (hs : pp.SharedVec d2 N ss ssec) {mask : Nat → MsmMask G} (hm : MsmMasksOk pp mask)
    (sid : Sid) :
    ∃ outs : Nat → G,
      Session hn0 (Cheater p) (only sid) (fun i : Fin n => pp.dMsm true n i (bs i) (ss i) (mask i) sid) (fun i => outs i) ∧
      pp.Shares (2 * pp.l) ((List.range (4 * pp.l)).map outs)
        (List.replicate pp.l (∑ k ∈ range pp.l, ∑ c ∈ range N, (ssec c).getD k 0 • (bsec c).getD k 0)) := by
  have hl := hg.lpos
  have hbad : ¬ Cheater p 0 := fun h => hp h.symm
  obtain ⟨c, e1, hc⟩ := msm_shared hb hs
  obtain ⟨v, hin, hout⟩ := hm
  have hsum := Shares.add hc (Shares.mono hd2 hin)
  rw [List.zipWith_map_left, List.zipWith_map_right, List.zipWith_self] at hsum
  have hK := PSS.msmKing_ok hg true n hd4 (Or.inl rfl : pp.Decodable true (d2 + d1 - 1) _) hsum
  rw [sum_zipWith_add _ _ (by simp [hin.2.1]), sum_map_range] at hK
  set tot := ∑ k ∈ range pp.l, ∑ c ∈ range N, (ssec c).getD k 0 • (bsec c).getD k 0
  refine ⟨fun p => (tot + v.sum) + (mask p).outMask, ?_, ?_⟩
  · refine (session_round hbad sid pp.t (fun i => c i + (mask i).inMask) (fun i hi _ => Wire.ok_fixed _)
      (fun i rs => pp.msmKing true n rs.shares rs.parties) (fun i => tot + v.sum) ?_
      (fun i hi _ => Wire.ok_fixed _)
      (fun i y => .done (.ok (y + (mask i).outMask))) (Session.done _)).congr hbad (fun i _ => ?_) (fun i _ => rfl)
    · intro z hz parties hr hmem answers hans i hi _
      have := cheater_round (d := d2 + d1 - 1) hn hd4 hz hr hmem (fun shares parties => pp.msmKing true n shares parties) hans
        (PSS.msmKing_robust hg hd4 hsum (p := p) (fun i hi hip => hz i (by omega) hip))
        (fun _ hdec h => by
          rw [PSS.msmKing_ok hg true n hd4 hdec hsum] at h
          rw [PSS.msmKing_ok hg true n hd4 (Or.inl rfl : pp.Decodable true (d2 + d1 - 1) _) hsum]
          exact h)
      rw [hK] at this
      cases this
      simp [hi]
    · have hi : i.val < 4 * pp.l := by omega
      unfold PSS.dMsm
      rw [debugAssert_of (by rw [hb.1 i hi, hs.1 i hi]; simp), e1 i hi]
      rfl
  · exact msm_unmask (v := v) hg tot hout

end dmsm

section dpp
variable [FixedWire F]

/-- `d_pp`. -/
theorem PSS.dPp_session {pp : PSS F} (hg : pp.Good) (hn : n = 4 * pp.l) (hn0 : 0 < n) {p : Nat} (hp : p ≠ 0) {N d : Nat} (hN : 0 < N)
    (hN64 : N + N < 2 ^ 64) (hd : 0 < d) (hd4 : d ≤ 4 * pp.l - 1) {num den : Nat → List F} (x y : Nat → F)
    (hy : ∀ i < N * pp.l, y i ≠ 0)
    (hnum : pp.SharedVec d N num (chunks pp.l x)) (hden : pp.SharedVec d N den (chunks pp.l y))
    {mask : Nat → DegRedMask F} (hm : DegRedMasksOk pp N mask) (sid : Sid) (rng rng' : Nat → Nat → F) :
    ∃ outs : Nat → List F,
      Session hn0 (Cheater p) (only sid) (fun i : Fin n => pp.dPp true n i (num i) (den i) (mask i) sid rng rng') (fun i => outs i) ∧
      pp.SharedVec (2 * pp.l) N outs (chunks pp.l (runProd x y)) := by
  have hl := hg.lpos
  have hbad : ¬ Cheater p 0 := fun h => hp h.symm
  have hsh := SharedVec.append hnum hden
  obtain ⟨out, hK, hol, hos⟩ := PSS.ppKing_ok hg true hN hd hd4 x y hy hsh rng
  obtain ⟨outs, hr, ho⟩ := PSS.degRed_session hg hn hn0 hp hN (by omega : N < 2 ^ 64) le_rfl (by omega) hos hm sid rng'
  refine ⟨outs, ?_, ho⟩
  refine (session_round hbad sid pp.t (fun i => num i ++ den i)
    (fun i hi _ => Wire.ok_list _ (by rw [hsh.1 i (by omega)]; exact hN64))
    (fun i rs => pp.ppKing true rs.shares rs.parties rng)
    (fun i => out.getD i []) ?_ (fun i hi _ => Wire.ok_list _ (by rw [hos.1 i (by omega)]; omega))
    (fun i y => pp.degRed true n i y (mask i) sid rng') hr).congr hbad (fun i _ => ?_) (fun i _ => rfl)
  · intro z hz parties hr hmem answers hans i hi _
    have := cheater_round (d := d) hn hd4 hz hr hmem (fun shares parties => pp.ppKing true shares parties rng) hans
      (PSS.ppKing_robust hg (by omega : 0 < N + N) hd4 hsh hp (fun i hi hip => hz i (by omega) hip))
      (fun hlt _ h => by
        rw [PSS.ppKing_missing hg (by simpa using hlt)] at h
        cases h)
    rw [hK] at this
    cases this
    rw [List.getElem?_eq_getElem (by omega), List.getD_eq_getElem _ _ (by omega)]
  · exact PSS.dPp_eq _ _ _ _ _ _ _ _ _ _

end dpp

end ZkSaas
