import Verif.Lemmas.Traffic
import Verif.Properties.Volume
import Verif.Properties.Latency
import Verif.Properties.Reuse

/-!
# C90: who watches only the traffic learns nothing about the inputs
-/

set_option linter.unusedSectionVars false

namespace ZkSaas.Properties

open Finset Spec Polynomial

variable {n : Nat} {α β : Type}

/-- **C90** The messages on every link and stream do not depend on the schedule: whenever a protocol always succeeds, any two complete
executions have sent exactly the same messages in the same order from each party to each other on each stream, and any other execution
the first ones of them. -/
theorem C90_same_messages {ps : Fin n → Proc α} {S : Sid → Prop} (hwf : ∀ i, (ps i).WF S) {rs : Fin n → α} (hy : AlwaysYields (Net.init ps) rs)
    {tr tr' : List (Nat × Act)} {c c' : Net n α} (h : Trace tr (Net.init ps) c) (hnf : ∀ e ∈ tr, e.2 ≠ .fault)
    (h' : Trace tr' (Net.init ps) c') (hnf' : ∀ e ∈ tr', e.2 ≠ .fault) (hd : ∀ i, ∃ v, c'.procs i = .done (.ok v)) (i j : Nat) (sid : Sid) :
    sentOn tr i j sid <+: sentOn tr' i j sid ∧ ((∀ i, ∃ v, c.procs i = .done (.ok v)) → sentOn tr i j sid = sentOn tr' i j sid) :=
  h'.sentOn_prefix (fun i => ⟨S, hwf i⟩) (h'.core hy hnf') hd h (h.core hy hnf) i j sid

/-- The lengths, and that two protocols with one schedule and one message size look alike. -/
theorem traffic_pair {m : Nat} {R : Sid → Nat} {S : Sched} {ps : Fin n → Proc α} {qs : Fin n → Proc β} {rs : Fin n → α} {ss : Fin n → β}
    (hp : Runs (Sized m) (fun _ => True) ps rs) (hq : Runs (Sized m) (fun _ => True) qs ss) (hwp : ∀ i, (ps i).WF fun _ => True)
    (hwq : ∀ i, (qs i).WF fun _ => True) (hrp : ∀ i, (ps i).Rounds n i R) (hrq : ∀ i, (qs i).Rounds n i R)
    (hfp : ∀ i : Fin n, Follows n i S (ps i)) (hfq : ∀ i : Fin n, Follows n i S (qs i)) {up : Sid → List Nat}
    (hu : ∀ s, up s = List.replicate (R s) m) :
    SendsLengths (Net.init ps) (starLengths n up up) ∧ SameTraffic (Net.init ps) (Net.init qs) := by
  obtain rfl : up = fun s => List.replicate (R s) m := funext hu
  have l1 := (hp.runsT hrp).sendsLengths hwp (hp.alwaysYields hwp)
  have l2 := (hq.runsT hrq).sendsLengths hwq (hq.alwaysYields hwq)
  exact ⟨l1, sameTraffic hfp hfq (hp.alwaysYields hwp) (hq.alwaysYields hwq) l1 l2⟩

/-- One message of length `m` on stream `sid`. -/
theorem replicate_once (sid : Sid) (m : Nat) (s : Sid) : (if s = sid then [m] else []) = List.replicate (once sid s) m := by
  unfold once; split_ifs <;> rfl

variable {F : Type} [Field F] [DecidableEq F] [FftField F] [FixedWire F]

/-- **C90** `d_fft`: each client sends one vector of `2^a` elements and receives one, and nothing else can be seen: neither the inputs,
nor the masks, nor the layout asked for. -/
theorem C90_d_fft {dbg₀ : Bool} {b : Nat} {pp : PSS F} (hpp : PSS.new dbg₀ (2 ^ b) = .ok pp) (dbg : Bool) (a : Nat) (ha : a < 64)
    {dom : Domain F} (hdom : Domain.new (2 ^ (a + b)) = some dom) (sh sh' : Nat → List F) (coeffs coeffs' : List F)
    (hsh : HoldsInput pp a b sh coeffs) (hsh' : HoldsInput pp a b sh' coeffs') (rearrange rearrange' : Bool) (masks masks' : Nat → FftMask F)
    (hm : IsFftMasks pp rearrange 1 dom.groupGen (2 ^ (a + b)) masks) (hm' : IsFftMasks pp rearrange' 1 dom.groupGen (2 ^ (a + b)) masks')
    (sid : Sid) (rng rng' : Nat → Nat → F) :
    SendsLengths (Net.init fun i : Fin (4 * 2 ^ b) => pp.dFft dbg (4 * 2 ^ b) i (sh i) (masks i) rearrange dom sid rng)
      (starLengths (4 * 2 ^ b) (fun s => if s = sid then [8 + 2 ^ a * FixedWire.width F] else [])
        fun s => if s = sid then [8 + 2 ^ a * FixedWire.width F] else []) ∧
    SameTraffic (Net.init fun i : Fin (4 * 2 ^ b) => pp.dFft dbg (4 * 2 ^ b) i (sh i) (masks i) rearrange dom sid rng)
      (Net.init fun i : Fin (4 * 2 ^ b) => pp.dFft dbg (4 * 2 ^ b) i (sh' i) (masks' i) rearrange' dom sid rng') := by
  obtain ⟨outs, hr, -⟩ := dFft_runs hpp dbg a ha hdom hsh rearrange hm sid rng
  obtain ⟨outs', hr', -⟩ := dFft_runs hpp dbg a ha hdom hsh' rearrange' hm' sid rng'
  exact traffic_pair (R := once sid) (S := .trip (4 * 2 ^ b) sid) (hr.mono fun _ _ => trivial) (hr'.mono fun _ _ => trivial)
    (fun i => (PSS.dFft_wf _ (four_pos b) _ _ _ _ _ _ _).mono fun _ _ => trivial)
    (fun i => (PSS.dFft_wf _ (four_pos b) _ _ _ _ _ _ _).mono fun _ _ => trivial) (fun i => pp.dFft_rounds ..) (fun i => pp.dFft_rounds ..)
    (fun i => pp.dFft_follows dbg i.2 ..) (fun i => pp.dFft_follows dbg i.2 ..) (replicate_once sid _)

/-- **C90** `d_ifft`: the same, and the shift of the coset cannot be seen either. -/
theorem C90_d_ifft {dbg₀ : Bool} {b : Nat} {pp : PSS F} (hpp : PSS.new dbg₀ (2 ^ b) = .ok pp) (dbg : Bool) (a : Nat) (ha : a < 64)
    {dom : Domain F} (hdom : Domain.new (2 ^ (a + b)) = some dom) (sh sh' : Nat → List F) (evals evals' : List F)
    (hsh : HoldsInput pp a b sh evals) (hsh' : HoldsInput pp a b sh' evals') (g g' : F) (rearrange rearrange' : Bool)
    (masks masks' : Nat → FftMask F) (hm : IsFftMasks pp rearrange g dom.groupGenInv (2 ^ (a + b)) masks)
    (hm' : IsFftMasks pp rearrange' g' dom.groupGenInv (2 ^ (a + b)) masks') (sid : Sid) (rng rng' : Nat → Nat → F) :
    SendsLengths (Net.init fun i : Fin (4 * 2 ^ b) => pp.dIfft dbg (4 * 2 ^ b) i (sh i) (masks i) rearrange dom g sid rng)
      (starLengths (4 * 2 ^ b) (fun s => if s = sid then [8 + 2 ^ a * FixedWire.width F] else [])
        fun s => if s = sid then [8 + 2 ^ a * FixedWire.width F] else []) ∧
    SameTraffic (Net.init fun i : Fin (4 * 2 ^ b) => pp.dIfft dbg (4 * 2 ^ b) i (sh i) (masks i) rearrange dom g sid rng)
      (Net.init fun i : Fin (4 * 2 ^ b) => pp.dIfft dbg (4 * 2 ^ b) i (sh' i) (masks' i) rearrange' dom g' sid rng') := by
  obtain ⟨outs, hr, -⟩ := dIfft_runs hpp dbg a ha hdom hsh g rearrange hm sid rng
  obtain ⟨outs', hr', -⟩ := dIfft_runs hpp dbg a ha hdom hsh' g' rearrange' hm' sid rng'
  exact traffic_pair (R := once sid) (S := .trip (4 * 2 ^ b) sid) (hr.mono fun _ _ => trivial) (hr'.mono fun _ _ => trivial)
    (fun i => (PSS.dIfft_wf _ (four_pos b) _ _ _ _ _ _ _ _).mono fun _ _ => trivial)
    (fun i => (PSS.dIfft_wf _ (four_pos b) _ _ _ _ _ _ _ _).mono fun _ _ => trivial) (fun i => pp.dIfft_rounds ..) (fun i => pp.dIfft_rounds ..)
    (fun i => pp.dIfft_follows dbg i.2 ..) (fun i => pp.dIfft_follows dbg i.2 ..) (replicate_once sid _)

/-- **C90** `deg_red` of `N` positions: one vector of `N` elements in each direction, whatever the secrets and the degrees. -/
theorem C90_deg_red {T : Type} [AddCommGroup T] [Module F T] [DecidableEq T] [FixedWire T] {dbg₀ : Bool} {b : Nat} {pp : PSS F}
    (hpp : PSS.new dbg₀ (2 ^ b) = .ok pp) (dbg : Bool) {N d d' : Nat} (hN : 0 < N) (hN64 : N < 2 ^ 64) (hd2 : 2 * 2 ^ b ≤ d)
    (hd4 : d ≤ 4 * 2 ^ b - 1) (hd2' : 2 * 2 ^ b ≤ d') (hd4' : d' ≤ 4 * 2 ^ b - 1) (sh sh' sec sec' : Nat → List T)
    (hsh : Spec.SharedVec pp.share.groupGen pp.secret.offset (2 ^ b) d N sh sec)
    (hsh' : Spec.SharedVec pp.share.groupGen pp.secret.offset (2 ^ b) d' N sh' sec')
    (masks masks' : Nat → DegRedMask T) (hm : IsDegRedMasks pp N masks) (hm' : IsDegRedMasks pp N masks') (sid : Sid) (rng rng' : Nat → Nat → T) :
    SendsLengths (Net.init fun i : Fin (4 * 2 ^ b) => pp.degRed dbg (4 * 2 ^ b) i (sh i) (masks i) sid rng)
      (starLengths (4 * 2 ^ b) (fun s => if s = sid then [8 + N * FixedWire.width T] else [])
        fun s => if s = sid then [8 + N * FixedWire.width T] else []) ∧
    SameTraffic (Net.init fun i : Fin (4 * 2 ^ b) => pp.degRed dbg (4 * 2 ^ b) i (sh i) (masks i) sid rng)
      (Net.init fun i : Fin (4 * 2 ^ b) => pp.degRed dbg (4 * 2 ^ b) i (sh' i) (masks' i) sid rng') := by
  have hle := l_eq hpp
  have hg := PSS.good_of_new hpp
  rw [← hle] at hsh hsh' hd2 hd4 hd2' hd4'
  obtain ⟨outs, hr, -⟩ := PSS.degRed_runs (n := 4 * 2 ^ b) hg dbg (by rw [hle]) hN hN64 hd2 hd4 hsh (hm.ok hpp hN) sid rng
  obtain ⟨outs', hr', -⟩ := PSS.degRed_runs (n := 4 * 2 ^ b) hg dbg (by rw [hle]) hN hN64 hd2' hd4' hsh' (hm'.ok hpp hN) sid rng'
  exact traffic_pair (R := once sid) (S := .trip (4 * 2 ^ b) sid) (hr.mono fun _ _ => trivial) (hr'.mono fun _ _ => trivial)
    (fun i => (PSS.degRed_wf _ (four_pos b) _ _ _ _ _).mono fun _ _ => trivial)
    (fun i => (PSS.degRed_wf _ (four_pos b) _ _ _ _ _).mono fun _ _ => trivial) (fun i => pp.degRed_rounds ..) (fun i => pp.degRed_rounds ..)
    (fun i => pp.degRed_follows dbg i.2 ..) (fun i => pp.degRed_follows dbg i.2 ..) (replicate_once sid _)

/-- **C90** `d_msm`: one group element in each direction; not even the lengths of the vectors can be seen. -/
theorem C90_d_msm {G : Type} [AddCommGroup G] [Module F G] [DecidableEq G] [FixedWire G] {dbg₀ : Bool} {b : Nat} {pp : PSS F}
    (hpp : PSS.new dbg₀ (2 ^ b) = .ok pp) (dbg : Bool) {N N' : Nat} (bs bsec bs' bsec' : Nat → List G) (ss ssec ss' ssec' : Nat → List F)
    (hb : Spec.SharedVec pp.share.groupGen pp.secret.offset (2 ^ b) (2 * 2 ^ b) N bs bsec)
    (hs : Spec.SharedVec pp.share.groupGen pp.secret.offset (2 ^ b) (2 * 2 ^ b) N ss ssec)
    (hb' : Spec.SharedVec pp.share.groupGen pp.secret.offset (2 ^ b) (2 * 2 ^ b) N' bs' bsec')
    (hs' : Spec.SharedVec pp.share.groupGen pp.secret.offset (2 ^ b) (2 * 2 ^ b) N' ss' ssec')
    (masks masks' : Nat → MsmMask G) (hm : IsMsmMasks pp masks) (hm' : IsMsmMasks pp masks') (sid : Sid) :
    SendsLengths (Net.init fun i : Fin (4 * 2 ^ b) => pp.dMsm dbg (4 * 2 ^ b) i (bs i) (ss i) (masks i) sid)
      (starLengths (4 * 2 ^ b) (fun s => if s = sid then [FixedWire.width G] else []) fun s => if s = sid then [FixedWire.width G] else []) ∧
    SameTraffic (Net.init fun i : Fin (4 * 2 ^ b) => pp.dMsm dbg (4 * 2 ^ b) i (bs i) (ss i) (masks i) sid)
      (Net.init fun i : Fin (4 * 2 ^ b) => pp.dMsm dbg (4 * 2 ^ b) i (bs' i) (ss' i) (masks' i) sid) := by
  have hle := l_eq hpp
  have hg := PSS.good_of_new hpp
  have hl := hg.lpos
  rw [← hle] at hb hs hb' hs'
  obtain ⟨outs, hr, -⟩ := PSS.dMsm_runs (n := 4 * 2 ^ b) hg dbg (by rw [hle]) (by omega) (by omega) hb hs (hm.ok hpp) sid
  obtain ⟨outs', hr', -⟩ := PSS.dMsm_runs (n := 4 * 2 ^ b) hg dbg (by rw [hle]) (by omega) (by omega) hb' hs' (hm'.ok hpp) sid
  exact traffic_pair (R := once sid) (S := .trip (4 * 2 ^ b) sid) (hr.mono fun _ _ => trivial) (hr'.mono fun _ _ => trivial)
    (fun i => (PSS.dMsm_wf _ (four_pos b) _ _ _ _ _).mono fun _ _ => trivial)
    (fun i => (PSS.dMsm_wf _ (four_pos b) _ _ _ _ _).mono fun _ _ => trivial) (fun i => pp.dMsm_rounds ..) (fun i => pp.dMsm_rounds ..)
    (fun i => pp.dMsm_follows dbg i.2 ..) (fun i => pp.dMsm_follows dbg i.2 ..) (replicate_once sid _)

/-- The lengths of the messages of `d_pp`. -/
theorem dPp_lengths {dbg₀ : Bool} {b : Nat} {pp : PSS F} (hpp : PSS.new dbg₀ (2 ^ b) = .ok pp) (dbg : Bool) {N : Nat}
    (hN : 0 < N) (hN64 : N + N < 2 ^ 64) (num den : List F) (hnum : num.length = N * 2 ^ b) (hden : den.length = N * 2 ^ b)
    (h0 : ∀ y ∈ den, y ≠ 0) (masks : Nat → DegRedMask F) (hm : IsDegRedMasks pp N masks) (sid : Sid)
    (rngn rngd rng rng' : Nat → Nat → F) :
    ∃ (sn sd : List (List F)) (outs : Nat → List F),
      (do let rows ← pp.packVec dbg num rngn; transpose rows) = .ok sn ∧
      (do let rows ← pp.packVec dbg den rngd; transpose rows) = .ok sd ∧
      AlwaysYields (Net.init fun i : Fin (4 * 2 ^ b) => pp.dPp dbg (4 * 2 ^ b) i (sn.getD i []) (sd.getD i []) (masks i) sid rng rng')
        (fun i => outs i) ∧
      SendsLengths (Net.init fun i : Fin (4 * 2 ^ b) => pp.dPp dbg (4 * 2 ^ b) i (sn.getD i []) (sd.getD i []) (masks i) sid rng rng')
        (starLengths (4 * 2 ^ b) (fun s => if s = sid then [8 + 2 * N * FixedWire.width F, 8 + N * FixedWire.width F] else [])
          fun s => if s = sid then [8 + N * FixedWire.width F, 8 + N * FixedWire.width F] else []) := by
  have hle := l_eq hpp
  have hg := PSS.good_of_new hpp
  have hl := hg.lpos
  have hn0 : 0 < 4 * 2 ^ b := four_pos b
  obtain ⟨sn, sd, outs, en, ed, hy, -⟩ := C26_d_pp hpp dbg hN hN64 num den hnum hden h0 masks hm sid rngn rngd rng rng'
  refine ⟨sn, sd, outs, en, ed, hy, ?_⟩
  obtain ⟨sn', en', hsn⟩ := deal hpp dbg hN num hnum rngn
  obtain ⟨sd', ed', hsd⟩ := deal hpp dbg hN den hden rngd
  rw [en] at en'; cases en'
  rw [ed] at ed'; cases ed'
  rw [← hle] at hsn hsd
  have hsh := SharedVec.append hsn hsd
  obtain ⟨out, hK, hol, hos⟩ := PSS.ppKing_ok hg dbg hN (by omega) (by omega) (fun i => num.getD i 0) (fun i => den.getD i 0)
      (fun i hi => by
        rw [hle] at hi
        rw [List.getD_eq_getElem _ _ (by omega)]
        exact h0 _ (List.getElem_mem _)) hsh rng
  obtain ⟨outs', hr, -⟩ := PSS.degRed_runs (n := 4 * 2 ^ b) hg dbg (by rw [hle]) hN (by omega : N < 2 ^ 64) le_rfl (by omega) hos (hm.ok hpp hN) sid rng'
  have hT := (hr.mono fun _ _ => trivial).runsT (R := once sid) fun i => pp.degRed_rounds ..
  have hx : ∀ i < 4 * 2 ^ b, Wire.Ok (sn.getD i [] ++ sd.getD i []) ∧ (Wire.enc (sn.getD i [] ++ sd.getD i [])).length =
      8 + 2 * N * FixedWire.width F := fun i hi => by
    have := hsh.1 i (by rw [hle]; exact hi)
    exact ⟨Wire.ok_list _ (by rw [this]; exact hN64), by rw [Wire.enc_list_length, this, two_mul]⟩
  have hans : ∀ i < 4 * 2 ^ b, Wire.Ok (out.getD i []) ∧ (Wire.enc (out.getD i [])).length = 8 + N * FixedWire.width F := fun i hi => by
    have := hos.1 i (by rw [hle]; exact hi)
    exact ⟨Wire.ok_list _ (by rw [this]; omega), by rw [Wire.enc_list_length, this]⟩
  have hK' : pp.ppKing dbg ((List.range (4 * 2 ^ b)).map fun i => sn.getD i [] ++ sd.getD i []) (List.range (4 * 2 ^ b)) rng =
      .ok ((List.range (4 * 2 ^ b)).map fun i => out.getD i []) := by rw [← hle, hK, map_getD_range _ _ hol]
  have h := runsB_round hn0 sid pp.t (fun i => sn.getD i [] ++ sd.getD i []) (8 + 2 * N * FixedWire.width F) hx
    (fun i rs => pp.ppKing dbg rs.shares rs.parties rng) (fun i => out.getD i []) (8 + N * FixedWire.width F) hK' hans
    (fun i y => Proc.done (.ok y)) (RunsB.done fun i : Fin (4 * 2 ^ b) => out.getD i [])
  rw [add_zero, add_zero] at h
  have hr1 := runs_round (P := All) hn0 sid pp.t (fun i => sn.getD i [] ++ sd.getD i []) (fun i hi => (hx i hi).1)
    (fun i rs => pp.ppKing dbg rs.shares rs.parties rng) (fun i => out.getD i []) (8 + N * FixedWire.width F) hK' hans
    (fun i y => Proc.done (.ok y)) (Runs.done fun i : Fin (4 * 2 ^ b) => out.getD i [])
  have hrd := fun i : Fin (4 * 2 ^ b) => round_rounds (4 * 2 ^ b) i (sn.getD i [] ++ sd.getD i []) sid pp.t
    (kingDo fun rs : ReceivedShares (List F) => pp.ppKing dbg rs.shares rs.parties rng) (fun y : List F => pure y) (fun _ => .ok _ _ _)
    (add_zero_rounds _)
  have hex := h.exchanges hn0 (R := fun _ => once sid) (fun i => (round_wf hn0 sid _ _ _ _ _ fun _ => .done _ _).mono fun _ _ => trivial)
    hrd fun i j hj => round_unheard hj _ sid pp.t _ (fun y => pure y) fun _ => .done _
  have hB := RunsT.bind (f := fun i y => pp.degRed dbg (4 * 2 ^ b) i y (masks i) sid rng') (runsT_once hr1 hrd hex) hT
  obtain ⟨tr, t1, t2, t3⟩ := hB.congr
    (ps' := fun i : Fin (4 * 2 ^ b) => pp.dPp dbg (4 * 2 ^ b) i (sn.getD i []) (sd.getD i []) (masks i) sid rng rng')
    (fun i => by rw [PSS.dPp_eq]; simp only [Proc.bind_assoc]; rfl) (fun _ => rfl)
    (up' := fun s => if s = sid then [8 + 2 * N * FixedWire.width F, 8 + N * FixedWire.width F] else [])
    (down' := fun s => if s = sid then [8 + N * FixedWire.width F, 8 + N * FixedWire.width F] else [])
    (fun s => by rw [← replicate_once]; split_ifs <;> rfl) fun s => by rw [← replicate_once]; split_ifs <;> rfl
  exact sendsLengths_of_trace hy (fun i => ⟨_, PSS.dPp_wf _ hn0 _ _ _ _ _ _ _⟩) t1 t2 (fun i => ⟨_, rfl⟩) t3

/-- **C90** `d_pp` of `N` chunks: two round trips, the first with numerators and denominators. -/
theorem C90_d_pp {dbg₀ : Bool} {b : Nat} {pp : PSS F} (hpp : PSS.new dbg₀ (2 ^ b) = .ok pp) (dbg : Bool) {N : Nat}
    (hN : 0 < N) (hN64 : N + N < 2 ^ 64) (num num' den den' : List F) (hnum : num.length = N * 2 ^ b) (hden : den.length = N * 2 ^ b)
    (hnum' : num'.length = N * 2 ^ b) (hden' : den'.length = N * 2 ^ b) (h0 : ∀ y ∈ den, y ≠ 0) (h0' : ∀ y ∈ den', y ≠ 0)
    (masks masks' : Nat → DegRedMask F) (hm : IsDegRedMasks pp N masks) (hm' : IsDegRedMasks pp N masks') (sid : Sid)
    (rngn rngd rng₁ rng₂ rngn' rngd' rng₁' rng₂' : Nat → Nat → F) :
    ∃ sn sd sn' sd' : List (List F),
      (do let rows ← pp.packVec dbg num rngn; transpose rows) = .ok sn ∧
      (do let rows ← pp.packVec dbg den rngd; transpose rows) = .ok sd ∧
      (do let rows ← pp.packVec dbg num' rngn'; transpose rows) = .ok sn' ∧
      (do let rows ← pp.packVec dbg den' rngd'; transpose rows) = .ok sd' ∧
      SendsLengths (Net.init fun i : Fin (4 * 2 ^ b) => pp.dPp dbg (4 * 2 ^ b) i (sn.getD i []) (sd.getD i []) (masks i) sid rng₁ rng₂)
        (starLengths (4 * 2 ^ b) (fun s => if s = sid then [8 + 2 * N * FixedWire.width F, 8 + N * FixedWire.width F] else [])
          fun s => if s = sid then [8 + N * FixedWire.width F, 8 + N * FixedWire.width F] else []) ∧
      SameTraffic (Net.init fun i : Fin (4 * 2 ^ b) => pp.dPp dbg (4 * 2 ^ b) i (sn.getD i []) (sd.getD i []) (masks i) sid rng₁ rng₂)
        (Net.init fun i : Fin (4 * 2 ^ b) => pp.dPp dbg (4 * 2 ^ b) i (sn'.getD i []) (sd'.getD i []) (masks' i) sid rng₁' rng₂') := by
  obtain ⟨sn, sd, outs, en, ed, hy, hl⟩ := dPp_lengths hpp dbg hN hN64 num den hnum hden h0 masks hm sid rngn rngd rng₁ rng₂
  obtain ⟨sn', sd', outs', en', ed', hy', hl'⟩ := dPp_lengths hpp dbg hN hN64 num' den' hnum' hden' h0' masks' hm' sid rngn' rngd' rng₁' rng₂'
  exact ⟨sn, sd, sn', sd', en, ed, en', ed', hl, sameTraffic (fun i => pp.dPp_follows dbg i.2 ..) (fun i => pp.dPp_follows dbg i.2 ..) hy hy' hl hl'⟩

/-- The vectors of an `h` computation. -/
def hLengths (F : Type) [Field F] [DecidableEq F] [FixedWire F] (a : Nat) : Sid → List Nat
  | .zero => List.replicate 3 (8 + 2 ^ a * FixedWire.width F)
  | _ => List.replicate 2 (8 + 2 ^ a * FixedWire.width F)

theorem hLengths_eq (a : Nat) (s : Sid) : hLengths F a s = List.replicate (rounds322 s) (8 + 2 ^ a * FixedWire.width F) := by
  cases s <;> rfl

/-- **C90** `circom_h`: three vectors on the first stream and two on each of the others, in each direction. -/
theorem C90_circom_h {dbg₀ : Bool} {b : Nat} {pp : PSS F} (hpp : PSS.new dbg₀ (2 ^ b) = .ok pp) (dbg : Bool) (a : Nat)
    (ha : a < 64) {dom dom2 : Domain F} (hdom : Domain.new (2 ^ (a + b)) = some dom)
    (hdom2 : Domain.new (2 ^ (a + b + 1)) = some dom2) (q q' : Nat → PackedQAPShare F) (hq : ∀ p < 4 * 2 ^ b, (q p).domain = dom)
    (hq' : ∀ p < 4 * 2 ^ b, (q' p).domain = dom)
    (va vb vc va' vb' vc' : List F) (hva : HoldsInput pp a b (fun p => (q p).a) va) (hvb : HoldsInput pp a b (fun p => (q p).b) vb)
    (hvc : HoldsInput pp a b (fun p => (q p).c) vc) (hva' : HoldsInput pp a b (fun p => (q' p).a) va')
    (hvb' : HoldsInput pp a b (fun p => (q' p).b) vb') (hvc' : HoldsInput pp a b (fun p => (q' p).c) vc')
    (masks masks' : Nat → Nat → FftMask F) (hm : IsCircomMasks pp dom2.groupGen dom masks) (hm' : IsCircomMasks pp dom2.groupGen dom masks')
    (dmask dmask' : Nat → DegRedMask F) (hd : IsDegRedMasks pp (2 ^ a) dmask) (hd' : IsDegRedMasks pp (2 ^ a) dmask')
    (rng rng' : Nat → Nat → Nat → F) :
    SendsLengths (Net.init fun i : Fin (4 * 2 ^ b) => pp.circomH dbg (4 * 2 ^ b) i (q i) (masks i) (dmask i) rng)
      (starLengths (4 * 2 ^ b) (hLengths F a) (hLengths F a)) ∧
    SameTraffic (Net.init fun i : Fin (4 * 2 ^ b) => pp.circomH dbg (4 * 2 ^ b) i (q i) (masks i) (dmask i) rng)
      (Net.init fun i : Fin (4 * 2 ^ b) => pp.circomH dbg (4 * 2 ^ b) i (q' i) (masks' i) (dmask' i) rng') := by
  obtain ⟨A, hA⟩ := interpolant hdom hva
  obtain ⟨B, hB⟩ := interpolant hdom hvb
  obtain ⟨C, hC⟩ := interpolant hdom hvc
  obtain ⟨A', hA'⟩ := interpolant hdom hva'
  obtain ⟨B', hB'⟩ := interpolant hdom hvb'
  obtain ⟨C', hC'⟩ := interpolant hdom hvc'
  obtain ⟨outs, hr, -⟩ := circomH_runs hpp dbg a ha hdom hdom2 hq hva hvb hvc hA hB hC hm hd rng
  obtain ⟨outs', hr', -⟩ := circomH_runs hpp dbg a ha hdom hdom2 hq' hva' hvb' hvc' hA' hB' hC' hm' hd' rng'
  exact traffic_pair (R := rounds322) (S := .ext F (4 * 2 ^ b)) hr hr' (fun i => circomH_wf _ (four_pos b) _ _ _ _ _)
    (fun i => circomH_wf _ (four_pos b) _ _ _ _ _) (fun i => pp.circomH_rounds ..) (fun i => pp.circomH_rounds ..)
    (fun i => pp.circomH_follows dbg i.2 ..) (fun i => pp.circomH_follows dbg i.2 ..) (hLengths_eq a)

/-- **C90** `libsnark_h`, for satisfying assignments: it cannot even be told from `circom_h`. -/
theorem C90_libsnark_h {dbg₀ : Bool} {b : Nat} {pp : PSS F} (hpp : PSS.new dbg₀ (2 ^ b) = .ok pp) (dbg : Bool) (a : Nat)
    (ha : a < 64) {dom dom2 : Domain F} (hdom : Domain.new (2 ^ (a + b)) = some dom) (hdom2 : Domain.new (2 ^ (a + b + 1)) = some dom2)
    (hcos : ∃ x : F, x ≠ 0 ∧ x ^ 2 ^ (a + b) ≠ 1)
    (q q' q'' : Nat → PackedQAPShare F) (hq : ∀ p < 4 * 2 ^ b, (q p).domain = dom) (hq' : ∀ p < 4 * 2 ^ b, (q' p).domain = dom)
    (hq'' : ∀ p < 4 * 2 ^ b, (q'' p).domain = dom)
    (va vb vc va' vb' vc' va'' vb'' vc'' : List F) (hva : HoldsInput pp a b (fun p => (q p).a) va)
    (hvb : HoldsInput pp a b (fun p => (q p).b) vb) (hvc : HoldsInput pp a b (fun p => (q p).c) vc)
    (hva' : HoldsInput pp a b (fun p => (q' p).a) va') (hvb' : HoldsInput pp a b (fun p => (q' p).b) vb')
    (hvc' : HoldsInput pp a b (fun p => (q' p).c) vc') (hva'' : HoldsInput pp a b (fun p => (q'' p).a) va'')
    (hvb'' : HoldsInput pp a b (fun p => (q'' p).b) vb'') (hvc'' : HoldsInput pp a b (fun p => (q'' p).c) vc'')
    (hsat : ∀ i < 2 ^ (a + b), va.getD i 0 * vb.getD i 0 = vc.getD i 0)
    (hsat' : ∀ i < 2 ^ (a + b), va'.getD i 0 * vb'.getD i 0 = vc'.getD i 0)
    (masks masks' masks'' : Nat → Nat → FftMask F) (hm : IsLibsnarkMasks pp dom masks) (hm' : IsLibsnarkMasks pp dom masks')
    (hm'' : IsCircomMasks pp dom2.groupGen dom masks'') (dmask : Nat → DegRedMask F) (hd : IsDegRedMasks pp (2 ^ a) dmask)
    (rng rng' rng'' : Nat → Nat → Nat → F) :
    SendsLengths (Net.init fun i : Fin (4 * 2 ^ b) => pp.libsnarkH dbg (4 * 2 ^ b) i (q i) (masks i) rng)
      (starLengths (4 * 2 ^ b) (hLengths F a) (hLengths F a)) ∧
    SameTraffic (Net.init fun i : Fin (4 * 2 ^ b) => pp.libsnarkH dbg (4 * 2 ^ b) i (q i) (masks i) rng)
      (Net.init fun i : Fin (4 * 2 ^ b) => pp.libsnarkH dbg (4 * 2 ^ b) i (q' i) (masks' i) rng') ∧
    SameTraffic (Net.init fun i : Fin (4 * 2 ^ b) => pp.libsnarkH dbg (4 * 2 ^ b) i (q i) (masks i) rng)
      (Net.init fun i : Fin (4 * 2 ^ b) => pp.circomH dbg (4 * 2 ^ b) i (q'' i) (masks'' i) (dmask i) rng'') := by
  obtain ⟨A, hA⟩ := interpolant hdom hva
  obtain ⟨B, hB⟩ := interpolant hdom hvb
  obtain ⟨C, hC⟩ := interpolant hdom hvc
  obtain ⟨A', hA'⟩ := interpolant hdom hva'
  obtain ⟨B', hB'⟩ := interpolant hdom hvb'
  obtain ⟨C', hC'⟩ := interpolant hdom hvc'
  obtain ⟨A'', hA''⟩ := interpolant hdom hva''
  obtain ⟨B'', hB''⟩ := interpolant hdom hvb''
  obtain ⟨C'', hC''⟩ := interpolant hdom hvc''
  obtain ⟨hwf, -, -, hsize⟩ := Domain.new_pow2 hdom
  obtain ⟨H, hH⟩ := quotient_exists (by positivity) (hsize ▸ hwf.prim) hA hB hC hsat
  obtain ⟨H', hH'⟩ := quotient_exists (by positivity) (hsize ▸ hwf.prim) hA' hB' hC' hsat'
  obtain ⟨outs, hr, -⟩ := libsnarkH_runs hpp dbg a ha hdom hcos hq hva hvb hvc hA hB hC hH hm rng
  obtain ⟨outs', hr', -⟩ := libsnarkH_runs hpp dbg a ha hdom hcos hq' hva' hvb' hvc' hA' hB' hC' hH' hm' rng'
  obtain ⟨outs'', hr'', -⟩ := circomH_runs hpp dbg a ha hdom hdom2 hq'' hva'' hvb'' hvc'' hA'' hB'' hC'' hm'' hd rng''
  obtain ⟨h1, h2⟩ := traffic_pair (R := rounds322) (S := .ext F (4 * 2 ^ b)) hr hr' (fun i => libsnarkH_wf _ (four_pos b) _ _ _ _)
    (fun i => libsnarkH_wf _ (four_pos b) _ _ _ _) (fun i => pp.libsnarkH_rounds ..) (fun i => pp.libsnarkH_rounds ..)
    (fun i => pp.libsnarkH_follows dbg i.2 ..) (fun i => pp.libsnarkH_follows dbg i.2 ..) (hLengths_eq a)
  exact ⟨h1, h2, (traffic_pair (R := rounds322) (S := .ext F (4 * 2 ^ b)) hr hr'' (fun i => libsnarkH_wf _ (four_pos b) _ _ _ _)
    (fun i => circomH_wf _ (four_pos b) _ _ _ _ _) (fun i => pp.libsnarkH_rounds ..) (fun i => pp.circomH_rounds ..)
    (fun i => pp.libsnarkH_follows dbg i.2 ..) (fun i => pp.circomH_follows dbg i.2 ..) (hLengths_eq a)).2⟩

section session
variable {G1 G2 GT : Type} [AddCommGroup G1] [Module F G1] [DecidableEq G1] [FixedWire G1]
  [AddCommGroup G2] [Module F G2] [DecidableEq G2] [FixedWire G2]

theorem run_follows {pp : PSS F} (dbg : Bool) {n : Nat} {ins : Nat → ServerInput F G1 G2} (z : Prop) [Decidable z] (hz : ∀ i < n, (ins i).r = 0 ↔ z)
    (rng : Nat → Nat → Nat → F) (i : Fin n) : Follows n i (.session F G1 n z) ((ins i).run pp dbg n i rng) := by
  have := pp.dsha256_follows dbg i.2 (ins i).crs (ins i).q (ins i).a (ins i).ax (ins i).r (ins i).s
    (fun k => (ins i).fftMask.getD k (FftMask.zero 0)) (ins i).degredMask (fun k => (ins i).g1Mask.getD k MsmMask.zero) (ins i).g2Mask rng
  simp only [hz i i.2] at this
  exact this

/-- **C90** A proving session: who watches only the traffic of the servers cannot tell two assignments of the circuit apart, satisfying
or not, nor the randomness of the client or of the king, as long as no server has a zero share of `r`. -/
theorem C90_session {dbg₀ : Bool} {b : Nat} {pp : PSS F} (hpp : PSS.new dbg₀ (2 ^ b) = .ok pp) (dbg : Bool) (a : Nat) (ha : a < 64)
    {mats : ConstraintMatrices F} {z z' : List F} {dom dom2 : Domain F} (hcirc : Circuit a b mats z dom dom2)
    (hcirc' : Circuit a b mats z' dom dom2) (hlen : z'.length = z.length) {pa pb pc : Nat → F[X]}
    (hqap : IsQap mats z.length dom.groupGen (2 ^ (a + b)) pa pb pc) {t : Toxic F} {g1 : G1} {g2 : G2} {pk : ProvingKey G1 G2}
    (hk : IsCircomKey t g1 g2 z.length mats.numInstanceVariables (2 ^ (a + b)) dom2.groupGen pa pb pc pk) (hγ : t.gamma ≠ 0)
    (hδ : t.delta ≠ 0) (hal : dbg = true → KeyAligned (2 ^ b) pk) (gen1 : G1) (gen2 : G2) (r s r' s' : F) (tape tape' : ClientTape F G1 G2)
    (hr0 : ∀ rs, pp.pack dbg (List.replicate (2 ^ b) r) tape.r = .ok rs → ∀ x ∈ rs, x ≠ 0)
    (hr0' : ∀ rs, pp.pack dbg (List.replicate (2 ^ b) r') tape'.r = .ok rs → ∀ x ∈ rs, x ≠ 0) (rng rng' : Nat → Nat → Nat → F) :
    ∃ ins ins' : Nat → ServerInput F G1 G2,
      pp.deal dbg (2 ^ b) mats z pk gen1 gen2 r s tape = .ok ((List.range (4 * 2 ^ b)).map ins) ∧
      pp.deal dbg (2 ^ b) mats z' pk gen1 gen2 r' s' tape' = .ok ((List.range (4 * 2 ^ b)).map ins') ∧
      SendsLengths (Net.init fun i : Fin (4 * 2 ^ b) => (ins i).run pp dbg (4 * 2 ^ b) i rng)
        (starLengths (4 * 2 ^ b) (sessionLengths F G1 G2 a 1) (sessionLengths F G1 G2 a 1)) ∧
      SameTraffic (Net.init fun i : Fin (4 * 2 ^ b) => (ins i).run pp dbg (4 * 2 ^ b) i rng)
        (Net.init fun i : Fin (4 * 2 ^ b) => (ins' i).run pp dbg (4 * 2 ^ b) i rng') := by
  have key : ∀ {z : List F}, Circuit a b mats z dom dom2 → IsQap mats z.length dom.groupGen (2 ^ (a + b)) pa pb pc →
      IsCircomKey t g1 g2 z.length mats.numInstanceVariables (2 ^ (a + b)) dom2.groupGen pa pb pc pk → ∀ (r s : F) (tape : ClientTape F G1 G2),
      (∀ rs, pp.pack dbg (List.replicate (2 ^ b) r) tape.r = .ok rs → ∀ x ∈ rs, x ≠ 0) → ∀ (rng : Nat → Nat → Nat → F),
      ∃ (ins : Nat → ServerInput F G1 G2) (outs : Nat → G1 × G2 × G1),
        pp.deal dbg (2 ^ b) mats z pk gen1 gen2 r s tape = .ok ((List.range (4 * 2 ^ b)).map ins) ∧
        AlwaysYields (Net.init fun i : Fin (4 * 2 ^ b) => (ins i).run pp dbg (4 * 2 ^ b) i rng) (fun i => outs i) ∧
        SendsLengths (Net.init fun i : Fin (4 * 2 ^ b) => (ins i).run pp dbg (4 * 2 ^ b) i rng)
          (starLengths (4 * 2 ^ b) (sessionLengths F G1 G2 a 1) (sessionLengths F G1 G2 a 1)) ∧
        ∀ i < 4 * 2 ^ b, (ins i).r = 0 ↔ False := by
    intro z hcirc hqap hk r s tape hr0 rng
    obtain ⟨rs, er, lr, hr⟩ := pack_holdsValue hpp dbg r tape.r
    obtain ⟨ss, es, ls, hs⟩ := pack_holdsValue hpp dbg s tape.s
    have hr0' : ∀ p < 4 * 2 ^ b, rs.getD p 0 ≠ 0 := fun p hp =>
      hr0 rs er _ (by rw [List.getD_eq_getElem _ _ (by omega)]; exact List.getElem_mem _)
    obtain ⟨ins, outs, D, pA, pB, pC, h1, h2, -, -, -, -, -, -, -, -, -, -, -, -, -, -, h, -⟩ := session_full (GT := F) hpp dbg a ha hcirc hqap hk hγ hδ
      hal gen1 gen2 tape er es lr ls hr hs (.inl hr0') rng
    have e : sessionLengths F G1 G2 a (rs.getD 0 0) = sessionLengths F G1 G2 a 1 := by
      funext x
      cases x <;> simp only [sessionLengths, if_neg (hr0' 0 (four_pos b)), if_neg (one_ne_zero (α := F))]
    rw [e] at h
    refine ⟨ins, outs, h1, h2, h, fun i hi => ⟨fun h => ?_, False.elim⟩⟩
    obtain ⟨_, -, -, hr, -⟩ := deal_parts (p := i) (x := ins i) (by rw [h1]; simp [partOf, hi])
    rw [er] at hr
    exact hr0 rs er _ (List.mem_of_getElem? hr) h
  obtain ⟨ins, outs, h1, h2, h3, h4⟩ := key hcirc hqap hk r s tape hr0 rng
  obtain ⟨ins', outs', h1', h2', h3', h4'⟩ := key hcirc' (hlen ▸ hqap) (hlen ▸ hk) r' s' tape' hr0' rng'
  exact ⟨ins, ins', h1, h1', h3, sameTraffic (run_follows dbg False h4 rng) (run_follows dbg False h4' rng') h2 h2' h3 h3'⟩

/-- **C90** The example as it is written (C37), in a release build: the traffic of two sessions is the same if and only if `r` is zero in
both of them or in neither. So the traffic shows nothing of the assignment or the other random values, but shows whether `r` is zero. -/
theorem C90_example_release {dbg₀ : Bool} {b : Nat} {pp : PSS F} (hpp : PSS.new dbg₀ (2 ^ b) = .ok pp) (a : Nat) (ha : a < 64)
    {mats : ConstraintMatrices F} {z z' : List F} {dom dom2 : Domain F} (hcirc : Circuit a b mats z dom dom2)
    (hcirc' : Circuit a b mats z' dom dom2) (hlen : z'.length = z.length) {pa pb pc : Nat → F[X]}
    (hqap : IsQap mats z.length dom.groupGen (2 ^ (a + b)) pa pb pc) {t : Toxic F} {g1 : G1} {g2 : G2} {pk : ProvingKey G1 G2}
    (hk : IsCircomKey t g1 g2 z.length mats.numInstanceVariables (2 ^ (a + b)) dom2.groupGen pa pb pc pk) (hγ : t.gamma ≠ 0)
    (hδ : t.delta ≠ 0) (gen1 : G1) (gen2 : G2) (r s r' s' : F) (tape tape' : ClientTape F G1 G2) (rng rng' : Nat → Nat → Nat → F) :
    ∃ ins ins' : Nat → ServerInput F G1 G2,
      pp.deal false pp.n mats z pk gen1 gen2 r s tape = .ok ((List.range (4 * 2 ^ b)).map ins) ∧
      pp.deal false pp.n mats z' pk gen1 gen2 r' s' tape' = .ok ((List.range (4 * 2 ^ b)).map ins') ∧
      SendsLengths (Net.init fun i : Fin (4 * 2 ^ b) => (ins i).run pp false (4 * 2 ^ b) i rng)
        (starLengths (4 * 2 ^ b) (sessionLengths F G1 G2 a r) (sessionLengths F G1 G2 a r)) ∧
      (SameTraffic (Net.init fun i : Fin (4 * 2 ^ b) => (ins i).run pp false (4 * 2 ^ b) i rng)
        (Net.init fun i : Fin (4 * 2 ^ b) => (ins' i).run pp false (4 * 2 ^ b) i rng') ↔ (r = 0 ↔ r' = 0)) := by
  have key : ∀ {z : List F}, Circuit a b mats z dom dom2 → IsQap mats z.length dom.groupGen (2 ^ (a + b)) pa pb pc →
      IsCircomKey t g1 g2 z.length mats.numInstanceVariables (2 ^ (a + b)) dom2.groupGen pa pb pc pk → ∀ (r s : F) (tape : ClientTape F G1 G2)
      (rng : Nat → Nat → Nat → F), ∃ (ins : Nat → ServerInput F G1 G2) (outs : Nat → G1 × G2 × G1),
        pp.deal false pp.n mats z pk gen1 gen2 r s tape = .ok ((List.range (4 * 2 ^ b)).map ins) ∧
        AlwaysYields (Net.init fun i : Fin (4 * 2 ^ b) => (ins i).run pp false (4 * 2 ^ b) i rng) (fun i => outs i) ∧
        SendsLengths (Net.init fun i : Fin (4 * 2 ^ b) => (ins i).run pp false (4 * 2 ^ b) i rng)
          (starLengths (4 * 2 ^ b) (sessionLengths F G1 G2 a r) (sessionLengths F G1 G2 a r)) ∧
        ∀ i < 4 * 2 ^ b, (ins i).r = r := by
    intro z hcirc hqap hk r s tape rng
    obtain ⟨ins, outs, D, pA, pB, pC, h1, h2, -, -, -, -, -, -, -, -, -, -, -, -, -, -, h, -⟩ := session_full (GT := F) hpp false a ha hcirc hqap hk hγ hδ
      (fun h => by cases h) gen1 gen2 tape (C37_release_reveals hpp r tape.r)
      (C37_release_reveals hpp s tape.s) (by simp) (by simp) (holdsValue_replicate hpp r) (holdsValue_replicate hpp s) (by
        by_cases h : r = 0
        · exact .inr fun p hp => by rw [getD_replicate', if_pos hp, h]
        · exact .inl fun p hp => by rw [getD_replicate', if_pos hp]; exact h) rng
    rw [getD_replicate', if_pos (four_pos b)] at h
    exact ⟨ins, outs, h1, h2, h, fun i hi => (C57_example_reveals hpp mats z pk gen1 gen2 r s tape i (ins i) (by rw [h1]; simp [partOf, hi])).1⟩
  obtain ⟨ins, outs, h1, h2, h3, h4⟩ := key hcirc hqap hk r s tape rng
  obtain ⟨ins', outs', h1', h2', h3', h4'⟩ := key hcirc' (hlen ▸ hqap) (hlen ▸ hk) r' s' tape' rng'
  refine ⟨ins, ins', h1, h1', h3, fun h => ?_, fun h => ?_⟩
  · by_contra hne
    refine not_looksLike h2 h3 h3' (i := 1) (j := 0) (x := .zero) (fun e => ?_) h.1
    have h1 : 1 < 4 * 2 ^ b := by have : 0 < 2 ^ b := by positivity
                                  omega
    unfold starLengths at e
    rw [if_neg (by omega), if_pos ⟨rfl, le_rfl, h1⟩, if_neg (by omega), if_pos ⟨rfl, le_rfl, h1⟩] at e
    have := congrArg List.length e
    by_cases hr : r = 0 <;> by_cases hr' : r' = 0 <;> simp [sessionLengths, hr, hr'] at this hne
  · have e : sessionLengths F G1 G2 a r' = sessionLengths F G1 G2 a r := by
      funext x
      cases x <;> simp only [sessionLengths, h]
    rw [e] at h3'
    exact sameTraffic (run_follows false (r = 0) (fun i hi => by rw [h4 i hi]) rng) (run_follows false (r = 0) (fun i hi => by rw [h4' i hi, h]) rng')
      h2 h2' h3 h3'

end session

/-! ### Examples -/

/-- Example for C90: two transforms of four elements between eight servers look alike, with other values, masks and layout. -/
example : ∃ sh sh' : Nat → List (ZMod 17), HoldsInput pp17 1 1 sh [1, 2, 3, 4] ∧ HoldsInput pp17 1 1 sh' [0, 0, 0, 9] ∧
    SameTraffic (Net.init fun i : Fin (4 * 2 ^ 1) => pp17.dFft true (4 * 2 ^ 1) i (sh i) (FftMask.zero 2) false dom17 .zero (fun i j => i + j))
      (Net.init fun i : Fin (4 * 2 ^ 1) => pp17.dFft true (4 * 2 ^ 1) i (sh' i) (FftMask.zero 2) true dom17 .zero (fun i j => i * j)) := by
  obtain ⟨shares, -, -, hs⟩ := C19_input_is_packed (pp17_eq true) true 1 ([1, 2, 3, 4] : List (ZMod 17)) rfl
    fun i j => 3 * (i : ZMod 17) + (j : ZMod 17)
  obtain ⟨shares', -, -, hs'⟩ := C19_input_is_packed (pp17_eq true) true 1 ([0, 0, 0, 9] : List (ZMod 17)) rfl
    fun i j => 5 * (i : ZMod 17) + (j : ZMod 17)
  exact ⟨fun p => shares.getD p [], fun p => shares'.getD p [], hs, hs', (C90_d_fft (pp17_eq true) true 1 (by norm_num) dom17_eq _ _ _ _ hs hs'
    false true (fun _ => FftMask.zero 2) (fun _ => FftMask.zero 2) (Or.inr fun _ => rfl) (Or.inr fun _ => rfl) .zero _ _).2⟩

/-- Example for C90: inverse transforms with different cosets; client `3` sends one message of ten bytes to the king and none to client
`4`. -/
example : ∃ sh sh' : Nat → List (ZMod 17), (∀ tr c', Trace tr (Net.init fun i : Fin (4 * 2 ^ 1) =>
      pp17.dIfft true (4 * 2 ^ 1) i (sh i) (FftMask.zero 2) false dom17 3 .zero (fun i j => i + j)) c' → (∀ e ∈ tr, e.2 ≠ .fault) →
      (∀ i, ∃ v, c'.procs i = .done (.ok v)) → (sentOn tr 3 0 .zero).map List.length = [10] ∧ sentOn tr 3 4 .zero = []) ∧
    SameTraffic (Net.init fun i : Fin (4 * 2 ^ 1) => pp17.dIfft true (4 * 2 ^ 1) i (sh i) (FftMask.zero 2) false dom17 3 .zero (fun i j => i + j))
      (Net.init fun i : Fin (4 * 2 ^ 1) => pp17.dIfft true (4 * 2 ^ 1) i (sh' i) (FftMask.zero 2) true dom17 5 .zero (fun i j => i * j)) := by
  obtain ⟨shares, -, -, hs⟩ := C19_input_is_packed (pp17_eq true) true 1 ([1, 2, 3, 4] : List (ZMod 17)) rfl
    fun i j => 3 * (i : ZMod 17) + (j : ZMod 17)
  obtain ⟨shares', -, -, hs'⟩ := C19_input_is_packed (pp17_eq true) true 1 ([0, 0, 0, 9] : List (ZMod 17)) rfl
    fun i j => 5 * (i : ZMod 17) + (j : ZMod 17)
  obtain ⟨h1, h2⟩ := C90_d_ifft (pp17_eq true) true 1 (by norm_num) dom17_eq (fun p => shares.getD p []) (fun p => shares'.getD p []) _ _ hs hs'
    3 5 false true (fun _ => FftMask.zero 2) (fun _ => FftMask.zero 2) (Or.inr fun _ => rfl) (Or.inr fun _ => rfl) .zero (fun i j => i + j)
    (fun i j => i * j)
  exact ⟨fun p => shares.getD p [], fun p => shares'.getD p [], fun tr c' ht hnf hd => ⟨(h1 tr c' ht hnf 3 0 .zero).2 hd,
    List.map_eq_nil_iff.1 ((h1 tr c' ht hnf 3 4 .zero).2 hd)⟩, h2⟩

/-- Example for C90: degree reductions of one position. -/
example : ∃ sh sh' : Nat → List (ZMod 17),
    SameTraffic (Net.init fun i : Fin (4 * 2 ^ 1) => pp17.degRed true (4 * 2 ^ 1) i (sh i) (DegRedMask.zero 1) .zero (fun i j => i + j))
      (Net.init fun i : Fin (4 * 2 ^ 1) => pp17.degRed true (4 * 2 ^ 1) i (sh' i) (DegRedMask.zero 1) .zero (fun i j => i * j)) := by
  obtain ⟨sh, -, h⟩ := packFromWitness_holds (b := 1) (pp17_eq true) true ([3, 5] : List (ZMod 17)) fun _ _ => 1
  obtain ⟨sh', -, h'⟩ := packFromWitness_holds (b := 1) (pp17_eq true) true ([0, 1] : List (ZMod 17)) fun _ _ => 2
  exact ⟨sh, sh', (C90_deg_red (T := ZMod 17) (pp17_eq true) true (N := 1) (d := 2 * 2 ^ 1) (d' := 2 * 2 ^ 1) (by norm_num) (by norm_num)
    (by norm_num) (by norm_num) (by norm_num) (by norm_num) sh sh' (fun c => chunks (2 ^ 1) (fun i => [3, 5].getD i 0) c)
    (fun c => chunks (2 ^ 1) (fun i => [0, 1].getD i 0) c) h h' (fun _ => DegRedMask.zero 1) (fun _ => DegRedMask.zero 1) (.inr fun _ => rfl)
    (.inr fun _ => rfl) .zero _ _).2⟩

/-- Example for C90: sums of two and of four terms. -/
example : ∃ sb ss sb' ss' : Nat → List (ZMod 17),
    SameTraffic (Net.init fun i : Fin (4 * 2 ^ 1) => pp17.dMsm true (4 * 2 ^ 1) i (sb i) (ss i) MsmMask.zero .zero)
      (Net.init fun i : Fin (4 * 2 ^ 1) => pp17.dMsm true (4 * 2 ^ 1) i (sb' i) (ss' i) MsmMask.zero .zero) := by
  obtain ⟨sb, -, hb⟩ := packFromWitness_holds (b := 1) (pp17_eq true) true ([1, 4] : List (ZMod 17)) fun _ _ => 1
  obtain ⟨ss, -, hs⟩ := packFromWitness_holds (b := 1) (pp17_eq true) true ([3, 5] : List (ZMod 17)) fun _ _ => 2
  obtain ⟨sb', -, hb'⟩ := packFromWitness_holds (b := 1) (pp17_eq true) true ([1, 4, 6, 7] : List (ZMod 17)) fun _ _ => 1
  obtain ⟨ss', -, hs'⟩ := packFromWitness_holds (b := 1) (pp17_eq true) true ([3, 5, 0, 2] : List (ZMod 17)) fun _ _ => 2
  exact ⟨sb, ss, sb', ss', (C90_d_msm (G := ZMod 17) (pp17_eq true) true sb _ sb' _ ss _ ss' _ hb hs hb' hs' (fun _ => MsmMask.zero)
    (fun _ => MsmMask.zero) (.inr fun _ => rfl) (.inr fun _ => rfl) .zero).2⟩

/-- Example for C90: the partial products of `3/2, 5/7` and of `1/1, 0/1`. -/
example : ∃ sn sd sn' sd' : List (List (ZMod 17)),
    SameTraffic (Net.init fun i : Fin (4 * 2 ^ 1) => pp17.dPp true (4 * 2 ^ 1) i (sn.getD i []) (sd.getD i []) (DegRedMask.zero 1) .zero
      (fun i j => i + j) (fun i j => i * j)) (Net.init fun i : Fin (4 * 2 ^ 1) => pp17.dPp true (4 * 2 ^ 1) i (sn'.getD i []) (sd'.getD i [])
      (DegRedMask.zero 1) .zero (fun i j => i + j) (fun i j => i * j)) := by
  obtain ⟨sn, sd, sn', sd', -, -, -, -, -, h⟩ := C90_d_pp (pp17_eq true) true (N := 1) (by norm_num) (by norm_num) [3, 5] [1, 0] [2, 7] [1, 1]
    rfl rfl rfl rfl (by decide) (by decide) (fun _ => DegRedMask.zero 1) (fun _ => DegRedMask.zero 1) (.inr fun _ => rfl) (.inr fun _ => rfl) .zero
    (fun i j => i + j) (fun i j => i + j) (fun i j => i + j) (fun i j => i * j) (fun i j => i + j) (fun i j => i + j) (fun i j => i + j)
    (fun i j => i * j)
  exact ⟨sn, sd, sn', sd', h⟩

/-- Examples for C90: the two `h` computations look alike on the example circuit. -/
example : ∃ q : Nat → PackedQAPShare (ZMod 17),
    SameTraffic (Net.init fun i : Fin (4 * 2 ^ 1) => pp17.circomH true (4 * 2 ^ 1) i (q i) (fun _ => FftMask.zero 2) (DegRedMask.zero 2)
      fun _ i j => i + j) (Net.init fun i : Fin (4 * 2 ^ 1) => pp17.circomH true (4 * 2 ^ 1) i (q i) (fun _ => FftMask.zero 2) (DegRedMask.zero 2)
      fun _ i j => i * j) ∧
    SameTraffic (Net.init fun i : Fin (4 * 2 ^ 1) => pp17.libsnarkH true (4 * 2 ^ 1) i (q i) (fun _ => FftMask.zero 2) fun _ i j => i + j)
      (Net.init fun i : Fin (4 * 2 ^ 1) => pp17.circomH true (4 * 2 ^ 1) i (q i) (fun _ => FftMask.zero 2) (DegRedMask.zero 2)
      fun _ i j => i * j) := by
  obtain ⟨q, A, B, C, hq, h1, h2, h3, i1, i2, i3⟩ := shares17
  refine ⟨q, (C90_circom_h (pp17_eq true) true 1 (by norm_num) dom17_eq dom17b_eq q q hq hq _ _ _ _ _ _ h1 h2 h3 h1 h2 h3
    (fun _ _ => FftMask.zero 2) (fun _ _ => FftMask.zero 2) ⟨fun _ _ => .inr fun _ => rfl, fun _ _ => .inr fun _ => rfl⟩
    ⟨fun _ _ => .inr fun _ => rfl, fun _ _ => .inr fun _ => rfl⟩ (fun _ => DegRedMask.zero 2) (fun _ => DegRedMask.zero 2) (.inr fun _ => rfl)
    (.inr fun _ => rfl) _ _).2, ?_⟩
  exact (C90_libsnark_h (pp17_eq true) true 1 (by norm_num) dom17_eq dom17b_eq ⟨3, by decide, by decide⟩ q q q hq hq hq _ _ _ _ _ _ _ _ _
    h1 h2 h3 h1 h2 h3 h1 h2 h3 (by decide) (by decide) (fun _ _ => FftMask.zero 2) (fun _ _ => FftMask.zero 2) (fun _ _ => FftMask.zero 2)
    ⟨fun _ _ => .inr fun _ => rfl, fun _ _ => .inr fun _ => rfl, .inr fun _ => rfl⟩
    ⟨fun _ _ => .inr fun _ => rfl, fun _ _ => .inr fun _ => rfl, .inr fun _ => rfl⟩ ⟨fun _ _ => .inr fun _ => rfl, fun _ _ => .inr fun _ => rfl⟩
    (fun _ => DegRedMask.zero 2) (.inr fun _ => rfl) (fun _ i j => i + j) (fun _ i j => i + j) (fun _ i j => i * j)).2.2

/-- Example for C90: sessions of the example circuit with `r = 5`, with `r = 6` and with `r = 0`: the last one can be told apart. -/
example (tape : ClientTape (ZMod 17) (ZMod 17) (ZMod 17)) (rng : Nat → Nat → Nat → ZMod 17) : ∃ (pk : ProvingKey (ZMod 17) (ZMod 17))
    (ins ins' ins'' : Nat → ServerInput (ZMod 17) (ZMod 17) (ZMod 17)),
    pp17.deal false 8 mats17 z17 pk 1 1 5 6 tape = .ok ((List.range 8).map ins) ∧
    pp17.deal false 8 mats17 z17 pk 1 1 6 2 tape = .ok ((List.range 8).map ins') ∧
    pp17.deal false 8 mats17 z17 pk 1 1 0 6 tape = .ok ((List.range 8).map ins'') ∧
    SameTraffic (Net.init fun i : Fin (4 * 2 ^ 1) => (ins i).run pp17 false (4 * 2 ^ 1) i rng)
      (Net.init fun i : Fin (4 * 2 ^ 1) => (ins' i).run pp17 false (4 * 2 ^ 1) i rng) ∧
    ¬ SameTraffic (Net.init fun i : Fin (4 * 2 ^ 1) => (ins i).run pp17 false (4 * 2 ^ 1) i rng)
      (Net.init fun i : Fin (4 * 2 ^ 1) => (ins'' i).run pp17 false (4 * 2 ^ 1) i rng) := by
  obtain ⟨pa, pb, pc, pk, h1, h2⟩ := C35_key_exists circuit17 (⟨2, 3, 4, 5, 6⟩ : Toxic (ZMod 17)) (1 : ZMod 17) (1 : ZMod 17)
  obtain ⟨ins, ins', h3, h4, -, h5⟩ := C90_example_release (pp17_eq true) 1 (by norm_num) circuit17 circuit17 rfl h1 h2
    (by decide) (by decide) 1 1 5 6 6 2 tape tape rng rng
  obtain ⟨ins₁, ins'', h6, h7, -, h8⟩ := C90_example_release (pp17_eq true) 1 (by norm_num) circuit17 circuit17 rfl h1 h2
    (by decide) (by decide) 1 1 5 6 0 6 tape tape rng rng
  refine ⟨pk, ins, ins', ins'', h3, h4, h7, h5.2 (by decide), ?_⟩
  have e : ∀ i : Fin (4 * 2 ^ 1), ins₁ i = ins i := fun i => by
    rw [h3] at h6
    have := Except.ok.inj h6
    exact (List.map_inj_left.1 this i (List.mem_range.2 i.2)).symm
  simp only [e] at h8
  rw [h8]
  decide

/-- Example for C90: packed shares of `r = 5`, none of them zero. -/
example (tape : ClientTape (ZMod 17) (ZMod 17) (ZMod 17)) (ht : tape.r = fun _ => 1) (rng rng' : Nat → Nat → Nat → ZMod 17) :
    ∃ (pk : ProvingKey (ZMod 17) (ZMod 17)) (ins ins' : Nat → ServerInput (ZMod 17) (ZMod 17) (ZMod 17)),
    pp17.deal false 2 mats17 z17 pk 1 1 5 6 tape = .ok ((List.range 8).map ins) ∧
    pp17.deal false 2 mats17 z17 pk 1 1 5 3 tape = .ok ((List.range 8).map ins') ∧
    SameTraffic (Net.init fun i : Fin (4 * 2 ^ 1) => (ins i).run pp17 false (4 * 2 ^ 1) i rng)
      (Net.init fun i : Fin (4 * 2 ^ 1) => (ins' i).run pp17 false (4 * 2 ^ 1) i rng') := by
  obtain ⟨pa, pb, pc, pk, h1, h2⟩ := C35_key_exists circuit17 (⟨2, 3, 4, 5, 6⟩ : Toxic (ZMod 17)) (1 : ZMod 17) (1 : ZMod 17)
  have hr : ∀ rs, pp17.pack false (List.replicate (2 ^ 1) (5 : ZMod 17)) tape.r = .ok rs → ∀ x ∈ rs, x ≠ 0 := by
    rw [ht]
    have : ∀ x ∈ (match pp17.pack false (List.replicate (2 ^ 1) (5 : ZMod 17)) (fun _ => 1) with | .ok rs => rs | .error _ => []), x ≠ 0 := by
      decide +kernel
    intro rs h
    rw [h] at this
    exact this
  obtain ⟨ins, ins', h3, h4, -, h5⟩ := C90_session (pp17_eq true) false 1 (by norm_num) circuit17 circuit17 rfl h1 h2 (by decide) (by decide)
    (by simp) 1 1 5 6 5 3 tape tape hr hr rng rng'
  exact ⟨pk, ins, ins', h3, h4, h5⟩

/-- Example for C90: a party that sends one byte and one that waits for it: whatever happened, at most this byte was sent. -/
example (sid : Sid) (b : UInt8) (tr : List (Nat × Act)) (c : Net 2 Bytes)
    (ht : Trace tr (Net.init (two (.recv 1 sid fun m => .done (.ok m)) (.send 0 sid [b] (.done (.ok []))))) c) (hnf : ∀ e ∈ tr, e.2 ≠ .fault) :
    sentOn tr 1 0 sid <+: [[b]] := by
  have h := (two_send (.recv 1 sid fun m => .done (.ok m)) (.done (.ok ([] : Bytes))) sid [b] []).trans
    (two_recv _ (fun m => .done (.ok m)) sid [b] [])
  have w1 : (Proc.recv 1 sid fun m => .done (.ok m) : Proc Bytes).WF fun _ => True := .recv trivial fun _ => .done _ _
  have w2 : (Proc.send 0 sid [b] (.done (.ok [])) : Proc Bytes).WF fun _ => True := .send trivial (.done _ _)
  have hy := two_yields w1 w2 sid h
  have t : Trace [(1, .send 0 sid [b]), (0, .recv 1 sid [b])] (Net.init (two (.recv 1 sid fun m => .done (.ok m))
      (.send 0 sid [b] (.done (.ok [])))) : Net 2 Bytes)
      ⟨Function.update (Function.update (two (.recv 1 sid fun m => .done (.ok m)) (.send 0 sid [b] (.done (.ok [])))) 1 (.done (.ok []))) 0
        (.done (.ok [b])), Function.update (Function.update (fun _ => []) (1, 0, sid) [[b]]) (1, 0, sid) []⟩ :=
    .step (i := 1) (a := .send 0 sid [b]) (.send _ _ _ _) rfl (.step (i := 0) (a := .recv 1 sid [b]) (p' := .done (.ok [b]))
      (.recv 1 sid [b] fun m => .done (.ok m)) (by simp [qstep]) (.refl _))
  have e : sentOn [(1, .send 0 sid [b]), (0, .recv 1 sid [b])] 1 0 sid = [[b]] := by simp [sentOn]
  rw [← e]
  exact (C90_same_messages (two_wf w1 w2) hy ht hnf t (by simp) (fun i => by fin_cases i <;> simp) 1 0 sid).1

end ZkSaas.Properties
