import Verif.Properties.Dfft

/-!
# C24 – C26: degree reduction, distributed multi-scalar multiplication, distributed partial products

As in `Properties/Dfft.lean` everything is stated about `4·2^b` parties on a reliable network under every schedule.
-/

set_option linter.unusedSectionVars false

namespace ZkSaas.Properties

open Finset Spec

variable {F : Type} [Field F] [DecidableEq F] [FftField F]

/-! ### Dealing a vector -/

section deal
variable {T : Type} [AddCommGroup T] [Module F T] [DecidableEq T]

/-- Packing consecutive chunks and transposing, as every caller of the protocols does, leaves every party with a vector of
shares. -/
theorem deal {dbg₀ : Bool} {b : Nat} {pp : PSS F} (hpp : PSS.new dbg₀ (2 ^ b) = .ok pp) (dbg : Bool) {N : Nat} (hN : 0 < N)
    (v : List T) (hv : v.length = N * 2 ^ b) (rng : Nat → Nat → T) :
    ∃ shares, (do
        let rows ← pp.packVec dbg v rng
        transpose rows) = .ok shares ∧
      Spec.SharedVec pp.share.groupGen pp.secret.offset (2 ^ b) (2 * 2 ^ b) N (fun p => shares.getD p [])
        (chunks (2 ^ b) fun i => v.getD i 0) := by
  have hle := l_eq hpp
  have hg := PSS.good_of_new hpp
  rw [← hle] at hv ⊢
  obtain ⟨rows, e, hl, h⟩ := PSS.packVec_shares hg dbg hv rng
  obtain ⟨out, e', -, hs⟩ := SharedVec.of_rows hg hN hl h
  refine ⟨out, by rw [e, ok_bind, e'], SharedVec.congr hs (fun _ _ => rfl) fun c hc => ?_⟩
  rw [← chunk_eq_chunks _ N _ hc, ← hv, ← list_eq_map_range]

theorem opened_dealt {dbg₀ : Bool} {b : Nat} {pp : PSS F} (hpp : PSS.new dbg₀ (2 ^ b) = .ok pp) {N : Nat} {outs : Nat → List T}
    {x : Nat → T}
    (h : Spec.SharedVec pp.share.groupGen pp.secret.offset (2 ^ b) (2 * 2 ^ b) N outs (chunks (2 ^ b) x)) :
    opened pp N outs = (List.range (N * 2 ^ b)).map x := by
  have hle := l_eq hpp
  rw [← hle] at h ⊢
  exact opened_chunks (PSS.good_of_new hpp) le_rfl h

end deal

/-! ### C24 -/

section degred
variable {T : Type} [AddCommGroup T] [Module F T] [DecidableEq T]

/-- The masks of the parties come from one call of `DegRedMask::sample`, or are all `DegRedMask::zero`. -/
def IsDegRedMasks (pp : PSS F) (N : Nat) (masks : Nat → DegRedMask T) : Prop :=
  (∃ (dbg : Bool) (gen : T) (vals : Nat → F) (rngIn rngOut : Nat → Nat → T) (ms : List (DegRedMask T)),
    DegRedMask.sample pp dbg gen N vals rngIn rngOut = .ok ms ∧ ∀ p < 4 * pp.l, ms[p]? = some (masks p)) ∨
  ∀ p, masks p = DegRedMask.zero N

theorem IsDegRedMasks.ok {dbg₀ : Bool} {b : Nat} {pp : PSS F} (hpp : PSS.new dbg₀ (2 ^ b) = .ok pp) {N : Nat} (hN : 0 < N)
    {masks : Nat → DegRedMask T} (h : IsDegRedMasks pp N masks) : DegRedMasksOk pp N masks := by
  rcases h with ⟨dbg, gen, vals, r1, r2, ms, e, h⟩ | h
  · obtain ⟨ms', e', hl, hm⟩ := DegRedMasksOk.of_sample (PSS.good_of_new hpp) dbg gen hN vals r1 r2
    obtain rfl : ms' = ms := by rw [e] at e'; cases e'; rfl
    have hget : ∀ p < 4 * pp.l, ms'.getD p (DegRedMask.zero 0) = masks p := fun p hp => by
      rw [List.getD_eq_getElem?_getD, h p hp]; rfl
    obtain ⟨v, h1, h2⟩ := hm
    exact ⟨v, SharedVec.congr h1 (fun p hp => by simp only; rw [hget p hp]) fun _ _ => rfl,
      SharedVec.congr h2 (fun p hp => by simp only; rw [hget p hp]) fun _ _ => rfl⟩
  · obtain rfl : masks = fun _ => DegRedMask.zero N := funext h
    exact DegRedMasksOk.zero N

variable [FixedWire T]

/-- **C24** `deg_red` on a vector of sharings with `d` coefficients, `2l ≤ d ≤ 4l-1`: under every schedule every party
ends with its share of the same secrets with `2l` coefficients, so plain `unpack` opens them. -/
theorem C24_deg_red {dbg₀ : Bool} {b : Nat} {pp : PSS F} (hpp : PSS.new dbg₀ (2 ^ b) = .ok pp) (dbg : Bool) {N d : Nat}
    (hN : 0 < N) (hN64 : N < 2 ^ 64) (hd2 : 2 * 2 ^ b ≤ d) (hd4 : d ≤ 4 * 2 ^ b - 1) (sh sec : Nat → List T)
    (hsh : Spec.SharedVec pp.share.groupGen pp.secret.offset (2 ^ b) d N sh sec)
    (masks : Nat → DegRedMask T) (hm : IsDegRedMasks pp N masks) (sid : Sid) (rng : Nat → Nat → T) :
    ∃ outs : Nat → List T,
      AlwaysYields (Net.init fun i : Fin (4 * 2 ^ b) => pp.degRed dbg (4 * 2 ^ b) i (sh i) (masks i) sid rng)
        (fun i => outs i) ∧
      Spec.SharedVec pp.share.groupGen pp.secret.offset (2 ^ b) (2 * 2 ^ b) N outs sec ∧
      ∀ c < N, pp.unpack ((List.range (4 * 2 ^ b)).map fun p => (outs p).getD c 0) = sec c := by
  have hle := l_eq hpp
  have hg := PSS.good_of_new hpp
  rw [← hle] at hd2 hd4 hsh
  obtain ⟨outs, hr, ho⟩ := PSS.degRed_runs (n := 4 * 2 ^ b) hg dbg (by rw [hle]) hN hN64 hd2 hd4 hsh (hm.ok hpp hN) sid rng
  refine ⟨outs, hr.alwaysYields fun i => PSS.degRed_wf _ (by positivity) _ _ _ _ _, by rw [← hle]; exact ho, fun c hc => ?_⟩
  rw [← hle]
  exact PSS.unpack_of_shares hg le_rfl (ho.2 c hc)

end degred

/-- **C24** Multiplying two packed vectors share by share and reducing the degree opens to the entrywise product. -/
theorem C24_multiply {dbg₀ : Bool} {b : Nat} {pp : PSS F} (hpp : PSS.new dbg₀ (2 ^ b) = .ok pp) (dbg : Bool) {N : Nat}
    [FixedWire F] (hN : 0 < N) (hN64 : N < 2 ^ 64) (x y : List F) (hx : x.length = N * 2 ^ b) (hy : y.length = N * 2 ^ b)
    (masks : Nat → DegRedMask F) (hm : IsDegRedMasks pp N masks) (sid : Sid) (rngx rngy rng : Nat → Nat → F) :
    ∃ (sx sy : List (List F)) (outs : Nat → List F),
      (do let rows ← pp.packVec dbg x rngx; transpose rows) = .ok sx ∧
      (do let rows ← pp.packVec dbg y rngy; transpose rows) = .ok sy ∧
      AlwaysYields (Net.init fun i : Fin (4 * 2 ^ b) =>
        pp.degRed dbg (4 * 2 ^ b) i (List.zipWith (· * ·) (sx.getD i []) (sy.getD i [])) (masks i) sid rng)
        (fun i => outs i) ∧
      opened pp N outs = List.zipWith (· * ·) x y := by
  have hle := l_eq hpp
  obtain ⟨sx, ex, hsx⟩ := deal hpp dbg hN x hx rngx
  obtain ⟨sy, ey, hsy⟩ := deal hpp dbg hN y hy rngy
  have hb : 0 < 2 ^ b := by positivity
  have hprod : Spec.SharedVec pp.share.groupGen pp.secret.offset (2 ^ b) (4 * 2 ^ b - 1) N
      (fun p => List.zipWith (· * ·) (sx.getD p []) (sy.getD p [])) (chunks (2 ^ b) fun i => x.getD i 0 * y.getD i 0) := by
    rw [← hle] at hsx hsy ⊢
    refine ⟨fun p hp => by
      have h1 := hsx.1 p hp
      have h2 := hsy.1 p hp
      simp only at h1 h2 ⊢
      rw [List.length_zipWith, h1, h2, min_self], fun c hc => ?_⟩
    have := Shares.mul (hsx.2 c hc) (hsy.2 c hc)
    rw [show 2 * pp.l + 2 * pp.l - 1 = 4 * pp.l - 1 by omega] at this
    refine cast ?_ this
    congr 1
    · apply list_ext_getD 0 (by simp)
      intro p hp
      simp at hp
      rw [getD_zipWith _ _ _ _ 0 0 _ (by simpa using hp) (by simpa using hp)]
      simp only [getD_map_range, if_pos hp]
      rw [getD_zipWith _ _ _ _ 0 0 _ (by rw [hsx.1 p hp]; exact hc) (by rw [hsy.1 p hp]; exact hc)]
      rfl
    · unfold chunks
      rw [List.zipWith_map_left, List.zipWith_map_right, List.zipWith_self]
      rfl
  obtain ⟨outs, h1, h2, -⟩ := C24_deg_red hpp dbg hN hN64 (by omega) le_rfl _ _ hprod masks hm sid rng
  refine ⟨sx, sy, outs, ex, ey, h1, ?_⟩
  rw [opened_dealt hpp h2]
  apply list_ext_getD 0 (by simp [hx, hy])
  intro i hi
  simp only [List.length_map, List.length_range] at hi
  rw [getD_map_range, if_pos hi, getD_zipWith _ _ _ _ 0 0 _ (by omega) (by omega)]

/-! ### C25 -/

section dmsm
variable {G : Type} [AddCommGroup G] [Module F G] [DecidableEq G]

/-- The masks of the parties come from one call of `MsmMask::sample`, or are all `MsmMask::zero`. -/
def IsMsmMasks (pp : PSS F) (masks : Nat → MsmMask G) : Prop :=
  (∃ (dbg : Bool) (gen : G) (vals : Nat → F) (rngIn rngOut : Nat → G) (ms : List (MsmMask G)),
    MsmMask.sample pp dbg gen vals rngIn rngOut = .ok ms ∧ ∀ p < 4 * pp.l, ms[p]? = some (masks p)) ∨
  ∀ p, masks p = MsmMask.zero

theorem IsMsmMasks.ok {dbg₀ : Bool} {b : Nat} {pp : PSS F} (hpp : PSS.new dbg₀ (2 ^ b) = .ok pp)
    {masks : Nat → MsmMask G} (h : IsMsmMasks pp masks) : MsmMasksOk pp masks := by
  have hg := PSS.good_of_new hpp
  rcases h with ⟨dbg, gen, vals, r1, r2, ms, e, h⟩ | h
  · obtain ⟨ms', e', hl, hm⟩ := MsmMasksOk.of_sample hg dbg gen vals r1 r2
    obtain rfl : ms' = ms := by rw [e] at e'; cases e'; rfl
    have hget : ∀ p ∈ List.range (4 * pp.l), ms'.getD p MsmMask.zero = masks p := fun p hp => by
      rw [List.getD_eq_getElem?_getD, h p (List.mem_range.1 hp)]; rfl
    obtain ⟨v, h1, h2⟩ := hm
    refine ⟨v, ?_, ?_⟩
    · rw [List.map_congr_left (g := fun p => (masks p).inMask) fun p hp => by simp only; rw [hget p hp]] at h1; exact h1
    · rw [List.map_congr_left (g := fun p => (masks p).outMask) fun p hp => by simp only; rw [hget p hp]] at h2; exact h2
  · obtain rfl : masks = fun _ => MsmMask.zero := funext h
    exact MsmMasksOk.zero hg

variable [FixedWire G]

/-- **C25** `d_msm` on dealt bases and scalars: under every schedule every party ends with a share, and both `unpack` and
`unpack2` open these to `l` copies of the multi-scalar product of the secret bases and scalars. -/
theorem C25_d_msm {dbg₀ : Bool} {b : Nat} {pp : PSS F} (hpp : PSS.new dbg₀ (2 ^ b) = .ok pp) (dbg : Bool) {N : Nat}
    (hN : 0 < N) (bases : List G) (scalars : List F) (hb : bases.length = N * 2 ^ b) (hs : scalars.length = N * 2 ^ b)
    (masks : Nat → MsmMask G) (hm : IsMsmMasks pp masks) (sid : Sid) (rngb : Nat → Nat → G) (rngs : Nat → Nat → F) :
    ∃ (sb : List (List G)) (ss : List (List F)) (outs : Nat → G),
      (do let rows ← pp.packVec dbg bases rngb; transpose rows) = .ok sb ∧
      (do let rows ← pp.packVec dbg scalars rngs; transpose rows) = .ok ss ∧
      AlwaysYields (Net.init fun i : Fin (4 * 2 ^ b) =>
        pp.dMsm dbg (4 * 2 ^ b) i (sb.getD i []) (ss.getD i []) (masks i) sid) (fun i => outs i) ∧
      Spec.Sharing pp.share.groupGen pp.secret.offset (2 ^ b) (2 * 2 ^ b) ((List.range (4 * 2 ^ b)).map outs)
        (List.replicate (2 ^ b) (∑ i ∈ range (N * 2 ^ b), scalars.getD i 0 • bases.getD i 0)) ∧
      pp.unpack ((List.range (4 * 2 ^ b)).map outs) =
        List.replicate (2 ^ b) (∑ i ∈ range (N * 2 ^ b), scalars.getD i 0 • bases.getD i 0) ∧
      pp.unpack2 dbg ((List.range (4 * 2 ^ b)).map outs) =
        .ok (List.replicate (2 ^ b) (∑ i ∈ range (N * 2 ^ b), scalars.getD i 0 • bases.getD i 0)) := by
  have hle := l_eq hpp
  have hg := PSS.good_of_new hpp
  have hl := hg.lpos
  obtain ⟨sb, eb, hsb⟩ := deal hpp dbg hN bases hb rngb
  obtain ⟨ss, es, hss⟩ := deal hpp dbg hN scalars hs rngs
  rw [← hle] at hsb hss
  obtain ⟨outs, hr, ho⟩ := PSS.dMsm_runs (n := 4 * 2 ^ b) hg dbg (by rw [hle]) (by omega) (by omega) hsb hss (hm.ok hpp) sid
  have hsum : ∑ k ∈ range pp.l, ∑ c ∈ range N, (chunks pp.l (fun i => scalars.getD i 0) c).getD k 0 •
      (chunks pp.l (fun i => bases.getD i 0) c).getD k 0 = ∑ i ∈ range (N * 2 ^ b), scalars.getD i 0 • bases.getD i 0 := by
    rw [sum_comm, ← hle]
    have : ∀ N, ∑ i ∈ range (N * pp.l), scalars.getD i 0 • bases.getD i 0 =
        ∑ c ∈ range N, ∑ k ∈ range pp.l, scalars.getD (c * pp.l + k) 0 • bases.getD (c * pp.l + k) 0 := by
      intro N
      induction N with
      | zero => simp
      | succ N ih => rw [Nat.add_mul, Nat.one_mul, sum_range_add, ih, sum_range_succ]
    rw [this]
    apply sum_congr rfl
    intro c _
    apply sum_congr rfl
    intro k hk
    have hk := mem_range.1 hk
    unfold chunks
    rw [getD_map_range, if_pos hk, getD_map_range, if_pos hk]
  rw [hsum] at ho
  refine ⟨sb, ss, outs, eb, es, hr.alwaysYields fun i => PSS.dMsm_wf _ (by positivity) _ _ _ _ _, ?_, ?_, ?_⟩
  · rw [PSS.Shares, hle] at ho; exact ho
  · have := PSS.unpack_of_shares hg le_rfl ho
    rw [hle] at this; exact this
  · have := PSS.unpack2_of_shares hg dbg (by omega) ho
    rw [hle] at this; exact this

/-- **C25** Unequal lengths are refused locally, before anything is sent: a panic in a debug build, an error in a release
build. -/
theorem C25_unequal_lengths (pp : PSS F) (dbg : Bool) (n me : Nat) (bases : List G) (scalars : List F)
    (h : bases.length ≠ scalars.length) (mask : MsmMask G) (sid : Sid) :
    pp.dMsm dbg n me bases scalars mask sid = .done (.error (if dbg then .panic else .net .generic)) := by
  cases dbg
  · have : msm bases scalars = .error (.net .generic) := by unfold msm; rw [if_neg h]
    unfold PSS.dMsm
    rw [this]
    rfl
  · have : debugAssert true (bases.length == scalars.length) = panic' := by simp [debugAssert, h]
    unfold PSS.dMsm
    rw [this]
    rfl

end dmsm

/-! ### C26 -/

section dpp
variable [FixedWire F]

/-- **C26** `d_pp` on dealt vectors without zero denominators: under every schedule the parties end with shares of the
running products `Π_{j ≤ i} num[j]/den[j]`. -/
theorem C26_d_pp {dbg₀ : Bool} {b : Nat} {pp : PSS F} (hpp : PSS.new dbg₀ (2 ^ b) = .ok pp) (dbg : Bool) {N : Nat}
    (hN : 0 < N) (hN64 : N + N < 2 ^ 64) (num den : List F) (hnum : num.length = N * 2 ^ b) (hden : den.length = N * 2 ^ b)
    (h0 : ∀ y ∈ den, y ≠ 0) (masks : Nat → DegRedMask F) (hm : IsDegRedMasks pp N masks) (sid : Sid)
    (rngn rngd rng rng' : Nat → Nat → F) :
    ∃ (sn sd : List (List F)) (outs : Nat → List F),
      (do let rows ← pp.packVec dbg num rngn; transpose rows) = .ok sn ∧
      (do let rows ← pp.packVec dbg den rngd; transpose rows) = .ok sd ∧
      AlwaysYields (Net.init fun i : Fin (4 * 2 ^ b) =>
        pp.dPp dbg (4 * 2 ^ b) i (sn.getD i []) (sd.getD i []) (masks i) sid rng rng') (fun i => outs i) ∧
      opened pp N outs = (List.range (N * 2 ^ b)).map fun i => ∏ j ∈ range (i + 1), num.getD j 0 / den.getD j 0 := by
  have hle := l_eq hpp
  have hg := PSS.good_of_new hpp
  have hl := hg.lpos
  obtain ⟨sn, en, hsn⟩ := deal hpp dbg hN num hnum rngn
  obtain ⟨sd, ed, hsd⟩ := deal hpp dbg hN den hden rngd
  rw [← hle] at hsn hsd
  obtain ⟨outs, hr, ho⟩ := PSS.dPp_runs (n := 4 * 2 ^ b) hg dbg (by rw [hle]) hN hN64 (by omega) (by omega)
    (fun i => num.getD i 0) (fun i => den.getD i 0)
    (fun i hi => by
      rw [hle] at hi
      rw [List.getD_eq_getElem _ _ (by omega)]
      exact h0 _ (List.getElem_mem _)) hsn hsd (hm.ok hpp hN) sid rng rng'
  refine ⟨sn, sd, outs, en, ed, hr.alwaysYields fun i => PSS.dPp_wf _ (by positivity) _ _ _ _ _ _ _, ?_⟩
  rw [opened_chunks hg le_rfl ho, hle]
  rfl

/-- **C26** With a zero denominator the king panics under every schedule, and every other party waits forever. -/
theorem C26_zero_denominator {dbg₀ : Bool} {b : Nat} {pp : PSS F} (hpp : PSS.new dbg₀ (2 ^ b) = .ok pp) (dbg : Bool) {N : Nat}
    (hN : 0 < N) (hN64 : N + N < 2 ^ 64) (num den : List F) (hnum : num.length = N * 2 ^ b) (hden : den.length = N * 2 ^ b)
    (h0 : 0 ∈ den) (masks : Nat → DegRedMask F) (sid : Sid)
    (rngn rngd rng rng' : Nat → Nat → F) :
    ∃ sn sd : List (List F),
      (do let rows ← pp.packVec dbg num rngn; transpose rows) = .ok sn ∧
      (do let rows ← pp.packVec dbg den rngd; transpose rows) = .ok sd ∧
      AlwaysKingFails (Net.init fun i : Fin (4 * 2 ^ b) =>
        pp.dPp dbg (4 * 2 ^ b) i (sn.getD i []) (sd.getD i []) (masks i) sid rng rng') .panic := by
  have hle := l_eq hpp
  have hg := PSS.good_of_new hpp
  have hl := hg.lpos
  obtain ⟨sn, en, hsn⟩ := deal hpp dbg hN num hnum rngn
  obtain ⟨sd, ed, hsd⟩ := deal hpp dbg hN den hden rngd
  rw [← hle] at hsn hsd
  obtain ⟨i₀, hi₀, hy⟩ := List.getElem_of_mem h0
  have hsh := SharedVec.append hsn hsd
  have hK := PSS.ppKing_panic hg dbg hN (by omega) (by omega) (fun i => num.getD i 0) (fun i => den.getD i 0)
    (i₀ := i₀) (by rw [hle]; omega) (by rw [List.getD_eq_getElem _ _ hi₀]; exact hy) hsh rng
  refine ⟨sn, sd, en, ed, ?_⟩
  have hprog : (fun i : Fin (4 * 2 ^ b) => pp.dPp dbg (4 * 2 ^ b) i (sn.getD i []) (sd.getD i []) (masks i) sid rng rng') =
      fun i : Fin (4 * 2 ^ b) => (clientSendOrKingReceiveSer (4 * 2 ^ b) i (sn.getD i [] ++ sd.getD i []) sid pp.t).bind fun r =>
        (Proc.done (kingDo (fun rs : ReceivedShares (List F) => pp.ppKing dbg rs.shares rs.parties rng) r)).bind fun a =>
          (clientReceiveOrKingSendSer (4 * 2 ^ b) i a sid).bind fun y => pp.degRed dbg (4 * 2 ^ b) i y (masks i) sid rng' := by
    funext i
    rw [PSS.dPp_eq]
  rw [hprog]
  refine round_king_fails (by positivity) sid pp.t (fun i => sn.getD i [] ++ sd.getD i [])
    (fun i hi => Wire.ok_list _ (by have := hsh.1 i (by omega); simp only at this; rw [this]; exact hN64))
    (fun _ rs => pp.ppKing dbg rs.shares rs.parties rng) .panic ?_ (fun i y => pp.degRed dbg (4 * 2 ^ b) i y (masks i) sid rng')
    fun i y => PSS.degRed_wf _ (by positivity) _ _ _ _ _
  rw [← hle]
  exact hK

end dpp

/-! ### Examples -/

/-- C24: 8 parties, two packed positions. -/
example (dbg : Bool) (sid : Sid) (rngx rngy rng : Nat → Nat → ZMod 17) : ∃ (sx sy : List (List (ZMod 17))) (outs : Nat → List (ZMod 17)),
    (do let rows ← pp17.packVec dbg [3, 0, 5, 16] rngx; transpose rows) = .ok sx ∧
    (do let rows ← pp17.packVec dbg [2, 7, 5, 16] rngy; transpose rows) = .ok sy ∧
    AlwaysYields (Net.init fun i : Fin (4 * 2 ^ 1) =>
      pp17.degRed dbg (4 * 2 ^ 1) i (List.zipWith (· * ·) (sx.getD i []) (sy.getD i [])) (DegRedMask.zero 2) sid rng)
      (fun i => outs i) ∧
    opened pp17 2 outs = [6, 0, 8, 1] :=
  C24_multiply (b := 1) (pp17_eq dbg) dbg (N := 2) (by omega) (by omega) [3, 0, 5, 16] [2, 7, 5, 16] rfl rfl _
    (Or.inr fun _ => rfl) sid rngx rngy rng

/-- C25: scalars and bases in the same field; `1·2 + 2·3 + 3·5 + 5·7 = 58 = 7`. -/
example (dbg : Bool) (sid : Sid) (rngb rngs : Nat → Nat → ZMod 17) : ∃ (sb ss : List (List (ZMod 17))) (outs : Nat → ZMod 17),
    (do let rows ← pp17.packVec dbg [2, 3, 5, 7] rngb; transpose rows) = .ok sb ∧
    (do let rows ← pp17.packVec dbg [1, 2, 3, 5] rngs; transpose rows) = .ok ss ∧
    AlwaysYields (Net.init fun i : Fin (4 * 2 ^ 1) =>
      pp17.dMsm dbg (4 * 2 ^ 1) i (sb.getD i []) (ss.getD i []) MsmMask.zero sid) (fun i => outs i) ∧
    pp17.unpack ((List.range 8).map outs) = [7, 7] := by
  obtain ⟨sb, ss, outs, h1, h2, h3, -, h4, -⟩ := C25_d_msm (b := 1) (pp17_eq dbg) dbg (N := 2) (by omega)
    ([2, 3, 5, 7] : List (ZMod 17)) [1, 2, 3, 5] rfl rfl _ (Or.inr fun _ => rfl) sid rngb rngs
  exact ⟨sb, ss, outs, h1, h2, h3, h4⟩

/-- C25: a vector of two bases and one scalar. -/
example : ([2, 3] : List (ZMod 17)).length ≠ ([1] : List (ZMod 17)).length := by decide

/-- C26: running products of `[2, 3, 1, 4] / [1, 1, 2, 3]` modulo 17. -/
example (dbg : Bool) (sid : Sid) (rngn rngd rng rng' : Nat → Nat → ZMod 17) :
    ∃ (sn sd : List (List (ZMod 17))) (outs : Nat → List (ZMod 17)),
    (do let rows ← pp17.packVec dbg [2, 3, 1, 4] rngn; transpose rows) = .ok sn ∧
    (do let rows ← pp17.packVec dbg [1, 1, 2, 3] rngd; transpose rows) = .ok sd ∧
    AlwaysYields (Net.init fun i : Fin (4 * 2 ^ 1) =>
      pp17.dPp dbg (4 * 2 ^ 1) i (sn.getD i []) (sd.getD i []) (DegRedMask.zero 2) sid rng rng') (fun i => outs i) ∧
    opened pp17 2 outs = [2, 6, 3, 4] := by
  obtain ⟨sn, sd, outs, h1, h2, h3, h4⟩ := C26_d_pp (b := 1) (pp17_eq dbg) dbg (N := 2) (by omega) (by omega)
    ([2, 3, 1, 4] : List (ZMod 17)) [1, 1, 2, 3] rfl rfl (by decide) _ (Or.inr fun _ => rfl) sid rngn rngd rng rng'
  refine ⟨sn, sd, outs, h1, h2, h3, ?_⟩
  rw [h4]
  decide +kernel

/-- C26: a vector with a zero denominator. -/
example (dbg : Bool) (sid : Sid) (rngn rngd rng rng' : Nat → Nat → ZMod 17) : ∃ sn sd : List (List (ZMod 17)),
    (do let rows ← pp17.packVec dbg [2, 3, 1, 4] rngn; transpose rows) = .ok sn ∧
    (do let rows ← pp17.packVec dbg [1, 0, 2, 3] rngd; transpose rows) = .ok sd ∧
    AlwaysKingFails (Net.init fun i : Fin (4 * 2 ^ 1) =>
      pp17.dPp dbg (4 * 2 ^ 1) i (sn.getD i []) (sd.getD i []) (DegRedMask.zero 2) sid rng rng') .panic :=
  C26_zero_denominator (b := 1) (pp17_eq dbg) dbg (N := 2) (by omega) (by omega) _ _ rfl rfl (by decide)
    (fun _ => DegRedMask.zero 2) sid rngn rngd rng rng'

/-- Example for C24: shares of degree below 4 of `[3, 5]` are packed anew. -/
example (dbg : Bool) : ∃ (sh : List (List (ZMod 17))) (outs : Nat → List (ZMod 17)),
    (do let rows ← pp17.packVec dbg [3, 5] (fun _ _ => 1); transpose rows) = .ok sh ∧
    AlwaysYields (Net.init fun i : Fin (4 * 2 ^ 1) =>
      pp17.degRed dbg (4 * 2 ^ 1) i (sh.getD i []) (DegRedMask.zero 1) .zero fun i j => i + j) (fun i => outs i) ∧
    pp17.unpack ((List.range (4 * 2 ^ 1)).map fun p => (outs p).getD 0 0) = [3, 5] := by
  obtain ⟨sh, e, h⟩ := deal (b := 1) (pp17_eq dbg) dbg (N := 1) (by norm_num) ([3, 5] : List (ZMod 17)) rfl fun _ _ => 1
  obtain ⟨outs, h1, -, h2⟩ := C24_deg_red (T := ZMod 17) (pp17_eq true) dbg (N := 1) (d := 2 * 2 ^ 1) (by norm_num) (by norm_num)
    (by norm_num) (by norm_num) _ _ h (fun _ => DegRedMask.zero 1) (.inr fun _ => rfl) .zero fun i j => i + j
  exact ⟨sh, outs, e, h1, (h2 0 (by norm_num)).trans (by decide)⟩

example : pp17.dMsm false 8 3 ([2, 3] : List (ZMod 17)) [1] MsmMask.zero .zero = .done (.error (.net .generic)) :=
  C25_unequal_lengths pp17 false 8 3 [2, 3] [1] (by decide) MsmMask.zero .zero

end ZkSaas.Properties
