import Verif.Properties.OpenMsm
import Verif.Properties.Malicious
import Verif.Spec.RogueKing

/-!
# C78: the king changes results as it likes, and no server notices
-/

set_option linter.unusedSectionVars false

namespace ZkSaas.Properties

open Finset Polynomial Spec

variable {F : Type} [Field F] [FftField F] [DecidableEq F] [FixedWire F]

section rounds
variable {G : Type} [AddCommGroup G] [Module F G] [DecidableEq G] [FixedWire G]

theorem roundWith_eq {T U : Type} [Wire T] [Wire U] (n me : Nat) (out : T) (sid : Sid) (threshold : Nat) (K : List T → List U) :
    roundWith n me out sid threshold K = (clientSendOrKingReceiveSer n me out sid threshold).bind fun r =>
      (Proc.done (kingDo (fun rs : ReceivedShares T => (.ok (K rs.shares) : Res (List U))) r)).bind fun a =>
      (clientReceiveOrKingSendSer n me a sid).bind fun y => .done (.ok y) := by
  unfold roundWith
  congr 1
  funext r
  congr 1
  funext a
  exact (Proc.bind_pure' _).symm

/-- A round with a king who answers as it likes. -/
theorem round_yields {T U α : Type} [Wire T] [Wire U] {n : Nat} (hn : 0 < n) (sid : Sid) (threshold : Nat) (x : Nat → T)
    (hx : ∀ i < n, Wire.Ok (x i)) (K : List T → List U) (ans : Nat → U) (m : Nat) (hK : K ((List.range n).map x) = (List.range n).map ans)
    (hans : ∀ i < n, Wire.Ok (ans i) ∧ (Wire.enc (ans i)).length = m) (f : Fin n → U → α) {ps : Fin n → Proc α}
    (h0 : ∀ i : Fin n, i.val = 0 → ps i = (roundWith n 0 (x 0) sid threshold K).bind fun y => .done (.ok (f i y)))
    (hK' : ∀ i : Fin n, i.val ≠ 0 → ∃ K' : ReceivedShares T → Res (List U), ps i = (clientSendOrKingReceiveSer n i (x i) sid threshold).bind fun r =>
      (Proc.done (kingDo K' r)).bind fun a => (clientReceiveOrKingSendSer n i a sid).bind fun y => .done (.ok (f i y))) :
    AlwaysYields (Net.init ps) (fun i => f i (ans i)) := by
  choose! K' hK' using hK'
  have hps : ∀ i : Fin n, ps i = (clientSendOrKingReceiveSer n i (x i) sid threshold).bind fun r =>
      (Proc.done (kingDo (if i.val = 0 then fun rs : ReceivedShares T => (.ok (K rs.shares) : Res (List U)) else K' i) r)).bind fun a =>
      (clientReceiveOrKingSendSer n i a sid).bind fun y => .done (.ok (f i y)) := by
    intro i
    by_cases hi : i.val = 0
    · rw [h0 i hi, roundWith_eq, hi]
      simp only [if_true, Proc.bind_assoc]
      rfl
    · rw [hK' i hi]
      simp only [hi, if_false]
  refine Runs.alwaysYields (P := All) (S := only sid) (Runs.congr (runs_round hn sid threshold x hx _ ans m ?_ hans
    (fun i y => .done (.ok (f i y))) (Runs.done _)) hps fun _ => rfl) fun i => ?_
  · simp only [if_true, hK]
  · rw [hps]
    exact round_wf hn _ _ _ _ _ _ fun _ => .done _ _

theorem map_getD {T : Type} (v : List T) (d : T) {n : Nat} (h : v.length = n) : v = (List.range n).map fun i => v.getD i d := by
  refine List.ext_getElem (by simp [h]) fun i h1 h2 => ?_
  rw [List.getElem_map, List.getElem_range, List.getD_eq_getElem _ _ h1]

/-- **C78** `d_msm`: whatever the king answers to whatever it is sent, every other party takes the answer, adds its mask and finishes, in
debug builds as in release builds. This is for any shares and masks; the king need not know its own. -/
theorem C78_d_msm (pp : PSS F) (dbg : Bool) {n : Nat} (hn : 0 < n) (bs : Nat → List G) (ss : Nat → List F)
    (hlen : ∀ i < n, (bs i).length = (ss i).length) (masks : Nat → MsmMask G) (sid : Sid) (own : G) (K : List G → List G)
    (hK : ∀ v, (K v).length = n) :
    AlwaysYields (Net.init fun i : Fin n => if i.val = 0 then roundWith n 0 own sid pp.t K else pp.dMsm dbg n i (bs i) (ss i) (masks i) sid)
      (fun i => (K ((List.range n).map fun p => if p = 0 then own else
        (∑ c ∈ range (bs p).length, (ss p).getD c 0 • (bs p).getD c 0) + (masks p).inMask)).getD i 0 +
          if i.val = 0 then 0 else (masks i).outMask) := by
  refine round_yields hn sid pp.t (fun p => if p = 0 then own else
    (∑ c ∈ range (bs p).length, (ss p).getD c 0 • (bs p).getD c 0) + (masks p).inMask) (fun _ _ => Wire.ok_fixed _) K _ (FixedWire.width G)
    (map_getD _ 0 (hK _)) (fun i hi => ⟨Wire.ok_fixed _, FixedWire.enc_length _⟩) (fun i y => y + if i.val = 0 then 0 else (masks i).outMask)
    (fun i hi => ?_) fun i hi => ⟨fun rs => pp.msmKing dbg n rs.shares rs.parties, ?_⟩
  · simp only [hi, if_true, add_zero]
    exact (Proc.bind_pure' _).symm
  · simp only [hi, if_false]
    unfold PSS.dMsm
    rw [debugAssert_of (by simp [hlen i i.2]), msm_eq rfl (hlen i i.2).symm]
    rfl

/-- **C78** `deg_red`, in the same way. -/
theorem C78_deg_red (pp : PSS F) (dbg : Bool) {n N M : Nat} (hn : 0 < n) (hN : N < 2 ^ 64) (hM : M < 2 ^ 64) (sh : Nat → List G)
    (masks : Nat → DegRedMask G) (hsh : ∀ i < n, (sh i).length = N) (hin : ∀ i < n, (masks i).inMask.length = N)
    (hout : ∀ i < n, (masks i).outMask.length = N) (sid : Sid) (rng : Nat → Nat → G) (own : List G) (hown : own.length = N)
    (K : List (List G) → List (List G)) (hK : ∀ v, (K v).length = n ∧ ∀ y ∈ K v, y.length = M) :
    AlwaysYields (Net.init fun i : Fin n => if i.val = 0 then roundWith n 0 own sid pp.t K else pp.degRed dbg n i (sh i) (masks i) sid rng)
      (fun i =>
        let y := (K ((List.range n).map fun p => if p = 0 then own else List.zipWith (· + ·) (sh p) (masks p).inMask)).getD i []
        if i.val = 0 then y else List.zipWith (· + ·) y (masks i).outMask) := by
  refine round_yields hn sid pp.t (fun p => if p = 0 then own else List.zipWith (· + ·) (sh p) (masks p).inMask) (fun i hi => ?_) K _
    (8 + M * FixedWire.width G) (map_getD _ [] (hK _).1) (fun i hi => ?_)
    (fun i y => if i.val = 0 then y else List.zipWith (· + ·) y (masks i).outMask)
    (fun i hi => ?_) fun i hi => ⟨fun rs => pp.degRedKing dbg rs.shares rs.parties rng, ?_⟩
  · refine Wire.ok_list _ ?_
    by_cases h : i = 0
    · simp only [h, if_true, hown, hN]
    · simp only [h, if_false, List.length_zipWith, hsh i hi, hin i hi, min_self, hN]
  · have hm := (hK ((List.range n).map fun p => if p = 0 then own else List.zipWith (· + ·) (sh p) (masks p).inMask)).2 _
      (List.getElem_mem (by rw [(hK _).1]; exact hi : i < _))
    rw [List.getD_eq_getElem _ _ (by rw [(hK _).1]; exact hi)]
    exact ⟨Wire.ok_list _ (by rw [hm]; exact hM), by rw [Wire.enc_list_length, hm]⟩
  · simp only [hi, if_true]
    exact (Proc.bind_pure' _).symm
  · simp only [hi, if_false]
    unfold PSS.degRed
    rw [debugAssert_of (by rw [hsh i i.2, hin i i.2]; simp), debugAssert_of (by rw [hsh i i.2, hout i i.2]; simp)]
    rfl

/-- **C78** The second half of `d_fft` and `d_ifft`, in the same way. -/
theorem C78_fft2 (pp : PSS F) (dbg : Bool) {n N M : Nat} (hn : 0 < n) (hN : N < 2 ^ 64) (hM : M < 2 ^ 64) (px : Nat → List F)
    (masks : Nat → FftMask F) (hpx : ∀ i < n, (px i).length = N) (rearrange : Bool) (g gen : F)
    (sid : Sid) (rng : Nat → Nat → F) (own : List F) (hown : own.length = N)
    (K : List (List F) → List (List F)) (hK : ∀ v, (K v).length = n ∧ ∀ y ∈ K v, y.length = M) :
    AlwaysYields (Net.init fun i : Fin n => if i.val = 0 then roundWith n 0 own sid pp.t K else
        pp.fft2WithRearrange dbg n i (px i) (masks i) rearrange g gen sid rng)
      (fun i =>
        let y := (K ((List.range n).map fun p => if p = 0 then own else List.zipWith (· + ·) (px p) (masks p).inMask)).getD i []
        if i.val = 0 then y else List.zipWith (· + ·) y (masks i).outMask) := by
  refine round_yields hn sid pp.t (fun p => if p = 0 then own else List.zipWith (· + ·) (px p) (masks p).inMask) (fun i hi => ?_) K _
    (8 + M * FixedWire.width F) (map_getD _ [] (hK _).1) (fun i hi => ?_)
    (fun i y => if i.val = 0 then y else List.zipWith (· + ·) y (masks i).outMask)
    (fun i hi => ?_) fun i hi => ⟨fun rs => pp.fft2King dbg (addMask (px i) (masks i).inMask).length (px i).length g gen rearrange rs.shares rs.parties rng, ?_⟩
  · refine Wire.ok_list _ ?_
    by_cases h : i = 0
    · simp only [h, if_true, hown, hN]
    · simp only [h, if_false, List.length_zipWith, hpx i hi]
      exact lt_of_le_of_lt (min_le_left _ _) hN
  · have hm := (hK ((List.range n).map fun p => if p = 0 then own else List.zipWith (· + ·) (px p) (masks p).inMask)).2 _
      (List.getElem_mem (by rw [(hK _).1]; exact hi : i < _))
    rw [List.getD_eq_getElem _ _ (by rw [(hK _).1]; exact hi)]
    exact ⟨Wire.ok_list _ (by rw [hm]; exact hM), by rw [Wire.enc_list_length, hm]⟩
  · simp only [hi, if_true]
    exact (Proc.bind_pure' _).symm
  · simp only [hi, if_false]
    rfl

end rounds

section held
variable {T : Type} [AddCommGroup T] [Module F T] [DecidableEq T] {dbg₀ : Bool} {b : Nat} {pp : PSS F}

theorem HoldsValue.const (hpp : PSS.new dbg₀ (2 ^ b) = .ok pp) (v : T) : HoldsValue pp b (fun _ => v) v := by
  have := SharedValue.const (pp := pp) (d := 2 * pp.l) (by have := (PSS.good_of_new hpp).lpos; omega) v
  rwa [PSS.SharedValue, l_eq hpp] at this

theorem HoldsValue.addConst (hpp : PSS.new dbg₀ (2 ^ b) = .ok pp) {x : Nat → T} {v : T} (hx : HoldsValue pp b x v) (w : T) :
    HoldsValue pp b (fun p => x p + w) (v + w) := by
  have h2 := HoldsValue.const hpp w
  rw [HoldsValue, ← l_eq hpp] at hx h2 ⊢
  exact SharedValue.add hx h2

theorem HoldsValue.mulConst (hpp : PSS.new dbg₀ (2 ^ b) = .ok pp) {x : Nat → F} {v : F} (hx : HoldsValue pp b x v) (w : T) :
    HoldsValue pp b (fun p => x p • w) (v • w) := by
  rw [HoldsValue, ← l_eq hpp] at hx ⊢
  exact SharedValue.mulConst hx w

theorem HoldsProduct.add (hpp : PSS.new dbg₀ (2 ^ b) = .ok pp) {x y : Nat → T} {v w : T} (hx : HoldsProduct pp b x v)
    (hy : HoldsProduct pp b y w) : HoldsProduct pp b (fun p => x p + y p) (v + w) := by
  rw [HoldsProduct, ← l_eq hpp] at hx hy ⊢
  exact SharedValue.add hx hy

theorem HoldsProduct.congr {x y : Nat → T} {v : T} (hx : HoldsProduct pp b x v) (h : ∀ p < 4 * 2 ^ b, y p = x p) : HoldsProduct pp b y v := by
  rw [HoldsProduct, Spec.SharedValue, List.map_congr_left fun p hp => h p (List.mem_range.1 hp)]
  exact hx

end held

section shift
variable {G : Type} [AddCommGroup G] [Module F G] [DecidableEq G] [FixedWire G]

/-- Only the king runs its closure. -/
theorem dMsmShift_server {pp : PSS F} (dbg : Bool) (n : Nat) {me : Nat} (hme : me ≠ 0) (Δ : G) (bases : List G) (scalars : List F)
    (mask : MsmMask G) (sid : Sid) : dMsmShift pp dbg n me Δ bases scalars mask sid = pp.dMsm dbg n me bases scalars mask sid := by
  have key : ∀ (x : G) (K K' : ReceivedShares G → Res (List G)) (f : G → Proc G),
      ((clientSendOrKingReceiveSer n me x sid pp.t).bind fun r => (Proc.done (kingDo K r)).bind fun a =>
        (clientReceiveOrKingSendSer n me a sid).bind f) =
      ((clientSendOrKingReceiveSer n me x sid pp.t).bind fun r => (Proc.done (kingDo K' r)).bind fun a =>
        (clientReceiveOrKingSendSer n me a sid).bind f) := by
    intro x K K' f
    unfold clientSendOrKingReceiveSer clientSendOrKingReceive
    rw [if_neg hme]
    rfl
  unfold dMsmShift PSS.dMsm
  congr 1
  funext _
  congr 1
  funext c
  exact key _ _ _ _

theorem dMsmShift_wf {pp : PSS F} (dbg : Bool) {n : Nat} (hn : 0 < n) (me : Nat) (Δ : G) (bases : List G) (scalars : List F)
    (mask : MsmMask G) (sid : Sid) : (dMsmShift pp dbg n me Δ bases scalars mask sid).WF (only sid) :=
  (Proc.WF.done _ _).bind fun _ => (Proc.WF.done _ _).bind fun _ => round_wf hn sid _ _ _ _ _ fun _ => .done _ _

/-- `d_msm` with the honest king and with one who adds `Δ`. -/
theorem dMsm_shift {dbg₀ : Bool} {b : Nat} {pp : PSS F} (hpp : PSS.new dbg₀ (2 ^ b) = .ok pp) (dbg : Bool) {y : List G} {x : List F}
    (hlen : x.length = y.length) {bs : Nat → List G} {ss : Nat → List F} (hb : HoldsChunks pp b bs y) (hs : HoldsChunks pp b ss x)
    (gen : G) (t : MsmTape F G) (sid : Sid) (Δ : G) :
    ∃ (outs : Nat → G) (vs vs' : Fin (4 * 2 ^ b) → Transcript),
      RunsV All (only sid) (fun i : Fin (4 * 2 ^ b) => pp.dMsm dbg (4 * 2 ^ b) i (bs i) (ss i) (pp.msmDealt gen t i) sid) (fun i => outs i) vs ∧
      RunsV All (only sid) (fun i : Fin (4 * 2 ^ b) => dMsmShift pp dbg (4 * 2 ^ b) i Δ (bs i) (ss i) (pp.msmDealt gen t i) sid)
        (fun i => outs i + Δ) vs' := by
  have hle := l_eq hpp
  have hg := PSS.good_of_new hpp
  have hl := hg.lpos
  have hb := hb.vec hpp rfl
  have hs := hs.vec hpp hlen
  obtain ⟨c, e1, hc⟩ := msm_shared hb hs
  have hin : pp.Shares (2 * pp.l) ((List.range (4 * pp.l)).map fun p => (pp.msmDealt gen t p).inMask)
      ((List.range pp.l).map fun i => t.vals i • gen) := PSS.fresh_one hg (by simp) _
  have hsum := Shares.add hc (Shares.mono (by omega) hin)
  rw [List.zipWith_map_left, List.zipWith_map_right, List.zipWith_self] at hsum
  have hK := PSS.msmKing_ok hg dbg (4 * 2 ^ b) (by omega) (Or.inl rfl : pp.Decodable dbg _ _) hsum
  have round : ∀ (K : Fin (4 * 2 ^ b) → ReceivedShares G → Res (List G)) (ans : G),
      K ⟨0, by positivity⟩ ⟨(List.range (4 * 2 ^ b)).map fun i => c i + (pp.msmDealt gen t i).inMask, List.range (4 * 2 ^ b)⟩ =
        .ok ((List.range (4 * 2 ^ b)).map fun _ => ans) → _ := fun K ans h =>
    runsV_round (α := G) (by positivity : 0 < 4 * 2 ^ b) sid pp.t (fun i => c i + (pp.msmDealt gen t i).inMask) (fun i hi => Wire.ok_fixed _)
      K (fun i => ans) (FixedWire.width G) h (fun i hi => ⟨Wire.ok_fixed _, FixedWire.enc_length _⟩)
      (fun i y => .done (.ok (y + (pp.msmDealt gen t i).outMask))) (RunsV.done _)
  rw [hle] at hK e1 hb hs
  have h1 := round (fun i rs => pp.msmKing dbg (4 * 2 ^ b) rs.shares rs.parties) _ (hK.trans (by simp; rfl))
  have h2 := round (fun i rs => (pp.msmKing dbg (4 * 2 ^ b) rs.shares rs.parties).map fun v => v.map (· + Δ)) _
    (by dsimp only; rw [hK]; simp [Except.map]; rfl)
  refine ⟨fun p => _ + (pp.msmDealt gen t p).outMask, _, _, RunsV.congr h1 (fun i => ?_) (fun i => rfl) fun i => rfl,
    RunsV.congr h2 (fun i => ?_) (fun i => ?_) fun i => rfl⟩
  · unfold PSS.dMsm
    rw [debugAssert_of (by rw [hb.1 i (by rw [hle]; exact i.2), hs.1 i (by rw [hle]; exact i.2)]; simp), e1 i i.2]
    rfl
  · unfold dMsmShift
    rw [debugAssert_of (by rw [hb.1 i (by rw [hle]; exact i.2), hs.1 i (by rw [hle]; exact i.2)]; simp), e1 i i.2]
    rfl
  · exact add_right_comm _ _ _

/-- **C78** A king who adds `Δ` to its answer in `d_msm`: the servers end with regular shares of the sum plus `Δ`. -/
theorem C78_d_msm_shift {dbg₀ : Bool} {b : Nat} {pp : PSS F} (hpp : PSS.new dbg₀ (2 ^ b) = .ok pp) (dbg : Bool) {y : List G} {x : List F}
    (hlen : x.length = y.length) {bs : Nat → List G} {ss : Nat → List F} (hb : HoldsChunks pp b bs y) (hs : HoldsChunks pp b ss x)
    (gen : G) (t : MsmTape F G) (masks : Nat → MsmMask G)
    (hm : MsmMask.sample pp dbg gen t.vals t.rngIn t.rngOut = .ok ((List.range (4 * 2 ^ b)).map masks)) (sid : Sid) (Δ : G) :
    ∃ outs : Nat → G,
      AlwaysYields (Net.init fun i : Fin (4 * 2 ^ b) => if i.val = 0 then dMsmShift pp dbg (4 * 2 ^ b) 0 Δ (bs 0) (ss 0) (masks 0) sid else
        pp.dMsm dbg (4 * 2 ^ b) i (bs i) (ss i) (masks i) sid) (fun i => outs i) ∧
      HoldsValue pp b outs ((∑ i ∈ range y.length, x.getD i 0 • y.getD i 0) + Δ) := by
  have hn : 0 < 4 * 2 ^ b := by positivity
  have mm := MsmMask.sample_dealt (PSS.good_of_new hpp) dbg gen t
  rw [hm, l_eq hpp] at mm
  have hmk : ∀ p < 4 * 2 ^ b, masks p = pp.msmDealt gen t p := fun p hp =>
    List.map_inj_left.1 (Except.ok.inj mm) p (List.mem_range.2 hp)
  obtain ⟨outs, v, v', h, h'⟩ := dMsm_shift hpp dbg hlen hb hs gen t sid Δ
  obtain ⟨o, ho, hv⟩ := dMsm_chunks_runs hpp dbg hlen hb hs (masks := masks)
    (.inl ⟨dbg, gen, _, _, _, _, hm, fun p hp => by rw [l_eq hpp] at hp; simp [hp]⟩) sid
  have hy := AlwaysYields.of_recorded (h.alwaysYields fun i => PSS.dMsm_wf _ hn _ _ _ _ _)
  have hy' := ho.alwaysYields fun i => PSS.dMsm_wf _ hn _ _ _ _ _
  have eo : ∀ i : Fin (4 * 2 ^ b), outs i = o i := by
    have hy : AlwaysYields (Net.init fun i : Fin (4 * 2 ^ b) => pp.dMsm dbg (4 * 2 ^ b) i (bs i) (ss i) (masks i) sid)
        (fun i : Fin (4 * 2 ^ b) => outs i) := by
      refine cast ?_ hy
      congr 2
      funext i
      rw [hmk i i.2]
    exact fun i => congrFun (AlwaysYields.unique hy hy') i
  refine ⟨fun p => o p + Δ, ?_, hv.addConst hpp Δ⟩
  refine AlwaysYields.of_recorded (vs := v') ((RunsV.congr h' (fun i => ?_) (fun i => by dsimp only; rw [eo i]) fun i => rfl).alwaysYields (S := only sid) fun i => ?_)
  · by_cases hi : i.val = 0
    · rw [if_pos hi, hi, hmk 0 hn]
    · rw [if_neg hi, ← dMsmShift_server dbg _ hi Δ, hmk i i.2]
  · split
    · exact dMsmShift_wf _ hn _ _ _ _ _ _
    · exact PSS.dMsm_wf _ hn _ _ _ _ _

theorem proveA_shift {dbg₀ : Bool} {b : Nat} {pp : PSS F} (hpp : PSS.new dbg₀ (2 ^ b) = .ok pp) (dbg : Bool) {y : List G} {x : List F}
    (hlen : x.length = y.length) {bs : Nat → List G} {ss : Nat → List F} (hb : HoldsChunks pp b bs y) (hs : HoldsChunks pp b ss x)
    (gen : G) (t : MsmTape F G) (sid : Sid) (Δ L N AG : G) (rsh : Nat → F) :
    ∃ (outs : Nat → G) (vs vs' : Fin (4 * 2 ^ b) → Transcript),
      RunsV All (only sid) (fun i : Fin (4 * 2 ^ b) => pp.proveA dbg (4 * 2 ^ b) i L N AG (bs i) (ss i) (rsh i) (pp.msmDealt gen t i) sid)
        (fun i => outs i) vs ∧
      RunsV All (only sid) (fun i : Fin (4 * 2 ^ b) => proveAShift pp dbg (4 * 2 ^ b) i Δ L N AG (bs i) (ss i) (rsh i) (pp.msmDealt gen t i) sid)
        (fun i => outs i + Δ) vs' := by
  obtain ⟨o, v, v', h, h'⟩ := dMsm_shift hpp dbg hlen hb hs gen t sid Δ
  have k := RunsV.bind h (f := fun i w => .done (.ok ((L + rsh i • N) + w + AG))) (RunsV.done fun i => (L + rsh i • N) + o i + AG)
  have k' := RunsV.bind h' (f := fun i w => .done (.ok ((L + rsh i • N) + w + AG))) (RunsV.done fun i => (L + rsh i • N) + (o i + Δ) + AG)
  exact ⟨fun p => (L + rsh p • N) + o p + AG, _, _, k.congr (fun _ => rfl) (fun _ => rfl) fun i => rfl,
    k'.congr (fun _ => rfl) (fun _ => by dsimp only; abel) fun i => rfl⟩

theorem rearr (x y z u v : G) : x + y + (u + v - z) = x + y - z + u + v := by abel

theorem rearr' (x y z u v a b : G) : x + y + (u + v - z) + (a + b) = x + y - z + (u + a) + (v + b) := by abel

theorem rearr'' (x y z u v w : G) : x + u + (y + v) + z + w = x + y + z + (u + v + w) := by abel

theorem proveC_shift {dbg₀ : Bool} {b : Nat} {pp : PSS F} (hpp : PSS.new dbg₀ (2 ^ b) = .ok pp) (dbg : Bool) {W U : List G} {ax h : List F}
    (hW : ax.length = W.length) (hU : h.length = U.length) {Wsh Ush : Nat → List G} {axsh hsh : Nat → List F}
    (sW : HoldsChunks pp b Wsh W) (sU : HoldsChunks pp b Ush U) (sa : HoldsChunks pp b axsh ax) (sh : HoldsChunks pp b hsh h)
    (gen : G) (t u : MsmTape F G) (M Δ Δ' : G) (rsh ssh : Nat → F) :
    ∃ (outs : Nat → G),
      (∀ Ash Bsh : Nat → G, ∃ vs, RunsV All (fun _ => True) (fun i : Fin (4 * 2 ^ b) => pp.proveC dbg (4 * 2 ^ b) i (Ash i) (Bsh i) (ssh i) (rsh i) M
        (Wsh i) (Ush i) (axsh i) (hsh i) (pp.msmDealt gen t i) (pp.msmDealt gen u i)) (fun i => ssh i • Ash i + rsh i • Bsh i + outs i) vs) ∧
      ∀ Ash Bsh : Nat → G, ∃ vs, RunsV All (fun _ => True) (fun i : Fin (4 * 2 ^ b) => proveCShift pp dbg (4 * 2 ^ b) i Δ Δ' (Ash i) (Bsh i) (ssh i)
        (rsh i) M (Wsh i) (Ush i) (axsh i) (hsh i) (pp.msmDealt gen t i) (pp.msmDealt gen u i))
        (fun i => ssh i • Ash i + rsh i • Bsh i + outs i + (Δ + Δ')) vs := by
  obtain ⟨o, v, v1, h1, k1⟩ := dMsm_shift hpp dbg hW sW sa gen t .zero Δ
  obtain ⟨o', v', v2, h2, k2⟩ := dMsm_shift hpp dbg hU sU sh gen u .one Δ'
  refine ⟨fun p => o p + o' p - (rsh p * ssh p) • M, fun Ash Bsh => ?_, fun Ash Bsh => ?_⟩
  · have h' := RunsV.par (S := fun _ => True) h1 h2 (fun _ _ => trivial) (fun _ _ => trivial)
      (k := fun i w u => .done (.ok (ssh i • Ash i + rsh i • Bsh i - (rsh i * ssh i) • M + w + u)))
      (RunsV.done fun i => ssh i • Ash i + rsh i • Bsh i - (rsh i * ssh i) • M + o i + o' i)
    exact ⟨_, h'.congr (fun _ => rfl) (fun i => rearr (ssh i • Ash i) (rsh i • Bsh i) ((rsh i * ssh i) • M) (o i) (o' i)) fun i => rfl⟩
  · have h' := RunsV.par (S := fun _ => True) k1 k2 (fun _ _ => trivial) (fun _ _ => trivial)
      (k := fun i w u => .done (.ok (ssh i • Ash i + rsh i • Bsh i - (rsh i * ssh i) • M + w + u)))
      (RunsV.done fun i => ssh i • Ash i + rsh i • Bsh i - (rsh i * ssh i) • M + (o i + Δ) + (o' i + Δ'))
    exact ⟨_, h'.congr (fun _ => rfl) (fun i => rearr' (ssh i • Ash i) (rsh i • Bsh i) ((rsh i * ssh i) • M) (o i) (o' i) Δ Δ') fun i => rfl⟩

end shift

section servers
variable {G1 G2 GT : Type} [AddCommGroup G1] [Module F G1] [DecidableEq G1] [FixedWire G1]
  [AddCommGroup G2] [Module F G2] [DecidableEq G2] [FixedWire G2] [AddCommGroup GT] [Module F GT]

theorem runShift_server {pp : PSS F} (dbg : Bool) (n : Nat) {me : Nat} (hme : me ≠ 0) (Δ : Shift G1 G2) (x : ServerInput F G1 G2)
    (rng : Nat → Nat → Nat → F) : runShift pp dbg n me Δ x rng = x.run pp dbg n me rng := by
  unfold runShift ServerInput.run PSS.dsha256 proveBShift proveAShift proveCShift PSS.proveA PSS.proveBInG1 PSS.proveBInG2 PSS.proveC
  simp only [dMsmShift_server dbg n hme]

theorem runShift_wf {pp : PSS F} (dbg : Bool) {n : Nat} (hn : 0 < n) (me : Nat) (Δ : Shift G1 G2) (x : ServerInput F G1 G2)
    (rng : Nat → Nat → Nat → F) : (runShift pp dbg n me Δ x rng).WF fun _ => True := by
  have hA : ∀ {G : Type} [AddCommGroup G] [Module F G] [DecidableEq G] [FixedWire G] (Δ L N AG : G) (S : List G) (a : List F) (r : F) (mask : MsmMask G)
      (sid : Sid), (proveAShift pp dbg n me Δ L N AG S a r mask sid).WF fun _ => True := fun _ _ _ _ _ _ _ _ _ =>
    ((dMsmShift_wf dbg hn _ _ _ _ _ _).mono fun _ _ => trivial).bind fun _ => .done _ _
  refine (circomH_wf _ hn _ _ _ _ _).bind fun _ => (hA ..).bind fun _ => Proc.WF.bind ?_ fun _ => (hA ..).bind fun _ => Proc.WF.bind ?_ fun _ => .done _ _
  · unfold proveBShift
    split
    · exact .done _ _
    · exact hA ..
  · exact .par (S1 := only .zero) (S2 := only .one) (by intro s h h'; rw [h] at h'; cases h') (fun _ _ => trivial) (fun _ _ => trivial)
      (dMsmShift_wf _ hn _ _ _ _ _ _) (dMsmShift_wf _ hn _ _ _ _ _ _) fun _ _ => .done _ _

omit [FftField F] [DecidableEq F] [FixedWire F] [DecidableEq G1] [FixedWire G1] [DecidableEq G2] [FixedWire G2] in
theorem verifies_shift {e : G1 →ₗ[F] G2 →ₗ[F] GT} {vk : VerifyingKey G1 G2} {pub : List F} {A C : G1} {B : G2} (h : Verifies e vk pub A B C)
    (dA : G1) (dB : G2) (dC : G1) :
    Verifies e vk pub (A + dA) (B + dB) (C + dC) ↔ e A dB + e dA B + e dA dB = e dC vk.deltaG2 := by
  obtain ⟨h1, h2⟩ := h
  rw [Verifies, and_iff_right h1]
  generalize e vk.alphaG1 vk.betaG2 + _ = X at h2 ⊢
  simp only [map_add, LinearMap.add_apply]
  rw [h2, show X + e C vk.deltaG2 + e dA B + (e A dB + e dA dB) = X + e C vk.deltaG2 + (e A dB + e dA B + e dA dB) by abel, ← add_assoc X,
    add_right_inj]

/-- The servers with the honest king and with one who adds `Δ`. -/
theorem run_shift {dbg₀ : Bool} {b : Nat} {pp : PSS F} (hpp : PSS.new dbg₀ (2 ^ b) = .ok pp) (dbg : Bool) {a ni : Nat} (ha : a < 64)
    {dom dom2 : Domain F} (hdom : Domain.new (2 ^ (a + b)) = some dom) (hdom2 : Domain.new (2 ^ (a + b + 1)) = some dom2)
    {crs : Nat → PackedProvingKeyShare G1 G2} {a0 b0 α1 β1 δ1 : G1} {v0 β2 δ2 : G2}
    (hpub : ∀ p, (crs p).aQuery0 = a0 ∧ (crs p).bG1Query0 = b0 ∧ (crs p).bG2Query0 = v0 ∧ (crs p).deltaG1 = δ1 ∧
        (crs p).deltaG2 = δ2 ∧ (crs p).alphaG1 = α1 ∧ (crs p).betaG1 = β1 ∧ (crs p).betaG2 = β2)
    {S H W U : List G1} {V : List G2} (hS : HoldsChunks pp b (fun p => (crs p).s) S) (hU : HoldsChunks pp b (fun p => (crs p).u) U)
    (hW : HoldsChunks pp b (fun p => (crs p).w) W) (hH : HoldsChunks pp b (fun p => (crs p).h) H)
    (hV : HoldsChunks pp b (fun p => (crs p).v) V) {z : List F} (hzS : (z.drop 1).length = S.length)
    (hzH : (z.drop 1).length = H.length) (hzV : (z.drop 1).length = V.length) (hax : (z.drop ni).length = W.length)
    (hUl : U.length = 2 ^ (a + b)) {q : QAP F} {gen1 : G1} {gen2 : G2} {t : ClientTape F G1 G2} {I : Nat → ServerInput F G1 G2}
    (f : Dealt pp a b ni q z dom2.groupGen dom crs gen1 gen2 t I)
    (hr0 : (∀ p < 4 * 2 ^ b, (I p).r ≠ 0) ∨ ∀ p < 4 * 2 ^ b, (I p).r = 0) (rng : Nat → Nat → Nat → F) (Δ : Shift G1 G2) :
    ∃ outs : Nat → G1 × G2 × G1,
      AlwaysYields (Net.init fun i : Fin (4 * 2 ^ b) => (I i).run pp dbg (4 * 2 ^ b) i rng) (fun i => outs i) ∧
      AlwaysYields (Net.init fun i : Fin (4 * 2 ^ b) => runShift pp dbg (4 * 2 ^ b) i Δ (I i) rng)
        (fun i => ((outs i).1 + Δ.a, (outs i).2.1 + Δ.b2, (outs i).2.2 + ((I i).s • Δ.a + (I i).r • Δ.b1 + (Δ.w + Δ.u)))) := by
  obtain ⟨oh, vh, y, rH, hvh, ly, hh⟩ := circomH_view hpp dbg ha hdom hdom2 f.program rng t.degred f.masks
  obtain ⟨oA, vA, vA', rA, rA'⟩ := proveA_shift hpp dbg hzS hS f.shA gen1 (t.msm1 0) .zero Δ.a a0 δ1 α1 fun p => (I p).r
  have hB1 : ∃ (oB oB' : Nat → G1) (vB vB' : Fin (4 * 2 ^ b) → Transcript), RunsV All (only .zero) (fun i : Fin (4 * 2 ^ b) =>
      pp.proveBInG1 dbg (4 * 2 ^ b) i b0 δ1 β1 (crs i).h (I i).a (I i).s (I i).r (pp.msmDealt gen1 (t.msm1 1) i) .zero) (fun i => oB i) vB ∧
      RunsV All (only .zero) (fun i : Fin (4 * 2 ^ b) =>
        proveBShift pp dbg (4 * 2 ^ b) i Δ.b1 b0 δ1 β1 (crs i).h (I i).a (I i).s (I i).r (pp.msmDealt gen1 (t.msm1 1) i) .zero)
        (fun i => oB' i) vB' ∧ ∀ p < 4 * 2 ^ b, (I p).r • oB' p = (I p).r • oB p + (I p).r • Δ.b1 := by
    rcases hr0 with hr0 | hr0
    · obtain ⟨o, v, v', r, r'⟩ := proveA_shift hpp dbg hzH hH f.shA gen1 (t.msm1 1) .zero Δ.b1 b0 δ1 β1 fun p => (I p).s
      exact ⟨o, fun p => o p + Δ.b1, v, v', r.congr (fun i => proveBInG1_eq_A _ _ _ _ _ _ _ _ _ (hr0 i i.2) _ _) (fun _ => rfl) fun _ => rfl,
        r'.congr (fun i => if_neg (hr0 i i.2)) (fun _ => rfl) fun _ => rfl, fun p _ => smul_add _ _ _⟩
    · refine ⟨fun _ => 0, fun _ => 0, _, _, (RunsV.done fun _ => 0).congr (fun i => ?_) (fun _ => rfl) fun _ => rfl,
        (RunsV.done fun _ => 0).congr (fun i => if_pos (hr0 i i.2)) (fun _ => rfl) fun _ => rfl, fun p hp => by simp [hr0 p hp]⟩
      rw [PSS.proveBInG1, if_pos (hr0 i i.2)]
  obtain ⟨oB1, oB1', vB1, vB1', rB1, rB1', eB1⟩ := hB1
  obtain ⟨oB, vB, vB', rB, rB'⟩ := proveA_shift hpp dbg hzV hV f.shA gen2 t.msm2 .zero Δ.b2 v0 δ2 β2 fun p => (I p).s
  obtain ⟨oC, rC, rC'⟩ := proveC_shift hpp dbg hax (ly.trans hUl.symm) hW hU f.shAx hh gen1 (t.msm1 2) (t.msm1 3) δ1 Δ.w Δ.u
    (fun p => (I p).r) fun p => (I p).s
  obtain ⟨vC, rC⟩ := rC oA oB1
  obtain ⟨vC', rC'⟩ := rC' (fun p => oA p + Δ.a) oB1'
  have r := RunsV.bind rH (f := fun i h =>
      (pp.proveA dbg (4 * 2 ^ b) i a0 δ1 α1 (crs i).s (I i).a (I i).r (pp.msmDealt gen1 (t.msm1 0) i) .zero).bind fun piA =>
      (pp.proveBInG1 dbg (4 * 2 ^ b) i b0 δ1 β1 (crs i).h (I i).a (I i).s (I i).r (pp.msmDealt gen1 (t.msm1 1) i) .zero).bind fun piB1 =>
      (pp.proveA dbg (4 * 2 ^ b) i v0 δ2 β2 (crs i).v (I i).a (I i).s (pp.msmDealt gen2 t.msm2 i) .zero).bind fun piB2 =>
      (pp.proveC dbg (4 * 2 ^ b) i piA piB1 (I i).s (I i).r δ1 (crs i).w (crs i).u (I i).ax h (pp.msmDealt gen1 (t.msm1 2) i)
        (pp.msmDealt gen1 (t.msm1 3) i)).bind fun piC =>
      Proc.done (.ok (piA, piB2, piC)))
    (RunsV.bind (rA.mono fun _ _ => trivial) (RunsV.bind (rB1.mono fun _ _ => trivial) (RunsV.bind (rB.mono fun _ _ => trivial)
      (RunsV.bind rC (RunsV.done fun i => (oA i, oB i, (I i).s • oA i + (I i).r • oB1 i + oC i))))))
  have r' := RunsV.bind rH (f := fun i h =>
      (proveAShift pp dbg (4 * 2 ^ b) i Δ.a a0 δ1 α1 (crs i).s (I i).a (I i).r (pp.msmDealt gen1 (t.msm1 0) i) .zero).bind fun piA =>
      (proveBShift pp dbg (4 * 2 ^ b) i Δ.b1 b0 δ1 β1 (crs i).h (I i).a (I i).s (I i).r (pp.msmDealt gen1 (t.msm1 1) i) .zero).bind fun piB1 =>
      (proveAShift pp dbg (4 * 2 ^ b) i Δ.b2 v0 δ2 β2 (crs i).v (I i).a (I i).s (pp.msmDealt gen2 t.msm2 i) .zero).bind fun piB2 =>
      (proveCShift pp dbg (4 * 2 ^ b) i Δ.w Δ.u piA piB1 (I i).s (I i).r δ1 (crs i).w (crs i).u (I i).ax h (pp.msmDealt gen1 (t.msm1 2) i)
        (pp.msmDealt gen1 (t.msm1 3) i)).bind fun piC =>
      Proc.done (.ok (piA, piB2, piC)))
    (RunsV.bind (rA'.mono fun _ _ => trivial) (RunsV.bind (rB1'.mono fun _ _ => trivial) (RunsV.bind (rB'.mono fun _ _ => trivial)
      (RunsV.bind rC' (RunsV.done fun i => (oA i + Δ.a, oB i + Δ.b2, (I i).s • (oA i + Δ.a) + (I i).r • oB1' i + oC i + (Δ.w + Δ.u)))))))
  refine ⟨fun p => (oA p, oB p, (I p).s • oA p + (I p).r • oB1 p + oC p), AlwaysYields.of_recorded (RunsV.alwaysYields (P := All) (S := fun _ => True)
    (r.congr (fun i => ?_) (fun _ => rfl) fun _ => rfl) fun i => dsha256_wf _ (by positivity) _ _ _ _ _ _ _ _ _ _ _ _),
    AlwaysYields.of_recorded (RunsV.alwaysYields (P := All) (S := fun _ => True)
    (r'.congr (fun i => ?_) (fun i => ?_) fun _ => rfl) fun i => runShift_wf _ (by positivity) _ _ _ _)⟩
  · obtain ⟨e1, e2, e3, e4, e5, e6, e7, e8⟩ := hpub i
    rw [ServerInput.run, f.crs, f.degred, f.msm2]
    unfold PSS.dsha256
    dsimp only
    rw [e1, e2, e3, e4, e5, e6, e7, e8, f.msm1 i 0 (by omega), f.msm1 i 1 (by omega), f.msm1 i 2 (by omega), f.msm1 i 3 (by omega)]
    rfl
  · obtain ⟨e1, e2, e3, e4, e5, e6, e7, e8⟩ := hpub i
    rw [runShift, f.crs, f.degred, f.msm2]
    dsimp only
    rw [e1, e2, e3, e4, e5, e6, e7, e8, f.msm1 i 0 (by omega), f.msm1 i 1 (by omega), f.msm1 i 2 (by omega), f.msm1 i 3 (by omega)]
    rfl
  · dsimp only
    rw [eB1 i i.2, smul_add]
    congr 2
    exact (rearr'' (G := G1) ..).symm

/-- **C78** A session: the king decides what proof the client opens. If it adds `Δ` to the five multiplications, then every server finishes, in
a debug build too, and the client opens the honest proof with `Δ.a` added to `A`, `Δ.b2` to `B` and `s•Δ.a + r•Δ.b1 + Δ.w + Δ.u` to `C`.
The verifier accepts that proof just when the shifts satisfy an equation; so a king who adds only to `C` makes the client open a wrong proof. -/
theorem C78_session {dbg₀ : Bool} {b : Nat} {pp : PSS F} (hpp : PSS.new dbg₀ (2 ^ b) = .ok pp) (dbg : Bool) (a : Nat) (ha : a < 64)
    {mats : ConstraintMatrices F} {z : List F} {dom dom2 : Domain F} (hcirc : Circuit a b mats z dom dom2)
    (hsat : Satisfies mats.numConstraints mats.a mats.b mats.c z) {pa pb pc : Nat → F[X]}
    (hqap : IsQap mats z.length dom.groupGen (2 ^ (a + b)) pa pb pc) {t : Toxic F} {g1 : G1} {g2 : G2} {pk : ProvingKey G1 G2}
    (hk : IsCircomKey t g1 g2 z.length mats.numInstanceVariables (2 ^ (a + b)) dom2.groupGen pa pb pc pk) (hγ : t.gamma ≠ 0)
    (hδ : t.delta ≠ 0) (hal : dbg = true → KeyAligned (2 ^ b) pk) (gen1 : G1) (gen2 : G2) (r s : F) (tape : ClientTape F G1 G2)
    (hr0 : ∀ rs, pp.pack dbg (List.replicate (2 ^ b) r) tape.r = .ok rs → (∀ x ∈ rs, x ≠ 0) ∨ ∀ x ∈ rs, x = 0)
    (rng : Nat → Nat → Nat → F) :
    ∃ (ins : Nat → ServerInput F G1 G2) (outs : Nat → G1 × G2 × G1) (pA : G1) (pB : G2) (pC : G1),
      pp.deal dbg (2 ^ b) mats z pk gen1 gen2 r s tape = .ok ((List.range (4 * 2 ^ b)).map ins) ∧
      AlwaysYields (Net.init fun i : Fin (4 * 2 ^ b) => (ins i).run pp dbg (4 * 2 ^ b) i rng) (fun i => outs i) ∧
      pp.openProof dbg ((List.range (4 * 2 ^ b)).map outs) = .ok (pA, pB, pC) ∧
      (∀ e : G1 →ₗ[F] G2 →ₗ[F] GT, Verifies e pk.vk ((z.take mats.numInstanceVariables).drop 1) pA pB pC) ∧
      ∀ Δ : Shift G1 G2, ∃ outs' : Nat → G1 × G2 × G1,
        AlwaysYields (Net.init fun i : Fin (4 * 2 ^ b) => if i.val = 0 then runShift pp dbg (4 * 2 ^ b) 0 Δ (ins 0) rng else
          (ins i).run pp dbg (4 * 2 ^ b) i rng) (fun i => outs' i) ∧
        pp.openProof dbg ((List.range (4 * 2 ^ b)).map outs') =
          .ok (pA + Δ.a, pB + Δ.b2, pC + (s • Δ.a + r • Δ.b1 + (Δ.w + Δ.u))) ∧
        ∀ e : G1 →ₗ[F] G2 →ₗ[F] GT, Verifies e pk.vk ((z.take mats.numInstanceVariables).drop 1) (pA + Δ.a) (pB + Δ.b2)
            (pC + (s • Δ.a + r • Δ.b1 + (Δ.w + Δ.u))) ↔
          e pA Δ.b2 + e Δ.a pB + e Δ.a Δ.b2 = e (s • Δ.a + r • Δ.b1 + (Δ.w + Δ.u)) pk.vk.deltaG2 := by
  obtain ⟨rs, er, lr, hr⟩ := pack_holdsValue hpp dbg r tape.r
  obtain ⟨ss, es, ls, hs⟩ := pack_holdsValue hpp dbg s tape.s
  have hr0' : (∀ p < 4 * 2 ^ b, rs.getD p 0 ≠ 0) ∨ ∀ p < 4 * 2 ^ b, rs.getD p 0 = 0 := by
    refine (hr0 rs er).imp (fun h p hp => ?_) (fun h p hp => ?_) <;>
      exact h _ (by rw [List.getD_eq_getElem _ _ (by omega)]; exact List.getElem_mem _)
  obtain ⟨ins, outs, D, pA, pB, pC, h1, h2, -, -, h3, h4, h5, h6, -, -, -, -, oA, oB, oC, -⟩ := session_full (GT := GT) hpp dbg a ha hcirc hqap hk hγ hδ
    hal gen1 gen2 tape er es lr ls hr hs hr0' rng
  have hD : D = 0 := (errors_zero hcirc.prim hcirc.le h4).2 hsat
  have hver : ∀ e : G1 →ₗ[F] G2 →ₗ[F] GT, Verifies e pk.vk ((z.take mats.numInstanceVariables).drop 1) pA pB pC := fun e =>
    ⟨h5, by rw [h6 e, hD, eval_zero, zero_smul, add_zero]⟩
  refine ⟨ins, outs, pA, pB, pC, h1, h2, h3, hver, fun Δ => ?_⟩
  have hin := hcirc.inputs
  have hwi := hcirc.wires
  have hdom' : Domain.new (2 ^ (a + b)) = some dom := hcirc.size ▸ Domain.new_size hcirc.domain
  obtain ⟨q, eq, hd, -, -, la, lb, lc, -⟩ := C29_qap mats z hcirc.domain hcirc.rowsA hcirc.rowsB hcirc.colsA hcirc.colsB hcirc.wires
  rw [hcirc.size] at la lb lc
  have hfit := KeyFits.of_key hk
  have hcons : ∀ {T : Type} {v : List T}, v.length = z.length → ∃ x xs, v = x :: xs ∧ xs.length = z.length - 1 := by
    intro T v h
    cases v with
    | nil => simp at h; omega
    | cons x xs => exact ⟨x, xs, rfl, by simp at h; omega⟩
  obtain ⟨a0, as, hqa, las⟩ := hcons hfit.aQuery
  obtain ⟨b0, bs, hqb, lbs⟩ := hcons hfit.bG1Query
  obtain ⟨v0, vs, hqv, lvs⟩ := hcons hfit.bG2Query
  obtain ⟨crs, ec, hpub, hS, hU, hW, hH, hV⟩ := C33_pack_key hpp dbg pk hal hqa hqb hqv
  have hins := deal_with hpp dbg a hcirc eq hd la lb lc ec gen1 gen2 (2 ^ b) r s tape h1
  have hrs : ∀ p < 4 * 2 ^ b, (ins p).r = rs.getD p 0 ∧ (ins p).s = ss.getD p 0 := by
    intro p hp
    obtain ⟨-, -, -, e1, e2, -⟩ := deal_parts (p := p) (x := ins p) (by rw [h1]; simp [partOf, hp])
    rw [er] at e1
    rw [es] at e2
    exact ⟨by rw [List.getD_eq_getElem?_getD]; exact (congrArg (·.getD 0) (e1 : rs[p]? = _)).symm,
      by rw [List.getD_eq_getElem?_getD]; exact (congrArg (·.getD 0) (e2 : ss[p]? = _)).symm⟩
  have f := dealtWith_facts hpp a mats.numInstanceVariables q z dom2.groupGen dom hd crs gen1 gen2 (fun p => (ins p).r) (fun p => (ins p).s) tape
  have hI : ∀ i : Fin (4 * 2 ^ b), ins i = dealtWith pp a b mats.numInstanceVariables q z dom2.groupGen dom crs gen1 gen2 tape i (ins i).r (ins i).s :=
    fun i => hins i i.2
  obtain ⟨o, hh, hr'⟩ := run_shift hpp dbg ha hdom' hcirc.double hpub hS hU hW hH hV (z := z)
    (ni := mats.numInstanceVariables) (by simp [las]) (by simp [lbs]) (by simp [lvs]) (by simp [hfit.lQuery]) hfit.hQuery f
    (hr0'.imp (fun h p hp => by rw [show _ = (ins p).r from rfl, (hrs p hp).1]; exact h p hp)
      fun h p hp => by rw [show _ = (ins p).r from rfl, (hrs p hp).1]; exact h p hp) rng Δ
  have eo : ∀ p < 4 * 2 ^ b, o p = outs p := by
    have hh' : AlwaysYields (Net.init fun i : Fin (4 * 2 ^ b) => (ins i).run pp dbg (4 * 2 ^ b) i rng) (fun i : Fin (4 * 2 ^ b) => o i) := by
      refine cast ?_ hh
      congr 2
      funext i
      rw [← hI i]
    exact fun p hp => congrFun (AlwaysYields.unique hh' h2) ⟨p, hp⟩
  refine ⟨fun p => ((outs p).1 + Δ.a, (outs p).2.1 + Δ.b2, (outs p).2.2 + ((ins p).s • Δ.a + (ins p).r • Δ.b1 + (Δ.w + Δ.u))), ?_, ?_, fun e => ?_⟩
  · refine cast ?_ hr'
    congr 1
    · congr 1
      funext i
      by_cases hi : i.val = 0
      · rw [if_pos hi, ← hI i, hi]
      · rw [if_neg hi, ← hI i, runShift_server dbg _ hi]
    · funext i
      rw [← hI i, eo i i.2]
  · have k1 := oA.addConst hpp Δ.a
    have k2 := oB.addConst hpp Δ.b2
    have k3 : HoldsProduct pp b (fun p => (outs p).2.2 + ((ins p).s • Δ.a + (ins p).r • Δ.b1 + (Δ.w + Δ.u)))
        (pC + (s • Δ.a + r • Δ.b1 + (Δ.w + Δ.u))) := by
      refine oC.add hpp (((HoldsProduct.add hpp (hs.mulConst hpp Δ.a).product (hr.mulConst hpp Δ.b1).product).add hpp
        (HoldsValue.product (HoldsValue.const hpp (Δ.w + Δ.u)))).congr fun p hp => ?_)
      rw [(hrs p hp).1, (hrs p hp).2]
    unfold PSS.openProof
    simp only [List.map_map, Function.comp_def]
    have hb0 : 0 < 2 ^ b := by positivity
    rw [k1.unpack2 hpp dbg, ok_bind, rd_getD 0 (by simp), ok_bind, k2.unpack2 hpp dbg, ok_bind, rd_getD 0 (by simp), ok_bind,
      k3.unpack2 hpp dbg, ok_bind, rd_getD 0 (by simp), ok_bind, getD_replicate', if_pos hb0, getD_replicate', if_pos hb0,
      getD_replicate', if_pos hb0]
    rfl
  · exact verifies_shift (hver e) _ _ _

/-- **C78** So the king can always make the client open a proof that the verifier rejects: it adds to one answer any point that the pairing with
`δ` does not send to zero. No server stops or returns an error, in a debug build either, though the client's assignment is correct. -/
theorem C78_wrong_proof {dbg₀ : Bool} {b : Nat} {pp : PSS F} (hpp : PSS.new dbg₀ (2 ^ b) = .ok pp) (dbg : Bool) (a : Nat) (ha : a < 64)
    {mats : ConstraintMatrices F} {z : List F} {dom dom2 : Domain F} (hcirc : Circuit a b mats z dom dom2)
    (hsat : Satisfies mats.numConstraints mats.a mats.b mats.c z) {pa pb pc : Nat → F[X]}
    (hqap : IsQap mats z.length dom.groupGen (2 ^ (a + b)) pa pb pc) {t : Toxic F} {g1 : G1} {g2 : G2} {pk : ProvingKey G1 G2}
    (hk : IsCircomKey t g1 g2 z.length mats.numInstanceVariables (2 ^ (a + b)) dom2.groupGen pa pb pc pk) (hγ : t.gamma ≠ 0)
    (hδ : t.delta ≠ 0) (hal : dbg = true → KeyAligned (2 ^ b) pk) (gen1 : G1) (gen2 : G2) (r s : F) (tape : ClientTape F G1 G2)
    (hr0 : ∀ rs, pp.pack dbg (List.replicate (2 ^ b) r) tape.r = .ok rs → (∀ x ∈ rs, x ≠ 0) ∨ ∀ x ∈ rs, x = 0)
    (rng : Nat → Nat → Nat → F) (e : G1 →ₗ[F] G2 →ₗ[F] GT) (Δ : G1) (hΔ : e Δ pk.vk.deltaG2 ≠ 0) :
    ∃ (ins : Nat → ServerInput F G1 G2) (king : Proc (G1 × G2 × G1)) (outs : Nat → G1 × G2 × G1) (pA : G1) (pB : G2) (pC : G1),
      pp.deal dbg (2 ^ b) mats z pk gen1 gen2 r s tape = .ok ((List.range (4 * 2 ^ b)).map ins) ∧
      AlwaysYields (Net.init fun i : Fin (4 * 2 ^ b) => if i.val = 0 then king else (ins i).run pp dbg (4 * 2 ^ b) i rng) (fun i => outs i) ∧
      pp.openProof dbg ((List.range (4 * 2 ^ b)).map outs) = .ok (pA, pB, pC) ∧
      ¬ Verifies e pk.vk ((z.take mats.numInstanceVariables).drop 1) pA pB pC := by
  obtain ⟨ins, -, pA, pB, pC, h1, -, -, -, h⟩ := C78_session (GT := GT) hpp dbg a ha hcirc hsat hqap hk hγ hδ hal gen1 gen2 r s tape hr0 rng
  obtain ⟨outs, h2, h3, h4⟩ := h ⟨0, 0, 0, 0, Δ⟩
  refine ⟨ins, _, outs, _, _, _, h1, h2, h3, fun hv => hΔ ?_⟩
  have := (h4 e).1 hv
  simpa using this.symm

end servers

/-! ### Examples -/

/-- A king of four parties who answers 7, 8, 9 and 10 to whatever it is sent. -/
example (pp : PSS (ZMod 17)) (bs ss : Nat → List (ZMod 17)) (hl : ∀ i < 4, (bs i).length = (ss i).length) (masks : Nat → MsmMask (ZMod 17)) :
    AlwaysYields (Net.init fun i : Fin 4 => if i.val = 0 then roundWith 4 0 (0 : ZMod 17) .one pp.t (fun _ : List (ZMod 17) => [7, 8, 9, (10 : ZMod 17)]) else
      pp.dMsm true 4 i (bs i) (ss i) (masks i) .one)
      (fun i => [7, 8, 9, (10 : ZMod 17)].getD i 0 + if i.val = 0 then 0 else (masks i).outMask) :=
  C78_d_msm pp true (by omega) bs ss hl masks .one 0 (fun _ => [7, 8, 9, 10]) fun _ => rfl

/-- A king who adds one to every share it has been sent and sends the shares back: vectors of length two and three parties. -/
example (pp : PSS (ZMod 17)) (rng : Nat → Nat → ZMod 17) :
    AlwaysYields (Net.init fun i : Fin 3 => if i.val = 0 then
        roundWith 3 0 [0, (0 : ZMod 17)] .two pp.t (fun v : List (List (ZMod 17)) => (List.range 3).map fun i => [(v.getD i []).getD 0 0 + 1, 5]) else
      pp.degRed true 3 i [i, 2] ⟨[3, 4], [5, 6]⟩ .two rng)
      (fun i => if i.val = 0 then [1, 5] else [i.val + 3 + 1 + 5, 11]) := by
  have h := C78_deg_red (N := 2) (M := 2) pp true (by omega : 0 < 3) (by omega) (by omega) (fun i => [(i : ZMod 17), 2]) (fun _ => ⟨[3, 4], [5, 6]⟩)
    (fun _ _ => rfl) (fun _ _ => rfl) (fun _ _ => rfl) .two rng [0, 0] rfl
    (fun v : List (List (ZMod 17)) => (List.range 3).map fun i => [(v.getD i []).getD 0 0 + 1, 5]) (fun v => by simp)
  refine cast ?_ h
  congr 1
  funext i
  fin_cases i <;> decide +kernel

/-- The same for the transforms. -/
example (pp : PSS (ZMod 17)) (rng : Nat → Nat → ZMod 17) :
    AlwaysYields (Net.init fun i : Fin 3 => if i.val = 0 then
        roundWith 3 0 [0, (0 : ZMod 17)] .two pp.t (fun v : List (List (ZMod 17)) => (List.range 3).map fun i => [(v.getD i []).getD 0 0 + 1, 5]) else
      pp.fft2WithRearrange true 3 i [i, 2] ⟨[3, 4], [5, 6]⟩ true 2 9 .two rng)
      (fun i => if i.val = 0 then [1, 5] else [i.val + 3 + 1 + 5, 11]) := by
  have h := C78_fft2 (N := 2) (M := 2) pp true (by omega : 0 < 3) (by omega) (by omega) (fun i => [(i : ZMod 17), 2]) (fun _ => ⟨[3, 4], [5, 6]⟩)
    (fun _ _ => rfl) true 2 9 .two rng [0, 0] rfl
    (fun v : List (List (ZMod 17)) => (List.range 3).map fun i => [(v.getD i []).getD 0 0 + 1, 5]) (fun v => by simp)
  refine cast ?_ h
  congr 1
  funext i
  fin_cases i <;> decide +kernel

/-- Zero scalars and a king who adds 5: the parties share 5. -/
example (t : MsmTape (ZMod 17) (ZMod 17)) (masks : Nat → MsmMask (ZMod 17))
    (hm : MsmMask.sample pp17 true 1 t.vals t.rngIn t.rngOut = .ok ((List.range (4 * 2 ^ 1)).map masks)) :
    ∃ outs : Nat → ZMod 17,
      AlwaysYields (Net.init fun i : Fin (4 * 2 ^ 1) => if i.val = 0 then dMsmShift pp17 true (4 * 2 ^ 1) 0 5 [0] [(0 : ZMod 17)] (masks 0) .one else
        pp17.dMsm true (4 * 2 ^ 1) i [0] [(0 : ZMod 17)] (masks i) .one) (fun i => outs i) ∧ HoldsValue pp17 1 outs 5 := by
  obtain ⟨outs, h1, h2⟩ := C78_d_msm_shift (pp17_eq true) true (y := [0, 0]) (x := [0, 0]) rfl zeros17 zeros17 1 t masks hm .one 5
  exact ⟨outs, h1, by simpa [sum_range_succ] using h2⟩

/-- A session of debug builds in which the king spoils the proof of a correct assignment. -/
example (tape : ClientTape (ZMod 17) (ZMod 17) (ZMod 17)) (htape : tape.r = fun _ => 5) : ∃ (pk : ProvingKey (ZMod 17) (ZMod 17))
    (ins : Nat → ServerInput (ZMod 17) (ZMod 17) (ZMod 17)) (king : Proc (ZMod 17 × ZMod 17 × ZMod 17)) (outs : Nat → ZMod 17 × ZMod 17 × ZMod 17)
    (pA pB pC : ZMod 17), pp17.deal true 2 mats17e z17e pk 1 1 5 6 tape = .ok ((List.range 8).map ins) ∧
    AlwaysYields (Net.init fun i : Fin (4 * 2 ^ 1) => if i.val = 0 then king else (ins i).run pp17 true (4 * 2 ^ 1) i fun _ i j => i + j)
      (fun i => outs i) ∧
    pp17.openProof true ((List.range 8).map outs) = .ok (pA, pB, pC) ∧ ¬ Verifies (LinearMap.mul (ZMod 17) (ZMod 17)) pk.vk [12, 5] pA pB pC := by
  obtain ⟨pa, pb, pc, pk, h1, h2⟩ := C35_key_exists circuit17e (⟨2, 3, 4, 5, 6⟩ : Toxic (ZMod 17)) (1 : ZMod 17) (1 : ZMod 17)
  have h := C78_wrong_proof (pp17_eq true) true 1 (by norm_num) circuit17e
    (fun i hi => by obtain rfl : i = 0 := by simpa [mats17e] using hi
                    decide +kernel) h1 h2
    (by decide) (by decide)
    (by unfold KeyAligned; rw [h2.aQuery, h2.hQuery, h2.lQuery, h2.bG1Query, h2.bG2Query]; simp only [List.length_map, List.length_range]; decide)
    1 1 5 6 tape (by
      intro rs hrs
      have : pp17.pack true (List.replicate (2 ^ 1) (5 : ZMod 17)) (fun _ => 5) = .ok (List.replicate 8 5) := by decide +kernel
      rw [htape, this] at hrs
      cases hrs
      left
      decide) (fun _ i j => i + j) (LinearMap.mul (ZMod 17) (ZMod 17)) 1 (by rw [h2.deltaG2]; decide)
  exact ⟨pk, h⟩

end ZkSaas.Properties
