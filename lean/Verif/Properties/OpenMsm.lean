import Verif.Properties.ZeroKnowledge
import Verif.Properties.KingViewH
import Verif.Lemmas.OpenMsm

/-!
# C76: what the king and `l - 1` other servers learn from a multi-scalar multiplication with packed bases
-/

set_option linter.unusedSectionVars false

namespace ZkSaas.Properties

open Finset Polynomial Spec

variable {F : Type} [Field F] [FftField F] [DecidableEq F] [FixedWire F]
variable {G : Type} [AddCommGroup G] [Module F G] [DecidableEq G] [FixedWire G]

/-- The values in a transcript of messages with one value each. -/
def sentValues (G : Type) [AddCommGroup G] [FixedWire G] (tr : Transcript) : List G := tr.map fun m => (Wire.dec (T := G) m.2).getD 0

omit [DecidableEq G] in
theorem sentValues_gathered (n : Nat) (x : Nat → G) : sentValues G (gathered n x) = (List.range n).map x := by
  unfold sentValues gathered
  rw [List.map_map]
  refine List.map_congr_left fun p hp => ?_
  simp only [Function.comp_apply]
  have : Wire.dec (T := G) (Wire.enc (x p)) = some (x p) := Wire.ok_fixed _
  rw [this]
  rfl

/-- The sums of the products in every slot, from what the king is sent and the local sums of the parties in `P`. -/
noncomputable def learnSlot (pp : PSS F) (l : Nat) (P : Fin l → Nat) (tr : Transcript) (own : Fin l → G) (k : Nat) : G :=
  openAt pp l P (sentValues G tr) own (pp.secret.offset * (pp.share.groupGen ^ 2) ^ k)

/-- The local sum of every party, from what the king is sent and the local sums of the parties in `P`. -/
noncomputable def learnLocal (pp : PSS F) (l : Nat) (P : Fin l → Nat) (tr : Transcript) (own : Fin l → G) (p : Nat) : G :=
  openAt pp l P (sentValues G tr) own (pp.share.groupGen ^ p)

/-- Bases as `det_pack` shares them, masks as `MsmMask::sample` deals them: what the king is sent and the `l` local sums give everything. -/
theorem learn_gathered {dbg₀ : Bool} {b : Nat} {pp : PSS F} (hpp : PSS.new dbg₀ (2 ^ b) = .ok pp)
    (hgen : (FftField.GENERATOR : F) ^ (4 * 2 ^ b) ≠ 1) (P : Fin (2 ^ b) → Nat) (hinj : Function.Injective P)
    (hlt : ∀ i, P i < 4 * 2 ^ b) {N : Nat} {bs bsec : Nat → List G} {ss ssec : Nat → List F}
    (hb : PaddedVec pp.share.groupGen pp.secret.offset (2 ^ b) N bs bsec)
    (hs : Spec.SharedVec pp.share.groupGen pp.secret.offset (2 ^ b) (2 * 2 ^ b) N ss ssec) (gen : G) (t : MsmTape F G) :
    let tr := gathered (4 * 2 ^ b) fun p => msmOf N (bs p) (ss p) + (pp.msmDealt gen t p).inMask
    (∀ k < 2 ^ b, learnSlot pp (2 ^ b) P tr (fun i => msmOf N (bs (P i)) (ss (P i))) k =
      ∑ c ∈ range N, (ssec c).getD k 0 • (bsec c).getD k 0) ∧
    ∀ p < 4 * 2 ^ b, learnLocal pp (2 ^ b) P tr (fun i => msmOf N (bs (P i)) (ss (P i))) p = msmOf N (bs p) (ss p) := by
  intro tr
  have hle := l_eq hpp
  have hg := PSS.good_of_new hpp
  have hl : 0 < 2 ^ b := by positivity
  obtain ⟨q, h1, h2, h3⟩ := padded_sums hl hb hs
  have hin : pp.Shares (2 * pp.l) ((List.range (4 * pp.l)).map fun p => (pp.msmDealt gen t p).inMask)
      ((List.range pp.l).map fun i => t.vals i • gen) := PSS.fresh_one hg (by simp) _
  rw [PSS.Shares, hle] at hin
  obtain ⟨-, -, m, hm, -⟩ := hin
  have hop := fun x => openAt_eq hg hle (by rwa [offset_eq hpp]) P hinj hlt (c := q) (m := m) (sent := sentValues G tr) (fun p hp => by
    have := hm p hp
    rw [getD_map_range, if_pos hp] at this
    rw [sentValues_gathered, getD_map_range, if_pos hp, ← this, ← h1 p hp]
    rfl) h3 x
  have hown : (fun i => msmOf N (bs (P i)) (ss (P i))) = fun i => pval q (4 * 2 ^ b - 1) (pp.share.groupGen ^ P i) := by
    funext i
    exact h1 _ (hlt i)
  rw [hown]
  exact ⟨fun k hk => (hop _).trans (h2 k hk).symm, fun p hp => (hop _).trans (h1 p hp).symm⟩

/-- The bases as `detPackChunks` shares them. -/
theorem packed_padded {dbg₀ : Bool} {b : Nat} {pp : PSS F} (hpp : PSS.new dbg₀ (2 ^ b) = .ok pp) {dbg : Bool} {y : List G}
    {rows : List (List G)} (hr : pp.detPackChunks dbg y = .ok rows) {bs : Nat → List G}
    (hb : ∀ p < 4 * 2 ^ b, ZkSaas.column rows p = .ok (bs p)) :
    PaddedVec pp.share.groupGen pp.secret.offset (2 ^ b) ((y.length + 2 ^ b - 1) / 2 ^ b) bs (chunks (2 ^ b) fun i => y.getD i 0) := by
  have hle := l_eq hpp
  have hg := PSS.good_of_new hpp
  obtain ⟨rows', e, h1, h2⟩ := PSS.detPackChunks_padded hg dbg y (fun hd => by
    by_contra h
    rw [hd, PSS.detPackChunks_panic hg.lpos y h] at hr
    cases hr)
  obtain rfl := Except.ok.inj (hr.symm.trans e)
  rw [hle] at h1 h2
  have hbs : ∀ p < 4 * 2 ^ b, bs p = rows.map fun x => x.getD p 0 := fun p hp => Except.ok.inj ((hb p hp).symm.trans (h1 p hp))
  refine ⟨fun p hp => by rw [hbs p hp]; exact h2.1 p hp, fun c hc => ?_⟩
  obtain ⟨e, he0, he1, he2, he3⟩ := h2.2 c hc
  exact ⟨e, he0, fun p hp => by rw [hbs p hp]; exact he1 p hp, he2, he3⟩

/-- **C76** The bases of `d_msm` are shared with `det_pack`, which pads with zeros, and its masks have `2l` coefficients. So there is a
function that computes, from the bytes that the king is sent and the local sums of any `l` parties, the sum of the products
in every slot, hence the result, and the local sum of every party. -/
theorem C76_d_msm {dbg₀ : Bool} {b : Nat} {pp : PSS F} (hpp : PSS.new dbg₀ (2 ^ b) = .ok pp)
    (hgen : (FftField.GENERATOR : F) ^ (4 * 2 ^ b) ≠ 1) (P : Fin (2 ^ b) → Nat) (hinj : Function.Injective P) (hlt : ∀ i, P i < 4 * 2 ^ b) :
    ∃ learn : Transcript → (Fin (2 ^ b) → G) → (Nat → G) × (Nat → G),
      ∀ (dbg : Bool) (y : List G) (x : List F), x.length = y.length → ∀ (rows : List (List G)) (bs : Nat → List G) (ss : Nat → List F),
      pp.detPackChunks dbg y = .ok rows → (∀ p < 4 * 2 ^ b, ZkSaas.column rows p = .ok (bs p)) → HoldsChunks pp b ss x →
      ∀ (gen : G) (t : MsmTape F G) (masks : Nat → MsmMask G),
      MsmMask.sample pp dbg gen t.vals t.rngIn t.rngOut = .ok ((List.range (4 * 2 ^ b)).map masks) →
      ∀ (sid : Sid) (outs : Nat → G) (views : Fin (4 * 2 ^ b) → Transcript),
      AlwaysYields (Net.init fun i : Fin (4 * 2 ^ b) => (pp.dMsm dbg (4 * 2 ^ b) i (bs i) (ss i) (masks i) sid).recorded)
        (fun i => (outs i, views i)) →
      let N := (y.length + 2 ^ b - 1) / 2 ^ b
      let learnt := learn (views ⟨0, by positivity⟩) fun i => msmOf N (bs (P i)) (ss (P i))
      (∀ k < 2 ^ b, learnt.1 k = ∑ c ∈ range N, x.getD (c * 2 ^ b + k) 0 • y.getD (c * 2 ^ b + k) 0) ∧
      ∑ k ∈ range (2 ^ b), learnt.1 k = ∑ i ∈ range y.length, x.getD i 0 • y.getD i 0 ∧
      ∀ p < 4 * 2 ^ b, learnt.2 p = msmOf N (bs p) (ss p) := by
  refine ⟨fun tr own => (learnSlot pp (2 ^ b) P tr own, learnLocal pp (2 ^ b) P tr own),
    fun dbg y x hlen rows bs ss hrows hbs hs gen t masks hm sid outs views hr => ?_⟩
  intro N learnt
  have hle := l_eq hpp
  have hg := PSS.good_of_new hpp
  have hl := hg.lpos
  have hb0 : 0 < 4 * 2 ^ b := by positivity
  have hb := packed_padded hpp hrows hbs
  rw [HoldsChunks, hlen] at hs
  have mm := MsmMask.sample_dealt hg dbg gen t
  rw [hle] at mm
  have hm' := sampled_eq hm mm
  have hbv : pp.SharedVec (2 * pp.l) N bs (chunks (2 ^ b) fun i => y.getD i 0) := by rw [PSS.SharedVec, hle]; exact hb.shared
  have hsv : pp.SharedVec (2 * pp.l) N ss (chunks (2 ^ b) fun i => x.getD i 0) := by rw [PSS.SharedVec, hle]; exact hs
  obtain ⟨r, -⟩ := PSS.dMsm_view (n := 4 * 2 ^ b) hg dbg (by rw [hle]) (by omega) (by omega) hbv hsv gen t sid rfl
  have r' := (r.congr (ps' := fun i : Fin (4 * 2 ^ b) => pp.dMsm dbg (4 * 2 ^ b) i (bs i) (ss i) (masks i) sid)
    (fun i => by rw [hm' i i.2]) (fun _ => rfl) fun _ => rfl).alwaysYields fun i => PSS.dMsm_wf _ (by positivity) _ _ _ _ _
  have hv : views ⟨0, hb0⟩ = gathered (4 * 2 ^ b) fun p => msmOf N (bs p) (ss p) + (pp.msmDealt gen t p).inMask :=
    congrArg Prod.snd (congrFun (AlwaysYields.unique hr r') ⟨0, hb0⟩)
  obtain ⟨h1, h2⟩ := learn_gathered hpp hgen P hinj hlt hb hs gen t
  have h1 : ∀ k < 2 ^ b, learnt.1 k = ∑ c ∈ range N, x.getD (c * 2 ^ b + k) 0 • y.getD (c * 2 ^ b + k) 0 := by
    intro k hk
    have := h1 k hk
    rw [← hv] at this
    refine this.trans (sum_congr rfl fun c _ => ?_)
    rw [chunks, chunks, getD_map_range, if_pos hk, getD_map_range, if_pos hk]
  refine ⟨h1, ?_, fun p hp => ?_⟩
  · rw [← sum_padded (N := N * 2 ^ b) _ _ rfl (numChunks_mul y (by positivity)), ← sum_chunks]
    refine sum_congr rfl fun k hk => ?_
    rw [h1 k (mem_range.1 hk)]
    refine sum_congr rfl fun c _ => ?_
    have hk := mem_range.1 hk
    rw [chunks, chunks, getD_map_range, if_pos hk, getD_map_range, if_pos hk]
  · rw [← h2 p hp, ← hv]

/-! ### A session -/

/-- A run of `circom_h` with dealt masks: the king is sent seven times `n` messages. -/
theorem circomH_view {dbg₀ : Bool} {b : Nat} {pp : PSS F} (hpp : PSS.new dbg₀ (2 ^ b) = .ok pp) (dbg : Bool) {a : Nat} (ha : a < 64)
    {dom dom2 : Domain F} (hdom : Domain.new (2 ^ (a + b)) = some dom) (hdom2 : Domain.new (2 ^ (a + b + 1)) = some dom2)
    {xa xb xc : Nat → F} {q : Nat → PackedQAPShare F} (hq : SharesProgram pp a b dom q xa xb xc) (rng : Nat → Nat → Nat → F)
    {t : Nat → VecTape F} (td : VecTape F) {masks : Nat → Nat → FftMask F} (hm : CircomDealt pp a b dom2.groupGen dom t masks) :
    ∃ (outs : Nat → List F) (views : Fin (4 * 2 ^ b) → Transcript) (y : List F),
      RunsV All (fun _ => True) (fun i : Fin (4 * 2 ^ b) => pp.circomH dbg (4 * 2 ^ b) i (q i) (masks i) (pp.degDealt (2 ^ a) td i) rng)
        (fun i => outs i) views ∧ (∀ i, i.val = 0 → (views i).length = 7 * (4 * 2 ^ b)) ∧ y.length = 2 ^ (a + b) ∧ HoldsChunks pp b outs y := by
  have hle := l_eq hpp
  have hg := PSS.good_of_new hpp
  have hl := hg.lpos
  have hN64 : 2 ^ a < 2 ^ 64 := Nat.pow_lt_pow_right (by omega) ha
  have hmasks := (hm.sampled hpp dbg hdom).eq hpp hdom
  obtain ⟨ea, eb, ec, w, k, hw, -⟩ := stages_view hpp dbg a ha hdom _ _ _ dom2.groupGen false q hq rng t
  have s1 := SharedVec.mulSub hg hle false rfl k.sharesA k.sharesB k.sharesC
  obtain ⟨r, hout⟩ := PSS.degRed_view (n := 4 * 2 ^ b) hg dbg (by rw [hle]) (by positivity) hN64 (by omega) le_rfl s1 td .zero (rng 6)
  have f := k.run (fun i x y z => pp.degRed dbg (4 * 2 ^ b) i (List.zipWith (fun ab c => ab.1 * ab.2 - c) (List.zip x y) z)
    (pp.degDealt (2 ^ a) td i) .zero (rng 6)) _ _ (r.mono fun _ _ => trivial)
  have f' := f.congr (ps' := fun i : Fin (4 * 2 ^ b) => pp.circomH dbg (4 * 2 ^ b) i (q i) (masks i) (pp.degDealt (2 ^ a) td i) rng) (fun i => by
    rw [circomH_stages dbg hdom hdom2 (hq.1 i i.2)]
    exact stages_congr (hmasks i i.2)) (fun _ => rfl) fun _ => rfl
  let e := fun x => cosetVals dom (2 ^ (a + b)) dom2.groupGen x
  refine ⟨fun p => addMask (pp.freshVec (2 ^ a) (fun c => List.zipWith (· + ·) (packed false a b (fun i => e xa i * e xb i - e xc i) c)
      (chunks pp.l td.vals c)) (rng 6) p) (pp.degDealt (2 ^ a) td p).outMask, _,
    (List.range (2 ^ (a + b))).map fun i => e xa i * e xb i - e xc i, f', fun i hi => ?_, by simp, HoldsOutput.chunks (a := a) ⟨by simp, ?_⟩⟩
  · rw [List.length_append, hw i hi, if_pos hi, gathered_length]
    omega
  · rw [← hle]
    refine SharedVec.congr hout (fun _ _ => rfl) fun c hc => packed_congr _ hc fun i hi => ?_
    rw [getD_map_range, if_pos hi]

omit [FixedWire F] in
theorem HoldsChunks.vec {T : Type} [AddCommGroup T] [Module F T] [DecidableEq T] {dbg₀ : Bool} {b : Nat} {pp : PSS F}
    (hpp : PSS.new dbg₀ (2 ^ b) = .ok pp) {sh : Nat → List T} {v : List T} {m : Nat} (h : HoldsChunks pp b sh v) (hm : v.length = m) :
    pp.SharedVec (2 * pp.l) ((m + 2 ^ b - 1) / 2 ^ b) sh (chunks (2 ^ b) fun i => v.getD i 0) := by
  rw [PSS.SharedVec, l_eq hpp, ← hm]
  exact h

section msmviews

/-- A run of `d_msm` on vectors cut into chunks. -/
theorem dMsm_chunks_view {dbg₀ : Bool} {b : Nat} {pp : PSS F} (hpp : PSS.new dbg₀ (2 ^ b) = .ok pp) (dbg : Bool) {y : List G} {x : List F}
    (hlen : x.length = y.length) {bs : Nat → List G} {ss : Nat → List F} (hb : HoldsChunks pp b bs y) (hs : HoldsChunks pp b ss x)
    (gen : G) (t : MsmTape F G) (sid : Sid) :
    ∃ (outs : Nat → G) (views : Fin (4 * 2 ^ b) → Transcript),
      RunsV All (only sid) (fun i : Fin (4 * 2 ^ b) => pp.dMsm dbg (4 * 2 ^ b) i (bs i) (ss i) (pp.msmDealt gen t i) sid) (fun i => outs i) views ∧
      ∀ i, i.val = 0 → views i = gathered (4 * 2 ^ b) fun p =>
        msmOf ((y.length + 2 ^ b - 1) / 2 ^ b) (bs p) (ss p) + (pp.msmDealt gen t p).inMask := by
  have hle := l_eq hpp
  have hg := PSS.good_of_new hpp
  have hl := hg.lpos
  obtain ⟨r, -⟩ := PSS.dMsm_view (n := 4 * 2 ^ b) hg dbg (by rw [hle]) (by omega) (by omega) (hb.vec hpp rfl) (hs.vec hpp hlen) gen t sid
    (tot := ∑ k ∈ range pp.l, ∑ c ∈ range ((y.length + 2 ^ b - 1) / 2 ^ b), (chunks (2 ^ b) (fun i => x.getD i 0) c).getD k 0 •
      (chunks (2 ^ b) (fun i => y.getD i 0) c).getD k 0) rfl
  exact ⟨fun p => _ + _ + (pp.msmDealt gen t p).outMask, _, r, fun i hi => if_pos hi⟩

/-- **C76** That is exact: if the parties in `P` hold the same shares of two vectors of scalars, then the king can be sent the same bytes
for both just when every party has the same local sum for both. -/
theorem C76_exact {dbg₀ : Bool} {b : Nat} {pp : PSS F} (hpp : PSS.new dbg₀ (2 ^ b) = .ok pp)
    (hgen : (FftField.GENERATOR : F) ^ (4 * 2 ^ b) ≠ 1) (P : Fin (2 ^ b) → Nat) (hinj : Function.Injective P) (hlt : ∀ i, P i < 4 * 2 ^ b)
    {dbg : Bool} {y : List G} {x x' : List F} (hx : x.length = y.length) (hx' : x'.length = y.length) {rows : List (List G)}
    {bs : Nat → List G} {ss ss' : Nat → List F} (hrows : pp.detPackChunks dbg y = .ok rows)
    (hbs : ∀ p < 4 * 2 ^ b, ZkSaas.column rows p = .ok (bs p)) (hs : HoldsChunks pp b ss x) (hs' : HoldsChunks pp b ss' x')
    (hP : ∀ i, ss (P i) = ss' (P i)) (gen : G) (sid : Sid) :
    (∃ (t t' : MsmTape F G) (masks masks' : Nat → MsmMask G) (outs outs' : Nat → G) (views views' : Fin (4 * 2 ^ b) → Transcript),
      MsmMask.sample pp dbg gen t.vals t.rngIn t.rngOut = .ok ((List.range (4 * 2 ^ b)).map masks) ∧
      MsmMask.sample pp dbg gen t'.vals t'.rngIn t'.rngOut = .ok ((List.range (4 * 2 ^ b)).map masks') ∧
      (∀ i, masks (P i) = masks' (P i)) ∧
      AlwaysYields (Net.init fun i : Fin (4 * 2 ^ b) => (pp.dMsm dbg (4 * 2 ^ b) i (bs i) (ss i) (masks i) sid).recorded)
        (fun i => (outs i, views i)) ∧
      AlwaysYields (Net.init fun i : Fin (4 * 2 ^ b) => (pp.dMsm dbg (4 * 2 ^ b) i (bs i) (ss' i) (masks' i) sid).recorded)
        (fun i => (outs' i, views' i)) ∧ views ⟨0, by positivity⟩ = views' ⟨0, by positivity⟩) ↔
      ∀ p < 4 * 2 ^ b, msmOf ((y.length + 2 ^ b - 1) / 2 ^ b) (bs p) (ss p) = msmOf ((y.length + 2 ^ b - 1) / 2 ^ b) (bs p) (ss' p) := by
  constructor
  · rintro ⟨t, t', masks, masks', outs, outs', views, views', hm, hm', -, hr, hr', hv⟩ p hp
    obtain ⟨learn, H⟩ := C76_d_msm (G := G) hpp hgen P hinj hlt
    obtain ⟨-, -, h⟩ := H dbg y x hx rows bs ss hrows hbs hs gen t masks hm sid outs views hr
    obtain ⟨-, -, h'⟩ := H dbg y x' hx' rows bs ss' hrows hbs hs' gen t' masks' hm' sid outs' views' hr'
    rw [← h p hp, ← h' p hp, hv]
    simp only [hP]
  · intro hsum
    have hle := l_eq hpp
    have hb : HoldsChunks pp b bs y := (packed_padded hpp hrows hbs).shared
    have mm := MsmMask.sample_dealt (PSS.good_of_new hpp) dbg gen (⟨0, 0, 0⟩ : MsmTape F G)
    rw [hle] at mm
    obtain ⟨outs, views, r, hv⟩ := dMsm_chunks_view hpp dbg hx hb hs gen ⟨0, 0, 0⟩ sid
    obtain ⟨outs', views', r', hv'⟩ := dMsm_chunks_view hpp dbg hx' hb hs' gen ⟨0, 0, 0⟩ sid
    refine ⟨⟨0, 0, 0⟩, ⟨0, 0, 0⟩, _, _, outs, outs', views, views', mm, mm, fun _ => rfl,
      r.alwaysYields fun i => PSS.dMsm_wf _ (by positivity) _ _ _ _ _, r'.alwaysYields fun i => PSS.dMsm_wf _ (by positivity) _ _ _ _ _, ?_⟩
    rw [hv _ rfl, hv' _ rfl]
    exact List.map_congr_left fun p hp => by dsimp only; rw [hsum p (List.mem_range.1 hp)]

theorem proveA_view {dbg₀ : Bool} {b : Nat} {pp : PSS F} (hpp : PSS.new dbg₀ (2 ^ b) = .ok pp) (dbg : Bool) {y : List G} {x : List F}
    (hlen : x.length = y.length) {bs : Nat → List G} {ss : Nat → List F} (hb : HoldsChunks pp b bs y) (hs : HoldsChunks pp b ss x)
    (gen : G) (t : MsmTape F G) (sid : Sid) (L N AG : G) (rsh : Nat → F) :
    ∃ (outs : Nat → G) (views : Fin (4 * 2 ^ b) → Transcript),
      RunsV All (only sid) (fun i : Fin (4 * 2 ^ b) => pp.proveA dbg (4 * 2 ^ b) i L N AG (bs i) (ss i) (rsh i) (pp.msmDealt gen t i) sid)
        (fun i => outs i) views ∧
      ∀ i, i.val = 0 → views i = gathered (4 * 2 ^ b) fun p =>
        msmOf ((y.length + 2 ^ b - 1) / 2 ^ b) (bs p) (ss p) + (pp.msmDealt gen t p).inMask := by
  obtain ⟨o, v, h, hv⟩ := dMsm_chunks_view hpp dbg hlen hb hs gen t sid
  have h' := RunsV.bind h (f := fun i w => .done (.ok ((L + rsh i • N) + w + AG))) (RunsV.done fun i => (L + rsh i • N) + o i + AG)
  refine ⟨fun p => (L + rsh p • N) + o p + AG, v, h'.congr (fun _ => rfl) (fun _ => rfl) fun i => by simp, hv⟩

theorem proveC_view {dbg₀ : Bool} {b : Nat} {pp : PSS F} (hpp : PSS.new dbg₀ (2 ^ b) = .ok pp) (dbg : Bool) {W U : List G} {ax h : List F}
    (hW : ax.length = W.length) (hU : h.length = U.length) {Wsh Ush : Nat → List G} {axsh hsh : Nat → List F}
    (sW : HoldsChunks pp b Wsh W) (sU : HoldsChunks pp b Ush U) (sa : HoldsChunks pp b axsh ax) (sh : HoldsChunks pp b hsh h)
    (gen : G) (t u : MsmTape F G) (M : G) (Ash Bsh : Nat → G) (rsh ssh : Nat → F) :
    ∃ (outs : Nat → G) (views : Fin (4 * 2 ^ b) → Transcript),
      RunsV All (fun _ => True) (fun i : Fin (4 * 2 ^ b) => pp.proveC dbg (4 * 2 ^ b) i (Ash i) (Bsh i) (ssh i) (rsh i) M (Wsh i) (Ush i) (axsh i)
        (hsh i) (pp.msmDealt gen t i) (pp.msmDealt gen u i)) (fun i => outs i) views ∧
      ∀ i, i.val = 0 → views i =
        (gathered (4 * 2 ^ b) fun p => msmOf ((W.length + 2 ^ b - 1) / 2 ^ b) (Wsh p) (axsh p) + (pp.msmDealt gen t p).inMask) ++
        gathered (4 * 2 ^ b) fun p => msmOf ((U.length + 2 ^ b - 1) / 2 ^ b) (Ush p) (hsh p) + (pp.msmDealt gen u p).inMask := by
  obtain ⟨o, v, h1, hv⟩ := dMsm_chunks_view hpp dbg hW sW sa gen t .zero
  obtain ⟨o', v', h2, hv'⟩ := dMsm_chunks_view hpp dbg hU sU sh gen u .one
  have h' := RunsV.par (S := fun _ => True) h1 h2 (fun _ _ => trivial) (fun _ _ => trivial)
    (k := fun i w u => .done (.ok (ssh i • Ash i + rsh i • Bsh i - (rsh i * ssh i) • M + w + u)))
    (RunsV.done fun i => ssh i • Ash i + rsh i • Bsh i - (rsh i * ssh i) • M + o i + o' i)
  refine ⟨fun p => ssh p • Ash p + rsh p • Bsh p - (rsh p * ssh p) • M + o p + o' p, fun i => v i ++ v' i,
    h'.congr (fun _ => rfl) (fun _ => rfl) fun i => by simp, fun i hi => by dsimp only; rw [hv i hi, hv' i hi]⟩

end msmviews

section servers

variable {G1 G2 : Type} [AddCommGroup G1] [Module F G1] [DecidableEq G1] [FixedWire G1]
  [AddCommGroup G2] [Module F G2] [DecidableEq G2] [FixedWire G2]

/-- A run of the servers: what the king is sent in the steps for `A`, for `B` in the second group, and for `C`. -/
theorem run_view {dbg₀ : Bool} {b : Nat} {pp : PSS F} (hpp : PSS.new dbg₀ (2 ^ b) = .ok pp) (dbg : Bool) {a ni : Nat} (ha : a < 64)
    {dom dom2 : Domain F} (hdom : Domain.new (2 ^ (a + b)) = some dom) (hdom2 : Domain.new (2 ^ (a + b + 1)) = some dom2)
    {crs : Nat → PackedProvingKeyShare G1 G2} {a0 b0 α1 β1 δ1 : G1} {v0 β2 δ2 : G2}
    (hpub : ∀ p, (crs p).aQuery0 = a0 ∧ (crs p).bG1Query0 = b0 ∧ (crs p).bG2Query0 = v0 ∧ (crs p).deltaG1 = δ1 ∧
        (crs p).deltaG2 = δ2 ∧ (crs p).alphaG1 = α1 ∧ (crs p).betaG1 = β1 ∧ (crs p).betaG2 = β2)
    {S H W U : List G1} {V : List G2} (hS : HoldsChunks pp b (fun p => (crs p).s) S) (hU : HoldsChunks pp b (fun p => (crs p).u) U)
    (hW : HoldsChunks pp b (fun p => (crs p).w) W) (hH : HoldsChunks pp b (fun p => (crs p).h) H)
    (hV : HoldsChunks pp b (fun p => (crs p).v) V) {z : List F} (hzS : (z.drop 1).length = S.length)
    (hzH : (z.drop 1).length = H.length) (hzV : (z.drop 1).length = V.length) (hax : (z.drop ni).length = W.length)
    (hUl : U.length = 2 ^ (a + b)) {q : QAP F} {gen1 : G1} {gen2 : G2} {t : ClientTape F G1 G2} {I : Nat → ServerInput F G1 G2}
    (f : Dealt pp a b ni q z dom2.groupGen dom crs gen1 gen2 t I)
    (hr0 : (∀ p < 4 * 2 ^ b, (I p).r ≠ 0) ∨ ∀ p < 4 * 2 ^ b, (I p).r = 0) (rng : Nat → Nat → Nat → F) :
    ∃ (outs : Nat → G1 × G2 × G1) (views : Fin (4 * 2 ^ b) → Transcript) (w v u : Transcript),
      AlwaysYields (Net.init fun i : Fin (4 * 2 ^ b) => ((I i).run pp dbg (4 * 2 ^ b) i rng).recorded) (fun i => (outs i, views i)) ∧
      w.length = 7 * (4 * 2 ^ b) ∧ u.length = 4 * 2 ^ b ∧ ∀ i, i.val = 0 → views i = w ++
        ((gathered (4 * 2 ^ b) fun p => msmOf ((S.length + 2 ^ b - 1) / 2 ^ b) (crs p).s (I p).a + (pp.msmDealt gen1 (t.msm1 0) p).inMask) ++
        (v ++
        ((gathered (4 * 2 ^ b) fun p => msmOf ((V.length + 2 ^ b - 1) / 2 ^ b) (crs p).v (I p).a + (pp.msmDealt gen2 t.msm2 p).inMask) ++
        ((gathered (4 * 2 ^ b) fun p => msmOf ((W.length + 2 ^ b - 1) / 2 ^ b) (crs p).w (I p).ax + (pp.msmDealt gen1 (t.msm1 2) p).inMask) ++
          u)))) := by
  obtain ⟨oh, vh, y, rH, hvh, ly, hh⟩ := circomH_view hpp dbg ha hdom hdom2 f.program rng t.degred f.masks
  obtain ⟨oA, vA, rA, hvA⟩ := proveA_view hpp dbg hzS hS f.shA gen1 (t.msm1 0) .zero a0 δ1 α1 fun p => (I p).r
  have hB1 : ∃ (oB : Nat → G1) (vB : Fin (4 * 2 ^ b) → Transcript), RunsV All (only .zero) (fun i : Fin (4 * 2 ^ b) =>
      pp.proveBInG1 dbg (4 * 2 ^ b) i b0 δ1 β1 (crs i).h (I i).a (I i).s (I i).r (pp.msmDealt gen1 (t.msm1 1) i) .zero) (fun i => oB i) vB := by
    rcases hr0 with hr0 | hr0
    · obtain ⟨o, v, r, -⟩ := proveA_view hpp dbg hzH hH f.shA gen1 (t.msm1 1) .zero b0 δ1 β1 fun p => (I p).s
      exact ⟨o, v, r.congr (fun i => proveBInG1_eq_A _ _ _ _ _ _ _ _ _ (hr0 i i.2) _ _) (fun _ => rfl) fun _ => rfl⟩
    · refine ⟨fun _ => 0, _, (RunsV.done fun _ => 0).congr (fun i => ?_) (fun _ => rfl) fun _ => rfl⟩
      rw [PSS.proveBInG1, if_pos (hr0 i i.2)]
  obtain ⟨oB1, vB1, rB1⟩ := hB1
  obtain ⟨oB, vB, rB, hvB⟩ := proveA_view hpp dbg hzV hV f.shA gen2 t.msm2 .zero v0 δ2 β2 fun p => (I p).s
  obtain ⟨oC, vC, rC, hvC⟩ := proveC_view hpp dbg hax (ly.trans hUl.symm) hW hU f.shAx hh gen1 (t.msm1 2) (t.msm1 3) δ1 oA oB1
    (fun p => (I p).r) fun p => (I p).s
  have hn : 0 < 4 * 2 ^ b := by positivity
  have hz : ∀ i : Fin (4 * 2 ^ b), i.val = 0 → i = ⟨0, hn⟩ := fun i hi => Fin.ext hi
  have r := RunsV.bind rH (f := fun i h =>
      (pp.proveA dbg (4 * 2 ^ b) i a0 δ1 α1 (crs i).s (I i).a (I i).r (pp.msmDealt gen1 (t.msm1 0) i) .zero).bind fun piA =>
      (pp.proveBInG1 dbg (4 * 2 ^ b) i b0 δ1 β1 (crs i).h (I i).a (I i).s (I i).r (pp.msmDealt gen1 (t.msm1 1) i) .zero).bind fun piB1 =>
      (pp.proveA dbg (4 * 2 ^ b) i v0 δ2 β2 (crs i).v (I i).a (I i).s (pp.msmDealt gen2 t.msm2 i) .zero).bind fun piB2 =>
      (pp.proveC dbg (4 * 2 ^ b) i piA piB1 (I i).s (I i).r δ1 (crs i).w (crs i).u (I i).ax h (pp.msmDealt gen1 (t.msm1 2) i)
        (pp.msmDealt gen1 (t.msm1 3) i)).bind fun piC =>
      Proc.done (.ok (piA, piB2, piC)))
    (RunsV.bind (rA.mono fun _ _ => trivial) (RunsV.bind (rB1.mono fun _ _ => trivial) (RunsV.bind (rB.mono fun _ _ => trivial)
      (RunsV.bind rC (RunsV.done fun i => (oA i, oB i, oC i))))))
  refine ⟨fun p => (oA p, oB p, oC p), _, vh ⟨0, hn⟩, vB1 ⟨0, hn⟩, _, RunsV.alwaysYields (P := All) (S := fun _ => True)
    (r.congr (fun i => ?_) (fun _ => rfl) fun _ => rfl) fun i => dsha256_wf _ (by positivity) _ _ _ _ _ _ _ _ _ _ _ _, hvh _ rfl,
    gathered_length (T := G1) _ fun p => msmOf ((U.length + 2 ^ b - 1) / 2 ^ b) (crs p).u (oh p) + (pp.msmDealt gen1 (t.msm1 3) p).inMask, fun i hi => ?_⟩
  · obtain ⟨e1, e2, e3, e4, e5, e6, e7, e8⟩ := hpub i
    rw [ServerInput.run, f.crs, f.degred, f.msm2]
    unfold PSS.dsha256
    dsimp only
    rw [e1, e2, e3, e4, e5, e6, e7, e8, f.msm1 i 0 (by omega), f.msm1 i 1 (by omega), f.msm1 i 2 (by omega), f.msm1 i 3 (by omega)]
    rfl
  · obtain rfl := hz i hi
    rw [hvA _ rfl, hvB _ rfl, hvC _ rfl, List.append_nil]

/-- The vectors of a packed proving key are padded with zeros on the secret domain. -/
theorem pack_key_padded {dbg₀ : Bool} {b : Nat} {pp : PSS F} (hpp : PSS.new dbg₀ (2 ^ b) = .ok pp) {dbg : Bool} {pk : ProvingKey G1 G2}
    {crs : Nat → PackedProvingKeyShare G1 G2} (h : packFromArkworksProvingKey dbg pk pp = .ok ((List.range (4 * 2 ^ b)).map crs)) :
    PaddedVec pp.share.groupGen pp.secret.offset (2 ^ b) (((pk.aQuery.drop 1).length + 2 ^ b - 1) / 2 ^ b) (fun p => (crs p).s)
      (chunks (2 ^ b) fun i => (pk.aQuery.drop 1).getD i 0) ∧
    PaddedVec pp.share.groupGen pp.secret.offset (2 ^ b) ((pk.lQuery.length + 2 ^ b - 1) / 2 ^ b) (fun p => (crs p).w)
      (chunks (2 ^ b) fun i => pk.lQuery.getD i 0) ∧
    PaddedVec pp.share.groupGen pp.secret.offset (2 ^ b) (((pk.bG2Query.drop 1).length + 2 ^ b - 1) / 2 ^ b) (fun p => (crs p).v)
      (chunks (2 ^ b) fun i => (pk.bG2Query.drop 1).getD i 0) := by
  have hn : pp.n = 4 * 2 ^ b := by rw [(PSS.good_of_new hpp).n_eq, l_eq hpp]
  unfold packFromArkworksProvingKey at h
  obtain ⟨rS, eS, h⟩ := bind_ok h
  obtain ⟨rU, eU, h⟩ := bind_ok h
  obtain ⟨rW, eW, h⟩ := bind_ok h
  obtain ⟨rH, eH, h⟩ := bind_ok h
  obtain ⟨rV, eV, h⟩ := bind_ok h
  rw [hn] at h
  have cols : ∀ p < 4 * 2 ^ b, ZkSaas.column rS p = .ok (crs p).s ∧ ZkSaas.column rW p = .ok (crs p).w ∧
      ZkSaas.column rV p = .ok (crs p).v := by
    intro p hp
    have hpart : partOf (Except.ok ((List.range (4 * 2 ^ b)).map crs)) p = some (crs p) := by
      simp [partOf, hp]
    rw [← h] at hpart
    have this := partOf_mapM_some hpart
    obtain ⟨s, hs, this⟩ := bind_ok this
    obtain ⟨u, hu, this⟩ := bind_ok this
    obtain ⟨v, hv, this⟩ := bind_ok this
    obtain ⟨w, hw, this⟩ := bind_ok this
    obtain ⟨hh, _, this⟩ := bind_ok this
    obtain ⟨_, _, this⟩ := bind_ok this
    obtain ⟨_, _, this⟩ := bind_ok this
    obtain ⟨_, _, this⟩ := bind_ok this
    rw [← Except.ok.inj this]
    exact ⟨hs, hw, hv⟩
  exact ⟨packed_padded hpp eS fun p hp => (cols p hp).1, packed_padded hpp eW fun p hp => (cols p hp).2.1,
    packed_padded hpp eV fun p hp => (cols p hp).2.2⟩

/-- What server `p` is given, apart from its shares of `r` and `s`. -/
def dealtWith (pp : PSS F) (a b ni : Nat) (q : QAP F) (z : List F) (root : F) (dom : Domain F)
    (crs : Nat → PackedProvingKeyShare G1 G2) (gen1 : G1) (gen2 : G2) (t : ClientTape F G1 G2) (p : Nat) (r s : F) : ServerInput F G1 G2 :=
  let x := dealtInput pp a b ni q z root dom crs gen1 gen2 0 0 t p
  ⟨x.crs, x.q, x.a, x.ax, r, s, x.fftMask, x.degredMask, x.g1Mask, x.g2Mask⟩

/-- The dealing for any number of copies of `r` and `s`. -/
theorem deal_with {dbg₀ : Bool} {b : Nat} {pp : PSS F} (hpp : PSS.new dbg₀ (2 ^ b) = .ok pp) (dbg : Bool) (a : Nat)
    {mats : ConstraintMatrices F} {z : List F} {dom dom2 : Domain F} (hcirc : Circuit a b mats z dom dom2) {q : QAP F}
    (eq : qap mats z = .ok (some q)) (hd : q.domain = dom) (la : q.a.length = 2 ^ (a + b)) (lb : q.b.length = 2 ^ (a + b))
    (lc : q.c.length = 2 ^ (a + b)) {pk : ProvingKey G1 G2} {crs : Nat → PackedProvingKeyShare G1 G2}
    (ec : packFromArkworksProvingKey dbg pk pp = .ok ((List.range (4 * 2 ^ b)).map crs)) (gen1 : G1) (gen2 : G2) (copies : Nat) (r s : F)
    (t : ClientTape F G1 G2) {ins : Nat → ServerInput F G1 G2}
    (h : pp.deal dbg copies mats z pk gen1 gen2 r s t = .ok ((List.range (4 * 2 ^ b)).map ins)) :
    ∀ p < 4 * 2 ^ b, ins p = dealtWith pp a b mats.numInstanceVariables q z dom2.groupGen dom crs gen1 gen2 t p (ins p).r (ins p).s := by
  obtain ⟨hdom, hsize, hdom2, -, -, -, -, -, hin, hz, -⟩ := hcirc
  subst hd
  have hg := PSS.good_of_new hpp
  have hle := l_eq hpp
  have hb0 : 0 < 2 ^ b := by positivity
  have hdom' : Domain.new (2 ^ (a + b)) = some q.domain := hsize ▸ Domain.new_size hdom
  obtain ⟨hwf, -, -, -⟩ := Domain.new_pow2 hdom'
  obtain ⟨-, hoff2, -, -⟩ := Domain.new_pow2 hdom2
  have hprim : IsPrimitiveRoot q.domain.groupGen (2 ^ (a + b)) := by rw [← hsize]; exact hwf.prim
  have hprim' : IsPrimitiveRoot q.domain.groupGenInv (2 ^ (a + b)) := by rw [hwf.ginv]; exact hprim.inv
  have hdiv : 2 ^ (a + b) / 2 ^ b = 2 ^ a := by rw [pow_add, Nat.mul_div_cancel _ hb0]
  have fm := fun t => FftMask.sample_dealt hg dbg hle hprim' true dom2.groupGen t
  have fm' := fun t => FftMask.sample_dealt hg dbg hle hprim false 1 t
  have dm := fun t => DegRedMask.sample_dealt hg dbg (N := 2 ^ a) (by positivity) t
  have mm1 := fun t => MsmMask.sample_dealt hg dbg gen1 t
  have mm2 := fun t => MsmMask.sample_dealt hg dbg gen2 t
  rw [hle] at fm fm' dm mm1 mm2
  unfold PSS.deal at h
  simp only [eq, ok_bind, unwrap_some] at h
  obtain ⟨rs, -, h⟩ := bind_ok h
  obtain ⟨ss, -, h⟩ := bind_ok h
  simp only [QAP.pss_fresh hg dbg hle q la lb lc, PSS.packFromWitness_fresh hg, ec, hle, ok_bind] at h
  rw [assert_of (by simpa using hz), ok_bind, assert_of (by simp; omega), ok_bind, rd_range _ (by omega), ok_bind] at h
  simp only [hsize] at h
  rw [show 2 * 2 ^ (a + b) = 2 ^ (a + b + 1) by rw [pow_succ, mul_comm], hdom2] at h
  simp only [unwrap_some, ok_bind, Domain.element, hoff2, pow_one, one_mul, hdiv, fm, fm', dm, mm1, mm2] at h
  rw [hg.n_eq, hle] at h
  intro p hp
  have hpart : partOf (Except.ok ((List.range (4 * 2 ^ b)).map ins)) p = some (ins p) := by simp [partOf, hp]
  rw [← h] at hpart
  have this := partOf_mapM_some hpart
  simp only [rd_range _ hp, ok_bind, List.mapM_cons, List.mapM_nil, pure_ok] at this
  obtain ⟨r', -, this⟩ := bind_ok this
  obtain ⟨s', -, this⟩ := bind_ok this
  rw [← Except.ok.inj this]
  rfl

theorem dealtWith_facts {dbg₀ : Bool} {b : Nat} {pp : PSS F} (hpp : PSS.new dbg₀ (2 ^ b) = .ok pp) (a ni : Nat) (q : QAP F) (z : List F)
    (root : F) (dom : Domain F) (hd : q.domain = dom) (crs : Nat → PackedProvingKeyShare G1 G2) (gen1 : G1) (gen2 : G2) (r s : Nat → F)
    (t : ClientTape F G1 G2) :
    Dealt pp a b ni q z root dom crs gen1 gen2 t fun p => dealtWith pp a b ni q z root dom crs gen1 gen2 t p (r p) (s p) := by
  obtain ⟨h1, h2, h3, h4, h5, h6, h7, h8⟩ := dealt_facts hpp a ni q z root dom hd crs gen1 gen2 0 0 t
  exact ⟨h1, h2, h3, h4, h5, h6, h7, h8⟩

/-- What the king and the parties in `P` compute after a session, from what the king is sent and what they are given: the sums over the
`a` query, over the `b` query in the second group, and over the `l` query. -/
noncomputable def learnSums (pp : PSS F) (l : Nat) (P : Fin l → Nat) (tr : Transcript) (own : Fin l → ServerInput F G1 G2) : G1 × G2 × G1 :=
  let n := 4 * l
  (∑ k ∈ range l, learnSlot pp l P ((tr.drop (7 * n)).take n) (fun i => msmOf (own i).crs.s.length (own i).crs.s (own i).a) k,
    ∑ k ∈ range l, learnSlot pp l P ((tr.drop (tr.length - 3 * n)).take n) (fun i => msmOf (own i).crs.v.length (own i).crs.v (own i).a) k,
    ∑ k ∈ range l, learnSlot pp l P ((tr.drop (tr.length - 2 * n)).take n) (fun i => msmOf (own i).crs.w.length (own i).crs.w (own i).ax) k)

theorem learn_sum {dbg₀ : Bool} {b : Nat} {pp : PSS F} (hpp : PSS.new dbg₀ (2 ^ b) = .ok pp)
    (hgen : (FftField.GENERATOR : F) ^ (4 * 2 ^ b) ≠ 1) (P : Fin (2 ^ b) → Nat) (hinj : Function.Injective P)
    (hlt : ∀ i, P i < 4 * 2 ^ b) {y : List G} {x : List F} (hlen : x.length = y.length) {bs : Nat → List G} {ss : Nat → List F}
    (hb : PaddedVec pp.share.groupGen pp.secret.offset (2 ^ b) ((y.length + 2 ^ b - 1) / 2 ^ b) bs (chunks (2 ^ b) fun i => y.getD i 0))
    (hs : HoldsChunks pp b ss x) (gen : G) (t : MsmTape F G) :
    ∑ k ∈ range (2 ^ b), learnSlot pp (2 ^ b) P (gathered (4 * 2 ^ b) fun p =>
        msmOf ((y.length + 2 ^ b - 1) / 2 ^ b) (bs p) (ss p) + (pp.msmDealt gen t p).inMask)
        (fun i => msmOf (bs (P i)).length (bs (P i)) (ss (P i))) k =
      ∑ i ∈ range y.length, x.getD i 0 • y.getD i 0 := by
  rw [HoldsChunks, hlen] at hs
  obtain ⟨h1, -⟩ := learn_gathered hpp hgen P hinj hlt hb hs gen t
  rw [← sum_padded (N := (y.length + 2 ^ b - 1) / 2 ^ b * 2 ^ b) _ _ rfl (numChunks_mul y (by positivity)), ← sum_chunks]
  refine sum_congr rfl fun k hk => ?_
  rw [← h1 k (mem_range.1 hk)]
  congr 1
  funext i
  rw [hb.1 _ (hlt i)]

theorem segment_left {T : Type} (x y z : List T) {m n : Nat} (hx : x.length = m) (hy : y.length = n) :
    ((x ++ (y ++ z)).drop m).take n = y := by
  rw [← hx, List.drop_left, ← hy, List.take_left]

theorem segment_right {T : Type} (x y z : List T) {m n : Nat} (hy : y.length = n) (hz : n + z.length = m) :
    ((x ++ (y ++ z)).drop ((x ++ (y ++ z)).length - m)).take n = y :=
  segment_left x y z (by simp only [List.length_append]; omega) hy

/-- **C76** A session: from the bytes that the king is sent and what any `l` servers are given, a fixed function computes the sums of the
assignment over the `a` query, over the `b` query in the second group, and over the private part of the key. These are the points that
`r` and `s` are to hide in the proof. -/
theorem C76_session {dbg₀ : Bool} {b : Nat} {pp : PSS F} (hpp : PSS.new dbg₀ (2 ^ b) = .ok pp)
    (hgen : (FftField.GENERATOR : F) ^ (4 * 2 ^ b) ≠ 1) (P : Fin (2 ^ b) → Nat) (hinj : Function.Injective P) (hlt : ∀ i, P i < 4 * 2 ^ b) :
    ∃ learn : Transcript → (Fin (2 ^ b) → ServerInput F G1 G2) → G1 × G2 × G1,
      ∀ (dbg : Bool) (a : Nat), a < 64 → ∀ (mats : ConstraintMatrices F) (z : List F) (dom dom2 : Domain F), Circuit a b mats z dom dom2 →
      ∀ pk : ProvingKey G1 G2, KeyFits z.length mats.numInstanceVariables (2 ^ (a + b)) pk →
      ∀ (gen1 : G1) (gen2 : G2) (copies : Nat) (r s : F) (t : ClientTape F G1 G2) (ins : Nat → ServerInput F G1 G2),
      pp.deal dbg copies mats z pk gen1 gen2 r s t = .ok ((List.range (4 * 2 ^ b)).map ins) →
      ((∀ p < 4 * 2 ^ b, (ins p).r ≠ 0) ∨ ∀ p < 4 * 2 ^ b, (ins p).r = 0) →
      ∀ (rng : Nat → Nat → Nat → F) (outs : Nat → G1 × G2 × G1) (views : Fin (4 * 2 ^ b) → Transcript),
      AlwaysYields (Net.init fun i : Fin (4 * 2 ^ b) => ((ins i).run pp dbg (4 * 2 ^ b) i rng).recorded) (fun i => (outs i, views i)) →
      learn (views ⟨0, by positivity⟩) (fun i => ins (P i)) =
        (∑ k ∈ range (z.length - 1), z.getD (k + 1) 0 • pk.aQuery.getD (k + 1) 0,
          ∑ k ∈ range (z.length - 1), z.getD (k + 1) 0 • pk.bG2Query.getD (k + 1) 0,
          ∑ k ∈ range (z.length - mats.numInstanceVariables),
            z.getD (mats.numInstanceVariables + k) 0 • pk.lQuery.getD k 0) := by
  refine ⟨learnSums pp (2 ^ b) P, fun dbg a ha mats z dom dom2 hcirc pk hk gen1 gen2 copies r s t ins hdeal hr0 rng outs views hrun => ?_⟩
  have hn : 0 < 4 * 2 ^ b := by positivity
  have hin := hcirc.inputs
  have hwi := hcirc.wires
  have hdom' : Domain.new (2 ^ (a + b)) = some dom := hcirc.size ▸ Domain.new_size hcirc.domain
  obtain ⟨q, eq, hd, hni, hnc, la, lb, lc, -⟩ := C29_qap mats z hcirc.domain hcirc.rowsA hcirc.rowsB hcirc.colsA hcirc.colsB hcirc.wires
  rw [hcirc.size] at la lb lc
  have hcons : ∀ {T : Type} {v : List T}, v.length = z.length → ∃ x xs, v = x :: xs ∧ xs.length = z.length - 1 := by
    intro T v h
    cases v with
    | nil => simp at h; omega
    | cons x xs => exact ⟨x, xs, rfl, by simp at h; omega⟩
  obtain ⟨a0, as, hqa, las⟩ := hcons hk.aQuery
  obtain ⟨b0, bs, hqb, lbs⟩ := hcons hk.bG1Query
  obtain ⟨v0, vs, hqv, lvs⟩ := hcons hk.bG2Query
  have hal : dbg = true → KeyAligned (2 ^ b) pk := by
    intro h
    by_contra hna
    subst h
    have hp := C33_debug_panics hpp pk hna
    unfold PSS.deal at hdeal
    obtain ⟨_, -, hdeal⟩ := bind_ok hdeal
    obtain ⟨_, -, hdeal⟩ := bind_ok hdeal
    obtain ⟨_, -, hdeal⟩ := bind_ok hdeal
    obtain ⟨_, -, hdeal⟩ := bind_ok hdeal
    obtain ⟨_, -, hdeal⟩ := bind_ok hdeal
    rw [hp] at hdeal
    cases hdeal
  obtain ⟨crs, ec, hpub, hS, hU, hW, hH, hV⟩ := C33_pack_key hpp dbg pk hal hqa hqb hqv
  obtain ⟨pS, pW, pV⟩ := pack_key_padded hpp ec
  rw [hqa] at pS
  rw [hqv] at pV
  simp only [List.drop_succ_cons, List.drop_zero] at pS pV
  have hins := deal_with hpp dbg a hcirc eq hd la lb lc ec gen1 gen2 copies r s t hdeal
  have f := dealtWith_facts hpp a mats.numInstanceVariables q z dom2.groupGen dom hd crs gen1 gen2 (fun p => (ins p).r) (fun p => (ins p).s) t
  have hcrs : ∀ p < 4 * 2 ^ b, (ins p).crs = crs p := fun p hp => by rw [hins p hp]; exact f.crs p
  have hI : ∀ i : Fin (4 * 2 ^ b), ins i = dealtWith pp a b mats.numInstanceVariables q z dom2.groupGen dom crs gen1 gen2 t i (ins i).r (ins i).s :=
    fun i => hins i i.2
  obtain ⟨outs', views', w, v, u, hr, hw, hu, hv⟩ := run_view hpp dbg ha hdom' hcirc.double hpub hS hU hW hH hV (z := z)
    (ni := mats.numInstanceVariables) (by simp [las]) (by simp [lbs]) (by simp [lvs]) (by simp [hk.lQuery]) hk.hQuery f hr0 rng
  have hviews : views = views' := by
    have hr' : AlwaysYields (Net.init fun i : Fin (4 * 2 ^ b) => ((ins i).run pp dbg (4 * 2 ^ b) i rng).recorded)
        (fun i : Fin (4 * 2 ^ b) => (outs' i, views' i)) := by
      refine cast ?_ hr
      congr 2
      funext i
      rw [← hI i]
    funext i
    exact congrArg Prod.snd (congrFun (AlwaysYields.unique hrun hr') i)
  have key : ∀ {G : Type} [AddCommGroup G] [Module F G] [DecidableEq G] [FixedWire G] {y : List G} {x : List F} (_ : x.length = y.length)
      {bs : Nat → List G} {ss : Nat → List F} (_ : PaddedVec pp.share.groupGen pp.secret.offset (2 ^ b) ((y.length + 2 ^ b - 1) / 2 ^ b) bs
        (chunks (2 ^ b) fun i => y.getD i 0)) (_ : HoldsChunks pp b ss x) (gen : G) (t : MsmTape F G) {tr : Transcript},
      tr = (gathered (4 * 2 ^ b) fun p => msmOf ((y.length + 2 ^ b - 1) / 2 ^ b) (bs p) (ss p) + (pp.msmDealt gen t p).inMask) →
      ∀ {own : Fin (2 ^ b) → G}, (∀ i, own i = msmOf (bs (P i)).length (bs (P i)) (ss (P i))) →
      ∑ k ∈ range (2 ^ b), learnSlot pp (2 ^ b) P tr own k = ∑ i ∈ range y.length, x.getD i 0 • y.getD i 0 := by
    intro G _ _ _ _ y x hlen bs ss hb hs gen t tr htr own hown
    rw [htr, funext hown]
    exact learn_sum hpp hgen P hinj hlt hlen hb hs gen t
  have hsA : ∀ p < 4 * 2 ^ b, (ins p).a = _ := fun p hp => by rw [hins p hp]
  have hsAx : ∀ p < 4 * 2 ^ b, (ins p).ax = _ := fun p hp => by rw [hins p hp]
  have e : views ⟨0, by positivity⟩ = _ := (congrFun hviews _).trans (hv ⟨0, hn⟩ rfl)
  unfold learnSums
  refine Prod.ext ?_ (Prod.ext ?_ ?_) <;> dsimp only
  · rw [key (by simp [las]) pS f.shA gen1 (t.msm1 0) (y := as) ?_ fun i => ?_]
    · rw [las, hqa]
      exact sum_congr rfl fun k _ => by simp
    · rw [e]
      exact segment_left _ _ _ hw (gathered_length _ _)
    · rw [hcrs _ (hlt i), hsA _ (hlt i)]
  · rw [key (by simp [lvs]) pV f.shA gen2 t.msm2 (y := vs) ?_ fun i => ?_]
    · rw [lvs, hqv]
      exact sum_congr rfl fun k _ => by simp
    · rw [e, ← List.append_assoc _ _ (_ ++ (_ ++ (_ ++ u))), ← List.append_assoc _ v]
      exact segment_right _ _ _ (gathered_length _ _) (by rw [List.length_append, gathered_length, hu]; omega)
    · rw [hcrs _ (hlt i), hsA _ (hlt i)]
  · rw [key (by simp [hk.lQuery]) pW f.shAx gen1 (t.msm1 2) (y := pk.lQuery) ?_ fun i => ?_]
    · rw [hk.lQuery]
      exact sum_congr rfl fun k _ => by simp
    · rw [e, ← List.append_assoc _ _ (_ ++ (_ ++ (_ ++ u))), ← List.append_assoc _ v, ← List.append_assoc _ _ (_ ++ u)]
      exact segment_right _ _ _ (gathered_length _ _) (by rw [hu]; omega)
    · rw [hcrs _ (hlt i), hsAx _ (hlt i)]

/-- **C76** So zero knowledge ends where the king takes part: sessions for two assignments whose sums over the `a` query, over the `b` query
or over the private part of the key differ never look the same to a coalition of the king and `l` servers, or of the king and `l - 1` others,
whatever `r`, `s` and the tapes of client and king. -/
theorem C76_tells_apart {dbg₀ : Bool} {b : Nat} {pp : PSS F} (hpp : PSS.new dbg₀ (2 ^ b) = .ok pp)
    (hgen : (FftField.GENERATOR : F) ^ (4 * 2 ^ b) ≠ 1) (P : Fin (2 ^ b) → Nat) (hinj : Function.Injective P) (hlt : ∀ i, P i < 4 * 2 ^ b)
    {dbg : Bool} {a : Nat} (ha : a < 64) {mats : ConstraintMatrices F} {z z' : List F} {dom dom2 : Domain F}
    (hcirc : Circuit a b mats z dom dom2) (hcirc' : Circuit a b mats z' dom dom2) (hz : z.length = z'.length)
    {pk : ProvingKey G1 G2} (hk : KeyFits z.length mats.numInstanceVariables (2 ^ (a + b)) pk)
    (hne : ∑ k ∈ range (z.length - 1), z.getD (k + 1) 0 • pk.aQuery.getD (k + 1) 0 ≠
        ∑ k ∈ range (z.length - 1), z'.getD (k + 1) 0 • pk.aQuery.getD (k + 1) 0 ∨
      ∑ k ∈ range (z.length - 1), z.getD (k + 1) 0 • pk.bG2Query.getD (k + 1) 0 ≠
        ∑ k ∈ range (z.length - 1), z'.getD (k + 1) 0 • pk.bG2Query.getD (k + 1) 0 ∨
      ∑ k ∈ range (z.length - mats.numInstanceVariables), z.getD (mats.numInstanceVariables + k) 0 • pk.lQuery.getD k 0 ≠
        ∑ k ∈ range (z.length - mats.numInstanceVariables), z'.getD (mats.numInstanceVariables + k) 0 • pk.lQuery.getD k 0)
    {gen1 gen1' : G1} {gen2 gen2' : G2} {copies copies' : Nat} {r s r' s' : F} {t t' : ClientTape F G1 G2}
    {ins ins' : Nat → ServerInput F G1 G2}
    (hd : pp.deal dbg copies mats z pk gen1 gen2 r s t = .ok ((List.range (4 * 2 ^ b)).map ins))
    (hd' : pp.deal dbg copies' mats z' pk gen1' gen2' r' s' t' = .ok ((List.range (4 * 2 ^ b)).map ins'))
    (hr0 : (∀ p < 4 * 2 ^ b, (ins p).r ≠ 0) ∨ ∀ p < 4 * 2 ^ b, (ins p).r = 0)
    (hr0' : (∀ p < 4 * 2 ^ b, (ins' p).r ≠ 0) ∨ ∀ p < 4 * 2 ^ b, (ins' p).r = 0)
    {rng rng' : Nat → Nat → Nat → F} {outs outs' : Nat → G1 × G2 × G1} {views views' : Fin (4 * 2 ^ b) → Transcript}
    (hy : AlwaysYields (Net.init fun i : Fin (4 * 2 ^ b) => ((ins i).run pp dbg (4 * 2 ^ b) i rng).recorded) (fun i => (outs i, views i)))
    (hy' : AlwaysYields (Net.init fun i : Fin (4 * 2 ^ b) => ((ins' i).run pp dbg (4 * 2 ^ b) i rng').recorded)
      (fun i => (outs' i, views' i))) :
    ¬ (views ⟨0, by positivity⟩ = views' ⟨0, by positivity⟩ ∧ ∀ i, ins (P i) = ins' (P i)) := by
  rintro ⟨hv, hP⟩
  obtain ⟨learn, H⟩ := C76_session (G1 := G1) (G2 := G2) hpp hgen P hinj hlt
  have h := H dbg a ha mats z dom dom2 hcirc pk hk gen1 gen2 copies r s t ins hd hr0 rng outs views hy
  have h' := H dbg a ha mats z' dom dom2 hcirc' pk (hz ▸ hk) gen1' gen2' copies' r' s' t' ins' hd' hr0' rng' outs' views' hy'
  rw [← hv, ← funext hP, h, ← hz] at h'
  obtain ⟨h1, h'⟩ := Prod.ext_iff.1 h'
  obtain ⟨h2, h3⟩ := Prod.ext_iff.1 h'
  exact hne.elim (fun f => f h1) fun h => h.elim (fun f => f h2) fun f => f h3

end servers

/-! ### Examples -/

/-- The polynomial of wire 2 at 6. -/
theorem qap17_wire {pa pb pc : Nat → (ZMod 17)[X]} (h : IsQap mats17 z17.length dom17.groupGen (2 ^ (1 + 1)) pa pb pc) : (pa 2).eval 6 = 1 := by
  have e := Interpolates.unique circuit17.prim (h.a 2 (by decide)) (B := Polynomial.C 13 * (1 + X + X ^ 2 + X ^ 3)) ⟨?_, ?_⟩
  · rw [e]
    simp
    decide
  · refine lt_of_le_of_lt (b := ((3 : Nat) : WithBot Nat)) ?_ (by norm_num)
    rw [← natDegree_le_iff_degree_le]
    compute_degree
  · intro i hi
    simp only [eval_mul, eval_C, eval_add, eval_one, eval_X, eval_pow]
    have : i = 0 ∨ i = 1 ∨ i = 2 ∨ i = 3 := by
      simp at hi
      omega
    rcases this with rfl | rfl | rfl | rfl <;> decide +kernel

/-- Sessions with the roots 3 and 14 of 9 in which the king and server 3 are dealt the same and all clients receive the same. The king is
sent different bytes. -/
example (s : ZMod 17) (t : ClientTape (ZMod 17) (ZMod 17) (ZMod 17)) (ht : t.r = fun _ => 5) (rng : Nat → Nat → Nat → ZMod 17) :
    ∃ (pk : ProvingKey (ZMod 17) (ZMod 17)) (s' : ZMod 17) (t' : ClientTape (ZMod 17) (ZMod 17) (ZMod 17))
      (ins ins' : Nat → ServerInput (ZMod 17) (ZMod 17) (ZMod 17)) (outs outs' : Nat → ZMod 17 × ZMod 17 × ZMod 17)
      (views views' : Fin (4 * 2 ^ 1) → Transcript),
    pp17.deal false (2 ^ 1) mats17 z17 pk 1 1 5 s t = .ok ((List.range (4 * 2 ^ 1)).map ins) ∧
    pp17.deal false (2 ^ 1) mats17 [1, 9, 14] pk 1 1 5 s' t' = .ok ((List.range (4 * 2 ^ 1)).map ins') ∧
    AlwaysYields (Net.init fun i : Fin (4 * 2 ^ 1) => ((ins i).run pp17 false (4 * 2 ^ 1) i rng).recorded) (fun i => (outs i, views i)) ∧
    AlwaysYields (Net.init fun i : Fin (4 * 2 ^ 1) => ((ins' i).run pp17 false (4 * 2 ^ 1) i rng).recorded)
      (fun i => (outs' i, views' i)) ∧ (∀ i, ins (king17 i) = ins' (king17 i)) ∧ (∀ i, i.val ≠ 0 → views i = views' i) ∧
    views ⟨0, by decide⟩ ≠ views' ⟨0, by decide⟩ := by
  obtain ⟨pa, pb, pc, pk, h1, h2⟩ := C35_key_exists circuit17 (⟨2, 3, 4, 5, 6⟩ : Toxic (ZMod 17)) (1 : ZMod 17) (1 : ZMod 17)
  obtain ⟨δ, H⟩ := C58_session (pp17_eq true) gen17 false 1 (by norm_num) circuit17 circuit17' rfl 0 0 pk (KeyFits.of_key h2) (by simp) 1 1
    (fun g => ⟨g, by simp⟩) (fun g => ⟨g, by simp⟩) king17 king17_inj king17_lt
  obtain ⟨ins, ins', e, e', hP, hrr, H⟩ := H 5 s t rng
  have hr0 : ∀ p < 4 * 2 ^ 1, (ins p).r ≠ 0 := by
    intro p hp
    obtain ⟨-, -, -, h, -⟩ := deal_parts (e ▸ partOf_range ins hp)
    rw [ht, pack17_const 5 p hp] at h
    rw [← Option.some.inj h]
    decide
  have hr0' : ∀ p < 4 * 2 ^ 1, (ins' p).r ≠ 0 := fun p hp => by rw [← hrr rfl]; exact hr0 p hp
  obtain ⟨outs, outs', views, views', k1, k2, hv, -⟩ := H (.inl hr0) (.inl hr0')
  rw [add_zero] at e'
  refine ⟨pk, _, _, ins, ins', outs, outs', views, views', e, e', k1, k2, hP, hv, fun h0 => ?_⟩
  refine C76_tells_apart (pp17_eq true) gen17 king17 king17_inj king17_lt (by norm_num) circuit17 circuit17' rfl (KeyFits.of_key h2)
    (.inl ?_) e e' (.inl hr0) (.inl hr0') k1 k2 ⟨h0, hP⟩
  have hw : pk.aQuery.getD 2 0 = 1 := by
    rw [h2.aQuery, getD_map_range, if_pos (by decide)]
    show (pa 2).eval 6 • (1 : ZMod 17) = 1
    rw [qap17_wire h1]
    rfl
  simp only [z17, List.length_cons, List.length_nil, sum_range_succ, range_zero, sum_empty, zero_add, hw]
  simp
  decide

/-- Shares of the scalars 10 and 11 that are zero for the king and party 3. -/
theorem quad17 : HoldsChunks pp17 1 (fun p => [(9 : ZMod 17) ^ (2 * p) + 9 ^ p + 15]) [10, 11] := by
  refine ⟨fun _ _ => rfl, fun c hc => ⟨by simp, by simp [chunks], fun j => if j = 0 then 15 else if j ≤ 2 then 1 else 0, ?_, ?_⟩⟩
  · obtain rfl : c = 0 := by have : c < 1 := hc; omega
    decide +kernel
  · obtain rfl : c = 0 := by have : c < 1 := hc; omega
    decide +kernel

theorem zeros17 : HoldsChunks pp17 1 (fun _ => [0]) ([0, 0] : List (ZMod 17)) := by
  refine SharedVec.congr (pp := pp17) (SharedVec.zero (pp := pp17) 1 (2 * 2 ^ 1)) (fun _ _ => rfl) fun c hc => ?_
  obtain rfl : c = 0 := by have : c < 1 := hc; omega
  decide +kernel

/-- The bases 4 and 7 as `det_pack` shares them. -/
theorem bases17 : pp17.detPackChunks true ([4, 7] : List (ZMod 17)) = .ok [[7, 11, 13, 5, 4, 15, 4, 14]] := by decide +kernel

/-- The king and party 3 compute `10·4 + 11·7` from one run, whatever the masks. -/
example : ∃ learn : Transcript → ZMod 17, ∀ (t : MsmTape (ZMod 17) (ZMod 17)) (masks : Nat → MsmMask (ZMod 17)),
    MsmMask.sample pp17 true 1 t.vals t.rngIn t.rngOut = .ok ((List.range (4 * 2 ^ 1)).map masks) →
    ∀ (outs : Nat → ZMod 17) (views : Fin (4 * 2 ^ 1) → Transcript), AlwaysYields (Net.init fun i : Fin (4 * 2 ^ 1) =>
      (pp17.dMsm true (4 * 2 ^ 1) i [([7, 11, 13, 5, 4, 15, 4, 14] : List (ZMod 17)).getD i 0]
        [(9 : ZMod 17) ^ (2 * i.val) + 9 ^ i.val + 15] (masks i) .zero).recorded) (fun i => (outs i, views i)) →
    learn (views ⟨0, by decide⟩) = 10 * 4 + 11 * 7 := by
  obtain ⟨learn, H⟩ := C76_d_msm (G := ZMod 17) (pp17_eq true) gen17 king17 king17_inj king17_lt
  refine ⟨fun tr => ∑ k ∈ range (2 ^ 1), (learn tr fun _ => 0).1 k, fun t masks hm outs views hr => ?_⟩
  obtain ⟨-, h, -⟩ := H true [4, 7] [10, 11] rfl _ (fun p => [([7, 11, 13, 5, 4, 15, 4, 14] : List (ZMod 17)).getD p 0]) _ bases17
    (by decide +kernel) quad17 1 t masks hm .zero outs views hr
  have h0 : (fun i => msmOf 1 [([7, 11, 13, 5, 4, 15, 4, 14] : List (ZMod 17)).getD (king17 i) 0]
      [(9 : ZMod 17) ^ (2 * king17 i) + 9 ^ king17 i + 15]) = fun _ => 0 := by
    funext i
    revert i
    decide +kernel
  dsimp only
  rw [← h0]
  exact h.trans (by decide +kernel)

/-- No masks make that run look to the king like one with zero scalars, although it and party 3 hold the same shares in both. -/
example : ¬ ∃ (t t' : MsmTape (ZMod 17) (ZMod 17)) (masks masks' : Nat → MsmMask (ZMod 17)) (outs outs' : Nat → ZMod 17)
    (views views' : Fin (4 * 2 ^ 1) → Transcript),
    MsmMask.sample pp17 true 1 t.vals t.rngIn t.rngOut = .ok ((List.range (4 * 2 ^ 1)).map masks) ∧
    MsmMask.sample pp17 true 1 t'.vals t'.rngIn t'.rngOut = .ok ((List.range (4 * 2 ^ 1)).map masks') ∧
    (∀ i, masks (king17 i) = masks' (king17 i)) ∧
    AlwaysYields (Net.init fun i : Fin (4 * 2 ^ 1) => (pp17.dMsm true (4 * 2 ^ 1) i [([7, 11, 13, 5, 4, 15, 4, 14] : List (ZMod 17)).getD i 0]
      [(9 : ZMod 17) ^ (2 * i.val) + 9 ^ i.val + 15] (masks i) .zero).recorded) (fun i => (outs i, views i)) ∧
    AlwaysYields (Net.init fun i : Fin (4 * 2 ^ 1) => (pp17.dMsm true (4 * 2 ^ 1) i [([7, 11, 13, 5, 4, 15, 4, 14] : List (ZMod 17)).getD i 0]
      [0] (masks' i) .zero).recorded) (fun i => (outs' i, views' i)) ∧ views ⟨0, by decide⟩ = views' ⟨0, by decide⟩ := by
  intro h
  have := (C76_exact (pp17_eq true) gen17 king17 king17_inj king17_lt (y := [4, 7]) (x := [10, 11]) (x' := [0, 0]) rfl rfl bases17
    (bs := fun p => [([7, 11, 13, 5, 4, 15, 4, 14] : List (ZMod 17)).getD p 0]) (by decide +kernel) quad17 zeros17 (by decide +kernel) 1
    .zero).1 h
  revert this
  decide +kernel

end ZkSaas.Properties
