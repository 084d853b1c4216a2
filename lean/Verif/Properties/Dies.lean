import Verif.Lemmas.Dies
import Verif.Properties.Noticed
import Verif.Properties.Causal

/-!
# C112: a debug build never finishes a session with errors that it notices
-/

set_option linter.unusedSectionVars false

namespace ZkSaas.Properties

open Finset Polynomial Spec

/-! ### Protocols that end or die -/

section fate

variable {n : Nat} {α β γ δ : Type} {hn : 0 < n}

theorem RunsV.forget {S : Sid → Prop} {ps : Fin n → Proc α} {rs : Fin n → α} {vs : Fin n → Transcript} (h : RunsV All S ps rs vs) :
    Runs All S ps rs := by
  intro Q hQ
  obtain ⟨k, hk⟩ := h Q hQ
  obtain ⟨c, h1, h2, h3⟩ := Rec.steps' hk ⟨ps, Q⟩ (fun i => Rec.recorded _) rfl
  refine ⟨k, cast ?_ h1⟩
  congr 1
  obtain ⟨qs, R⟩ := c
  dsimp only at h2 h3
  subst h3
  congr 1
  funext i
  exact (h2 i).of_done_ok

/-- If `H`, the programs can run to completion with results that satisfy `R`; otherwise the king fails and everybody waits for it. -/
def Fate (hn : 0 < n) (H : Prop) (S : Sid → Prop) (ps : Fin n → Proc α) (R : (Nat → α) → Prop) : Prop :=
  (H → ∃ outs : Nat → α, Runs All S ps (fun i => outs i) ∧ R outs) ∧ (¬ H → ∃ sid, S sid ∧ Dies hn sid S ps)

theorem Fate.congr {H : Prop} {S : Sid → Prop} {ps ps' : Fin n → Proc α} {R : (Nat → α) → Prop} (h : Fate hn H S ps R) (hp : ∀ i, ps' i = ps i) :
    Fate hn H S ps' R := by
  obtain rfl : ps' = ps := funext hp
  exact h

theorem Fate.mono {H : Prop} {S S' : Sid → Prop} {ps : Fin n → Proc α} {R : (Nat → α) → Prop} (h : Fate hn H S ps R) (hS : ∀ x, S x → S' x) :
    Fate hn H S' ps R := by
  refine ⟨fun hH => ?_, fun hH => ?_⟩
  · obtain ⟨o, r, q⟩ := h.1 hH
    exact ⟨o, r.mono hS, q⟩
  · obtain ⟨sid, hs, d⟩ := h.2 hH
    exact ⟨sid, hS _ hs, d.mono hS⟩

theorem Fate.iff {H H' : Prop} {S : Sid → Prop} {ps : Fin n → Proc α} {R : (Nat → α) → Prop} (h : Fate hn H S ps R) (e : H' ↔ H) :
    Fate hn H' S ps R := by
  rwa [propext e]

theorem Fate.imp {H : Prop} {S : Sid → Prop} {ps : Fin n → Proc α} {R R' : (Nat → α) → Prop} (h : Fate hn H S ps R) (hR : ∀ o, R o → R' o) :
    Fate hn H S ps R' := by
  refine ⟨fun hH => ?_, h.2⟩
  obtain ⟨o, r, q⟩ := h.1 hH
  exact ⟨o, r, hR _ q⟩

theorem Fate.done {S : Sid → Prop} (o : Nat → α) {R : (Nat → α) → Prop} (hR : R o) : Fate hn True S (fun i => .done (.ok (o i))) R :=
  ⟨fun _ => ⟨o, Runs.done _, hR⟩, fun h => absurd trivial h⟩

theorem Fate.bind {H H' : Prop} {S S1 : Sid → Prop} {ps : Fin n → Proc α} {R : (Nat → α) → Prop} (h : Fate hn H S1 ps R) (h1 : ∀ x, S1 x → S x)
    {f : Fin n → α → Proc β} {Q : (Nat → β) → Prop} (hf : ∀ o, R o → Fate hn H' S (fun i => f i (o i)) Q) :
    Fate hn (H ∧ H') S (fun i => (ps i).bind (f i)) Q := by
  replace h := h.mono h1
  refine ⟨fun ⟨hH, hH'⟩ => ?_, fun hn' => ?_⟩
  · obtain ⟨o, r, q⟩ := h.1 hH
    obtain ⟨u, r', q'⟩ := (hf o q).1 hH'
    exact ⟨u, r.bind r', q'⟩
  · by_cases hH : H
    · obtain ⟨o, r, q⟩ := h.1 hH
      obtain ⟨sid, hs, d⟩ := (hf o q).2 fun h => hn' ⟨hH, h⟩
      exact ⟨sid, hs, r.dies d⟩
    · obtain ⟨sid, hs, d⟩ := h.2 hH
      exact ⟨sid, hs, d.bind f⟩

theorem Fate.par {H1 H2 H3 : Prop} {S S1 S2 : Sid → Prop} {ps : Fin n → Proc α} {R : (Nat → α) → Prop} (h : Fate hn H1 S1 ps R)
    {qs : Fin n → Proc β} {Q : (Nat → β) → Prop} (g : Fate hn H2 S2 qs Q) (wp : ∀ i, (ps i).WF S1) (wq : ∀ i, (qs i).WF S2)
    (hdis : ∀ x, S1 x → S2 x → False) (h1 : ∀ x, S1 x → S x) (h2 : ∀ x, S2 x → S x) {k : Fin n → α → β → Proc γ} {U : (Nat → γ) → Prop}
    (hk : ∀ o u, R o → Q u → Fate hn H3 S (fun i => k i (o i) (u i)) U) :
    Fate hn (H1 ∧ H2 ∧ H3) S (fun i => .par (ps i) (qs i) (k i)) U := by
  refine ⟨fun ⟨hH, hH', hH''⟩ => ?_, fun hn' => ?_⟩
  · obtain ⟨o, r, q⟩ := h.1 hH
    obtain ⟨u, r', q'⟩ := g.1 hH'
    obtain ⟨x, r'', q''⟩ := (hk o u q q').1 hH''
    exact ⟨x, r.par r' h1 h2 r'', q''⟩
  · by_cases hH : H1
    · by_cases hH' : H2
      · obtain ⟨o, r, q⟩ := h.1 hH
        obtain ⟨u, r', q'⟩ := g.1 hH'
        obtain ⟨sid, hs, d⟩ := (hk o u q q').2 fun h => hn' ⟨hH, hH', h⟩
        refine ⟨sid, hs, fun Q hQ => ?_⟩
        obtain ⟨t, e, hd⟩ := d Q hQ
        have r1 := (r Q fun i j s hs => hQ i j s (h1 s hs)).lift (fun i p => Proc.par p (qs i) (k i))
          fun i p a p' h => .parL _ _ _ _ _ h
        have r2 := (r' Q fun i j s hs => hQ i j s (h2 s hs)).lift (fun i q => Proc.par (.done (.ok (o i))) q (k i))
          fun i p a p' h => .parR _ _ _ _ _ h
        refine ⟨t, (r1.trans r2).trans (Reach.trans ?_ e), hd⟩
        have := reach_join_aux (P := All) k (fun i => o i) (fun i => u i) Q n le_rfl
        simpa using this
      · obtain ⟨sid, hs, d⟩ := g.2 hH'
        exact ⟨sid, h2 _ hs, ((d.mono h2).parR wp (fun h => hdis _ h hs) k)⟩
    · obtain ⟨sid, hs, d⟩ := h.2 hH
      exact ⟨sid, h1 _ hs, ((d.mono h1).parL wq (fun h => hdis _ hs h) k)⟩

theorem Fate.tryJoin3 {H1 H2 H3 H4 : Prop} {s0 s1 s2 : Sid} (h01 : s0 ≠ s1) (h02 : s0 ≠ s2) (h12 : s1 ≠ s2) {ps : Fin n → Proc α}
    {R : (Nat → α) → Prop} (h : Fate hn H1 (only s0) ps R) {qs : Fin n → Proc β} {Q : (Nat → β) → Prop} (g : Fate hn H2 (only s1) qs Q)
    {us : Fin n → Proc γ} {U : (Nat → γ) → Prop} (w : Fate hn H3 (only s2) us U) (wp : ∀ i, (ps i).WF (only s0)) (wq : ∀ i, (qs i).WF (only s1))
    (wu : ∀ i, (us i).WF (only s2)) {k : Fin n → α → β → γ → Proc δ} {V : (Nat → δ) → Prop}
    (hk : ∀ o u y, R o → Q u → U y → Fate hn H4 (fun _ => True) (fun i => k i (o i) (u i) (y i)) V) :
    Fate hn ((H1 ∧ H2 ∧ True) ∧ H3 ∧ H4) (fun _ => True) (fun i => ZkSaas.tryJoin3 (ps i) (qs i) (us i) (k i)) V := by
  have two : Fate hn (H1 ∧ H2 ∧ True) (fun x => x = s0 ∨ x = s1) (fun i => Proc.par (ps i) (qs i) fun x y => .done (.ok (x, y)))
      (fun o => R (fun i => (o i).1) ∧ Q (fun i => (o i).2)) :=
    Fate.par h g wp wq (fun x e e' => h01 (e.symm.trans e')) (fun _ h => .inl h) (fun _ h => .inr h)
      fun o u ho hu => Fate.done (fun i => (o i, u i)) ⟨ho, hu⟩
  refine Fate.par two w (fun i => ?_) wu ?_ (fun _ _ => trivial) (fun _ _ => trivial) fun o y ho hy => hk _ _ _ ho.1 ho.2 hy
  · exact .par (fun x e e' => h01 (e.symm.trans e')) (fun _ h => .inl h) (fun _ h => .inr h) (wp i) (wq i) fun _ _ => .done _ _
  · rintro x (rfl | rfl) e
    · exact h02 e
    · exact h12 e

end fate

/-- The two outcomes exclude each other. -/
theorem NobodyFinishes.not_yields {n : Nat} {α : Type} (hn : 0 < n) {c : Net n α} (h : NobodyFinishes c) {rs : Fin n → α} (hy : AlwaysYields c rs) :
    False := by
  obtain ⟨k, c', hk, ht⟩ := exists_final hy.1
  exact h k c' hk ⟨0, hn⟩ _ (hy.2 k c' hk ht ⟨0, hn⟩)

/-! ### The rounds of a session -/

variable {F : Type} [Field F] [FftField F] [DecidableEq F] [FixedWire F]

theorem fft2_dies {dbg₀ : Bool} {a b : Nat} {pp : PSS F} (hpp : PSS.new dbg₀ (2 ^ b) = .ok pp)
    (hgen : (FftField.GENERATOR : F) ^ (4 * 2 ^ b) ≠ 1) (ha : a < 64) {d : Nat} (hd2 : 2 * pp.l ≤ d) (hd4 : d ≤ 4 * pp.l - 1)
    {px sec m secm : Nat → List F} (hpx : pp.SharedVec d (2 ^ a) px sec) (hm : pp.SharedVec (2 * pp.l) (2 ^ a) m secm)
    (out : Nat → List F) {e : Nat → Nat → F} (he : Notices pp.share.groupGen (4 * 2 ^ b) (2 ^ a) e) (rearrange : Bool) (g gen : F) (sid : Sid)
    (rng : Nat → Nat → F) :
    Dies (four_pos b) sid (only sid) (fun i : Fin (4 * 2 ^ b) =>
      pp.fft2WithRearrange true (4 * 2 ^ b) i (px i) ⟨addErr (m i) (e i), out i⟩ rearrange g gen sid rng) := by
  have hle := l_eq hpp
  have hl := (PSS.good_of_new hpp).lpos
  have hn : 4 * 2 ^ b = 4 * pp.l := by rw [hle]
  have hsum := SharedVec.add hpx (SharedVec.mono hd2 hm)
  have hmsg : ∀ p < 4 * pp.l, addMask (px p) (addErr (m p) (e p)) = addErr (addMask (px p) (m p)) (e p) := fun p hp =>
    addMask_addErr (by rw [hpx.1 p hp, hm.1 p hp]) _
  have hlen : ∀ p < 4 * pp.l, (addMask (px p) (addErr (m p) (e p))).length = 2 ^ a := fun p hp => by
    rw [hmsg p hp, addErr_length]; exact hsum.1 p hp
  refine round_dies (four_pos b) sid pp.t (fun i => addMask (px i) (addErr (m i) (e i)))
    (fun i hi => Wire.ok_list _ (by rw [hlen i (by omega)]; exact Nat.pow_lt_pow_right (by omega) ha))
    (fun i rs => pp.fft2King true (addMask (px i) (addErr (m i) (e i))).length (px i).length g gen rearrange rs.shares rs.parties rng) .panic ?_
    (fun i y => Proc.done (.ok (addMask y (out i))))
  dsimp only
  rw [hlen 0 (by omega), hpx.1 0 (by omega), hn, List.map_congr_left fun p hp => hmsg p (List.mem_range.1 hp)]
  exact fft2King_notices hpp hgen (by positivity) hd4 hsum he g gen rearrange rng

theorem dFft_fate {dbg₀ : Bool} {a b : Nat} {pp : PSS F} (hpp : PSS.new dbg₀ (2 ^ b) = .ok pp)
    (hgen : (FftField.GENERATOR : F) ^ (4 * 2 ^ b) ≠ 1) (ha : a < 64) {dom : Domain F} (hsize : dom.size = 2 ^ (a + b))
    (hprim : IsPrimitiveRoot dom.groupGen (2 ^ (a + b))) (e : Nat → Nat → F) (rearrange : Bool) (t : VecTape F) (sid : Sid)
    (rng : Nat → Nat → F) {sh : Nat → List F} (hsh : ∃ x, pp.SharedVec (2 * pp.l) (2 ^ a) sh (packed true a b x)) :
    Fate (four_pos b) (¬ Notices pp.share.groupGen (4 * 2 ^ b) (2 ^ a) e) (only sid)
      (fun i : Fin (4 * 2 ^ b) => pp.dFft true (4 * 2 ^ b) i (sh i) (spoilFft (pp.fftDealt a b rearrange 1 dom.groupGen t i) (e i)) rearrange dom sid rng)
      (fun o => ∃ y, pp.SharedVec (2 * pp.l) (2 ^ a) o (packed rearrange a b y)) := by
  have hle := l_eq hpp
  have hl := (PSS.good_of_new hpp).lpos
  refine ⟨fun he => ?_, fun he => ⟨sid, rfl, ?_⟩⟩
  · obtain ⟨o, vs, r, -, h⟩ := dFft_single hpp hgen true ha hsize hprim (e := fun p c => if c < 2 ^ a then e p c else 0) (fun _ => cut_sum he) rearrange t
      sid rng hsh
    exact ⟨o, RunsV.forget (r.congr (fun i => by rw [← spoilFft_cut hpp _ _ _ _ _ i.2]; rfl) (fun _ => rfl) fun _ => rfl), h⟩
  · obtain ⟨x, hin⟩ := hsh
    obtain ⟨px, e1, hpx⟩ := PSS.fft1_shared hle hprim _ hin
    refine (fft2_dies hpp hgen ha le_rfl (by omega) hpx (fftDealt_in hpp rearrange 1 dom.groupGen t)
      (fun i => (pp.fftDealt a b rearrange 1 dom.groupGen t i).outMask) (not_not.1 he) rearrange 1 dom.groupGen sid rng).congr fun i => ?_
    have hi : i.val < 4 * pp.l := by have := i.2; omega
    unfold PSS.dFft
    rw [debugAssert_of (by rw [hin.1 i hi, hle, hsize, pow_add]; simp), e1 i hi]
    rfl

theorem dIfft_fate {dbg₀ : Bool} {a b : Nat} {pp : PSS F} (hpp : PSS.new dbg₀ (2 ^ b) = .ok pp)
    (hgen : (FftField.GENERATOR : F) ^ (4 * 2 ^ b) ≠ 1) (ha : a < 64) {dom : Domain F} (hsize : dom.size = 2 ^ (a + b))
    (hprim : IsPrimitiveRoot dom.groupGenInv (2 ^ (a + b))) (e : Nat → Nat → F) (g : F) (rearrange : Bool) (t : VecTape F) (sid : Sid)
    (rng : Nat → Nat → F) {sh : Nat → List F} (hsh : ∃ x, pp.SharedVec (2 * pp.l) (2 ^ a) sh (packed true a b x)) :
    Fate (four_pos b) (¬ Notices pp.share.groupGen (4 * 2 ^ b) (2 ^ a) e) (only sid)
      (fun i : Fin (4 * 2 ^ b) => pp.dIfft true (4 * 2 ^ b) i (sh i) (spoilFft (pp.fftDealt a b rearrange g dom.groupGenInv t i) (e i)) rearrange dom g sid
        rng)
      (fun o => ∃ y, pp.SharedVec (2 * pp.l) (2 ^ a) o (packed rearrange a b y)) := by
  have hle := l_eq hpp
  have hl := (PSS.good_of_new hpp).lpos
  refine ⟨fun he => ?_, fun he => ⟨sid, rfl, ?_⟩⟩
  · obtain ⟨o, vs, r, -, h⟩ := dIfft_single hpp hgen true ha hsize hprim (e := fun p c => if c < 2 ^ a then e p c else 0) (fun _ => cut_sum he) g rearrange
      t sid rng hsh
    exact ⟨o, RunsV.forget (r.congr (fun i => by rw [← spoilFft_cut hpp _ _ _ _ _ i.2]; rfl) (fun _ => rfl) fun _ => rfl), h⟩
  · obtain ⟨x, hin⟩ := hsh
    have hsc : pp.SharedVec (2 * pp.l) (2 ^ a) (fun p => (sh p).map fun z => z * dom.sizeInv) (packed true a b fun i => x i * dom.sizeInv) :=
      SharedVec.congr (SharedVec.scale hin dom.sizeInv) (fun _ _ => rfl) fun c hc => packed_smul _ _ _ _ _ _
    obtain ⟨px, e1, hpx⟩ := PSS.fft1_shared hle hprim _ hsc
    refine (fft2_dies hpp hgen ha le_rfl (by omega) hpx (fftDealt_in hpp rearrange g dom.groupGenInv t)
      (fun i => (pp.fftDealt a b rearrange g dom.groupGenInv t i).outMask) (not_not.1 he) rearrange g dom.groupGenInv sid rng).congr fun i => ?_
    have hi : i.val < 4 * pp.l := by have := i.2; omega
    have e := e1 i hi
    unfold PSS.dIfft
    rw [debugAssert_of (by rw [hin.1 i hi, hle, hsize, pow_add]; simp)]
    dsimp only
    rw [e]
    rfl

theorem degRed_fate {dbg₀ : Bool} {b : Nat} {pp : PSS F} (hpp : PSS.new dbg₀ (2 ^ b) = .ok pp)
    (hgen : (FftField.GENERATOR : F) ^ (4 * 2 ^ b) ≠ 1) {N d : Nat} (hN : 0 < N) (hN64 : N < 2 ^ 64) (hd2 : 2 * pp.l ≤ d) (hd4 : d ≤ 4 * pp.l - 1)
    (e : Nat → Nat → F) {sh sec : Nat → List F} (hsh : pp.SharedVec d N sh sec) (t : VecTape F) (sid : Sid) (rng : Nat → Nat → F) :
    Fate (four_pos b) (¬ Notices pp.share.groupGen (4 * 2 ^ b) N e) (only sid)
      (fun i : Fin (4 * 2 ^ b) => pp.degRed true (4 * 2 ^ b) i (sh i) (spoilDeg (pp.degDealt N t i) (e i)) sid rng)
      (fun o => pp.SharedVec (2 * pp.l) N o fun c => List.zipWith (· + ·) (sec c) (errSec pp b fun p => if c < N then e p c else 0)) := by
  have hg := PSS.good_of_new hpp
  have hle := l_eq hpp
  have hl := hg.lpos
  have hn : 4 * 2 ^ b = 4 * pp.l := by rw [hle]
  have hin : pp.SharedVec (2 * pp.l) N (fun p => (pp.degDealt N t p).inMask) (chunks pp.l t.vals) :=
    PSS.freshVec_shared hg (fun c _ => chunks_length _ _ _) _
  have hout : pp.SharedVec (2 * pp.l) N (fun p => (pp.degDealt N t p).outMask) (chunks pp.l fun i => -t.vals i) :=
    PSS.freshVec_shared hg (fun c _ => chunks_length _ _ _) _
  refine ⟨fun he => ?_, fun he => ⟨sid, rfl, ?_⟩⟩
  · obtain ⟨v0, r, h⟩ := degRed_view_err hpp hgen true hN hN64 hd2 hd4 hsh (e := fun p c => if c < N then e p c else 0) (fun _ => cut_sum he) t sid rng
    refine ⟨fun i => addMask _ (pp.degDealt N t i).outMask, RunsV.forget (r.congr (fun i => ?_) (fun _ => rfl) fun _ => rfl), h⟩
    rw [spoilDeg, spoilDeg, addErr_cut (N := N) _ (hin.1 i (by have := i.2; omega)) (e i)]
  · have hsum := SharedVec.add hsh (SharedVec.mono hd2 hin)
    have hmsg : ∀ p < 4 * pp.l, addMask (sh p) (addErr (pp.degDealt N t p).inMask (e p)) = addErr (addMask (sh p) (pp.degDealt N t p).inMask) (e p) :=
      fun p hp => addMask_addErr (by rw [hsh.1 p hp, hin.1 p hp]) _
    have h := round_dies (four_pos b) sid pp.t (fun i => addMask (sh i) (addErr (pp.degDealt N t i).inMask (e i)))
      (fun i hi => Wire.ok_list _ (by rw [hmsg i (by omega), addErr_length]; exact (hsum.1 i (by omega)).symm ▸ hN64))
      (fun _ rs => pp.degRedKing true rs.shares rs.parties rng) .panic
      (by
        rw [hn, List.map_congr_left fun p hp => hmsg p (List.mem_range.1 hp)]
        exact degRedKing_notices hpp hgen hN hd4 hsum (not_not.1 he) rng)
      (fun i y => .done (.ok (addMask y (pp.degDealt N t i).outMask)))
    refine h.congr fun i => ?_
    have hi : i.val < 4 * pp.l := by have := i.2; omega
    have hil : (addErr (pp.degDealt N t i).inMask (e i)).length = N := by rw [addErr_length]; exact hin.1 i hi
    unfold PSS.degRed
    simp only [spoilDeg]
    rw [debugAssert_of (by rw [hsh.1 i hi, hil]; simp), debugAssert_of (by rw [hsh.1 i hi]; simp [hout.1 i hi])]
    rfl

theorem dMsm_fate {G : Type} [AddCommGroup G] [Module F G] [DecidableEq G] [FixedWire G] {dbg₀ : Bool} {b : Nat} {pp : PSS F}
    (hpp : PSS.new dbg₀ (2 ^ b) = .ok pp) (hgen : (FftField.GENERATOR : F) ^ (4 * 2 ^ b) ≠ 1) (gen : G) {y : List G} {x : List F}
    (hlen : x.length = y.length) (e : Nat → G) (t : MsmTape F G) (sid : Sid) {bs : Nat → List G} {ss : Nat → List F} (hb : HoldsChunks pp b bs y)
    (hs : HoldsChunks pp b ss x) :
    Fate (four_pos b) (∑ p ∈ range (4 * 2 ^ b), pp.share.groupGen ^ p • e p = 0) (only sid)
      (fun i : Fin (4 * 2 ^ b) => pp.dMsm true (4 * 2 ^ b) i (bs i) (ss i) (spoiled (e i) (pp.msmDealt gen t i)) sid) (fun _ => True) := by
  refine ⟨fun he => ?_, fun he => ⟨sid, rfl, ?_⟩⟩
  · obtain ⟨o, vs, r, -, -⟩ := dMsm_single hpp hgen true gen hlen (fun _ => he) t sid hb hs
    exact ⟨o, RunsV.forget r, trivial⟩
  · have hg := PSS.good_of_new hpp
    have hle := l_eq hpp
    have hl := hg.lpos
    have hn : 4 * 2 ^ b = 4 * pp.l := by rw [hle]
    rw [HoldsChunks, ← hle] at hb hs
    rw [hlen] at hs
    obtain ⟨c, e1, hc⟩ := msm_shared hb hs
    have hin : pp.Shares (2 * pp.l) ((List.range (4 * pp.l)).map fun p => (pp.msmDealt gen t p).inMask)
        ((List.range pp.l).map fun i => t.vals i • gen) := PSS.fresh_one hg (by simp) _
    have hsum := Shares.add hc (Shares.mono (by omega) hin)
    rw [List.zipWith_map_left, List.zipWith_map_right, List.zipWith_self] at hsum
    have hK := unpack_err_panics hpp hgen (by omega) hsum he
    have h := round_dies (four_pos b) sid pp.t (fun i => c i + ((pp.msmDealt gen t i).inMask + e i)) (fun i hi => Wire.ok_fixed _)
      (fun _ rs => pp.msmKing true (4 * 2 ^ b) rs.shares rs.parties) .panic
      (by
        simp only [← add_assoc]
        rw [hn, PSS.msmKing, hK]
        rfl)
      (fun i y => .done (.ok (y + (pp.msmDealt gen t i).outMask)))
    refine h.congr fun i => ?_
    have hi : i.val < 4 * pp.l := by have := i.2; omega
    unfold PSS.dMsm
    rw [debugAssert_of (by rw [hb.1 i hi, hs.1 i hi]; simp), e1 i hi]
    rfl

theorem circomH_fate {dbg₀ : Bool} {b : Nat} {pp : PSS F} (hpp : PSS.new dbg₀ (2 ^ b) = .ok pp)
    (hgen : (FftField.GENERATOR : F) ^ (4 * 2 ^ b) ≠ 1) (a : Nat)
    (ha : a < 64) {dom dom2 : Domain F} (hdom : Domain.new (2 ^ (a + b)) = some dom)
    (hdom2 : Domain.new (2 ^ (a + b + 1)) = some dom2) {xa xb xc : Nat → F} (e : Nat → Nat → Nat → F) (f : Nat → Nat → F)
    (tf : Nat → VecTape F) (td : VecTape F) (rng : Nat → Nat → Nat → F) {q : Nat → PackedQAPShare F}
    {masks : Nat → Nat → FftMask F} (hq : SharesProgram pp a b dom q xa xb xc) (hm : CircomSpoiled pp a b dom2.groupGen dom e tf masks) :
    Fate (four_pos b) ((∀ k < 6, ¬ Notices pp.share.groupGen (4 * 2 ^ b) (2 ^ a) fun p => e p k) ∧ ¬ Notices pp.share.groupGen (4 * 2 ^ b) (2 ^ a) f)
      (fun _ => True)
      (fun i : Fin (4 * 2 ^ b) => pp.circomH true (4 * 2 ^ b) i (q i) (masks i) (spoilDeg (pp.degDealt (2 ^ a) td i) (f i)) rng)
      (fun o => ∃ y : List F, y.length = 2 ^ (a + b) ∧ HoldsChunks pp b o y) := by
  have hle := l_eq hpp
  have hg := PSS.good_of_new hpp
  have hl := hg.lpos
  obtain ⟨hwf, hoff, -, hsize⟩ := Domain.new_pow2 hdom
  obtain ⟨-, hoff2, -, hsize2⟩ := Domain.new_pow2 hdom2
  have hprim : IsPrimitiveRoot dom.groupGen (2 ^ (a + b)) := by rw [← hsize]; exact hwf.prim
  have hprim' : IsPrimitiveRoot dom.groupGenInv (2 ^ (a + b)) := by rw [hwf.ginv]; exact hprim.inv
  obtain ⟨hq, hqa, hqb, hqc⟩ := hq
  obtain ⟨hm1, hm2⟩ := hm
  have hb0 : 0 < 2 ^ b := by positivity
  have herr : ∀ (f : Nat → Nat → F) c, (errSec pp b fun p => f p c) = packed false a b (errVec pp b f) c := by
    intro f c
    apply list_ext_getD 0 (by simp [errSec, packed])
    intro j hj
    have hj : j < 2 ^ b := by simpa [errSec] using hj
    rw [packed, getD_map_range, if_pos hj, slot, if_neg (by simp), errVec, show (c * 2 ^ b + j) / 2 ^ b = c by
      rw [Nat.mul_comm, Nat.mul_add_div hb0, Nat.div_eq_of_lt hj, Nat.add_zero], show (c * 2 ^ b + j) % 2 ^ b = j by
      rw [Nat.mul_comm, Nat.mul_add_mod, Nat.mod_eq_of_lt hj]]
  have unfolded : ∀ i : Fin (4 * 2 ^ b), pp.circomH true (4 * 2 ^ b) i (q i) (masks i) (spoilDeg (pp.degDealt (2 ^ a) td i) (f i)) rng =
    tryJoin3 (pp.dIfft true (4 * 2 ^ b) i (q i).a (masks i 0) true dom dom2.groupGen .zero (rng 0))
      (pp.dIfft true (4 * 2 ^ b) i (q i).b (masks i 1) true dom dom2.groupGen .one (rng 1))
      (pp.dIfft true (4 * 2 ^ b) i (q i).c (masks i 2) true dom dom2.groupGen .two (rng 2)) fun aCoeff bCoeff cCoeff =>
    tryJoin3 (pp.dFft true (4 * 2 ^ b) i aCoeff (masks i 3) false dom .zero (rng 3))
      (pp.dFft true (4 * 2 ^ b) i bCoeff (masks i 4) false dom .one (rng 4))
      (pp.dFft true (4 * 2 ^ b) i cCoeff (masks i 5) false dom .two (rng 5)) fun aEval bEval cEval =>
    pp.degRed true (4 * 2 ^ b) i (List.zipWith (fun ab c => ab.1 * ab.2 - c) (List.zip aEval bEval) cEval)
      (spoilDeg (pp.degDealt (2 ^ a) td i) (f i)) .zero (rng 6) := by
    intro i
    have hroot : dom2.element 1 = dom2.groupGen := by rw [Domain.element, hoff2, one_mul, pow_one]
    rw [PSS.circomH, hq i i.2, hsize, ← pow_succ', hdom2, ← hroot]
    rfl
  have deg : ∀ {sh : Nat → List F}, (∃ y, pp.SharedVec (4 * pp.l - 1) (2 ^ a) sh (packed false a b y)) →
      Fate (four_pos b) (¬ Notices pp.share.groupGen (4 * 2 ^ b) (2 ^ a) f) (fun _ => True)
        (fun i : Fin (4 * 2 ^ b) => pp.degRed true (4 * 2 ^ b) i (sh i) (spoilDeg (pp.degDealt (2 ^ a) td i) (f i)) .zero (rng 6))
        (fun o => ∃ y : List F, y.length = 2 ^ (a + b) ∧ HoldsChunks pp b o y) := by
    rintro sh ⟨y, hy⟩
    refine ((degRed_fate hpp hgen (N := 2 ^ a) (by positivity) (Nat.pow_lt_pow_right (by omega) ha) (by omega) le_rfl f hy td .zero
      (rng 6)).mono fun _ _ => trivial).imp fun o h =>
        ⟨(List.range (2 ^ (a + b))).map fun i => y i + errVec pp b (fun p c => if c < 2 ^ a then f p c else 0) i, by simp, ?_⟩
    refine HoldsOutput.chunks (a := a) ⟨by simp, ?_⟩
    rw [← hle]
    refine SharedVec.congr h (fun _ _ => rfl) fun c hc => ?_
    rw [herr (fun p c => if c < 2 ^ a then f p c else 0), packed_zipWith]
    refine packed_congr _ hc fun i hi => ?_
    rw [getD_map_range, if_pos hi]
  refine Fate.congr ?_ unfolded
  have k0 := fun i => hm1 i 0 (by omega)
  have k1 := fun i => hm1 i 1 (by omega)
  have k2 := fun i => hm1 i 2 (by omega)
  have k3 := fun i => hm2 i 0 (by omega)
  have k4 := fun i => hm2 i 1 (by omega)
  have k5 := fun i => hm2 i 2 (by omega)
  simp only [Nat.add_zero, Nat.reduceAdd] at k3 k4 k5
  simp only [k0, k1, k2, k3, k4, k5]
  have wi := fun (i : Fin (4 * 2 ^ b)) px m sid rng => PSS.dIfft_wf (pp := pp) true (four_pos b) i px m true dom dom2.groupGen sid rng
  have wf := fun (i : Fin (4 * 2 ^ b)) px m sid rng => PSS.dFft_wf (pp := pp) true (four_pos b) i px m false dom sid rng
  refine (Fate.tryJoin3 (by decide) (by decide) (by decide)
    (dIfft_fate hpp hgen ha hsize hprim' (fun p => e p 0) dom2.groupGen true (tf 0) .zero (rng 0) ⟨_, hqa⟩)
    (dIfft_fate hpp hgen ha hsize hprim' (fun p => e p 1) dom2.groupGen true (tf 1) .one (rng 1) ⟨_, hqb⟩)
    (dIfft_fate hpp hgen ha hsize hprim' (fun p => e p 2) dom2.groupGen true (tf 2) .two (rng 2) ⟨_, hqc⟩)
    (fun i => wi i _ _ _ _) (fun i => wi i _ _ _ _) (fun i => wi i _ _ _ _) fun oa ob oc ra rb rc =>
    Fate.tryJoin3 (by decide) (by decide) (by decide)
    (dFft_fate hpp hgen ha hsize hprim (fun p => e p 3) false (tf 3) .zero (rng 3) ra)
    (dFft_fate hpp hgen ha hsize hprim (fun p => e p 4) false (tf 4) .one (rng 4) rb)
    (dFft_fate hpp hgen ha hsize hprim (fun p => e p 5) false (tf 5) .two (rng 5) rc)
    (fun i => wf i _ _ _ _) (fun i => wf i _ _ _ _) (fun i => wf i _ _ _ _) fun pa pb pc ⟨ya, sa⟩ ⟨yb, sb⟩ ⟨yc, sc⟩ =>
    deg ⟨_, SharedVec.mulSub hg hle false rfl sa sb sc⟩).iff ⟨fun ⟨h, h'⟩ => ?_, fun h => ⟨fun k hk => ?_, ?_⟩⟩
  · exact ⟨⟨h 0 (by omega), h 1 (by omega), trivial⟩, h 2 (by omega), ⟨h 3 (by omega), h 4 (by omega), trivial⟩, h 5 (by omega), h'⟩
  · obtain ⟨⟨h0, h1, -⟩, h2, ⟨h3, h4, -⟩, h5, h6⟩ := h
    interval_cases k
    exacts [h0, h1, h2, h3, h4, h5]
  · exact h.2.2.2.2

section groups

variable {G : Type} [AddCommGroup G] [Module F G] [DecidableEq G] [FixedWire G]

theorem proveA_fate {dbg₀ : Bool} {b : Nat} {pp : PSS F} (hpp : PSS.new dbg₀ (2 ^ b) = .ok pp)
    (hgen : (FftField.GENERATOR : F) ^ (4 * 2 ^ b) ≠ 1) (gen : G) {Q : List G} {z : List F} (hlen : z.length = Q.length) (e : Nat → G)
    (t : MsmTape F G) (sid : Sid) (L N AG : G) {Ssh : Nat → List G}
    {zsh : Nat → List F} (rsh : Nat → F) (hS : HoldsChunks pp b Ssh Q) (hz : HoldsChunks pp b zsh z) :
    Fate (four_pos b) (∑ p ∈ range (4 * 2 ^ b), pp.share.groupGen ^ p • e p = 0) (only sid)
      (fun i : Fin (4 * 2 ^ b) => pp.proveA true (4 * 2 ^ b) i L N AG (Ssh i) (zsh i) (rsh i) (spoiled (e i) (pp.msmDealt gen t i)) sid)
      (fun _ => True) :=
  (Fate.bind (dMsm_fate hpp hgen gen hlen e t sid hS hz) (fun _ h => h) fun o _ =>
    Fate.done (fun p => (L + rsh p • N) + o p + AG) trivial).iff (by simp)

theorem proveC_fate {dbg₀ : Bool} {b : Nat} {pp : PSS F} (hpp : PSS.new dbg₀ (2 ^ b) = .ok pp)
    (hgen : (FftField.GENERATOR : F) ^ (4 * 2 ^ b) ≠ 1) (gen : G) {W U : List G} {ax h : List F} (hW : ax.length = W.length)
    (hU : h.length = U.length) (e f : Nat → G) (t u : MsmTape F G) (M : G) {Wsh Ush : Nat → List G} {axsh hsh : Nat → List F} (rsh ssh : Nat → F)
    (Ash Bsh : Nat → G) (w : HoldsChunks pp b Wsh W) (u' : HoldsChunks pp b Ush U) (x : HoldsChunks pp b axsh ax) (y : HoldsChunks pp b hsh h) :
    Fate (four_pos b) (∑ p ∈ range (4 * 2 ^ b), pp.share.groupGen ^ p • e p = 0 ∧ ∑ p ∈ range (4 * 2 ^ b), pp.share.groupGen ^ p • f p = 0)
      (fun _ => True)
      (fun i : Fin (4 * 2 ^ b) => pp.proveC true (4 * 2 ^ b) i (Ash i) (Bsh i) (ssh i) (rsh i) M (Wsh i) (Ush i) (axsh i) (hsh i)
        (spoiled (e i) (pp.msmDealt gen t i)) (spoiled (f i) (pp.msmDealt gen u i))) (fun _ => True) :=
  (Fate.par (dMsm_fate hpp hgen gen hW e t .zero w x) (dMsm_fate hpp hgen gen hU f u .one u' y)
    (fun i => PSS.dMsm_wf _ (four_pos b) _ _ _ _ _) (fun i => PSS.dMsm_wf _ (four_pos b) _ _ _ _ _) (fun _ e e' => by cases e.symm.trans e')
    (fun _ _ => trivial) (fun _ _ => trivial) fun o v _ _ =>
    Fate.done (fun p => ssh p • Ash p + rsh p • Bsh p - (rsh p * ssh p) • M + o p + v p) trivial).iff (by simp)

end groups

section servers

variable {G1 G2 : Type} [AddCommGroup G1] [Module F G1] [DecidableEq G1] [FixedWire G1]
  [AddCommGroup G2] [Module F G2] [DecidableEq G2] [FixedWire G2]

theorem not_noticedIn {ω : F} {n N : Nat} {E : Nat → Errors F G1 G2} :
    ¬ NoticedIn ω n N E ↔ ((∀ k < 6, ¬ Notices ω n N fun p => (E p).fft k) ∧ ¬ Notices ω n N fun p => (E p).degred) ∧
      ∑ p ∈ range n, ω ^ p • (E p).msm1 0 = 0 ∧ ∑ p ∈ range n, ω ^ p • (E p).msm1 1 = 0 ∧ ∑ p ∈ range n, ω ^ p • (E p).msm2 = 0 ∧
      (∑ p ∈ range n, ω ^ p • (E p).msm1 2 = 0 ∧ ∑ p ∈ range n, ω ^ p • (E p).msm1 3 = 0) ∧ True := by
  unfold NoticedIn
  constructor
  · intro h
    simp only [not_or, not_exists, not_and, not_not] at h
    obtain ⟨h1, h2, h3, h4⟩ := h
    exact ⟨⟨h1, h2⟩, h3 0 (by omega), h3 1 (by omega), h4, ⟨h3 2 (by omega), h3 3 (by omega)⟩, trivial⟩
  · rintro ⟨⟨h1, h2⟩, a0, a1, h4, ⟨a2, a3⟩, -⟩
    rintro (⟨k, hk, h⟩ | h | ⟨k, hk, h⟩ | h)
    · exact h1 k hk h
    · exact h2 h
    · interval_cases k
      exacts [h a0, h a1, h a2, h a3]
    · exact h h4

theorem dsha256_fate {dbg₀ : Bool} {b : Nat} {pp : PSS F} (hpp : PSS.new dbg₀ (2 ^ b) = .ok pp)
    (hgen : (FftField.GENERATOR : F) ^ (4 * 2 ^ b) ≠ 1) (a : Nat)
    (ha : a < 64) {dom dom2 : Domain F} (hdom : Domain.new (2 ^ (a + b)) = some dom)
    (hdom2 : Domain.new (2 ^ (a + b + 1)) = some dom2) (gen1 : G1) (gen2 : G2) {xa xb xc : Nat → F}
    {crs : Nat → PackedProvingKeyShare G1 G2} {a0 b0 α1 β1 δ1 : G1} {v0 β2 δ2 : G2}
    (hpub : ∀ p, (crs p).aQuery0 = a0 ∧ (crs p).bG1Query0 = b0 ∧ (crs p).bG2Query0 = v0 ∧ (crs p).deltaG1 = δ1 ∧
        (crs p).deltaG2 = δ2 ∧ (crs p).alphaG1 = α1 ∧ (crs p).betaG1 = β1 ∧ (crs p).betaG2 = β2)
    {Q H W U : List G1} {V : List G2} (hS : HoldsChunks pp b (fun p => (crs p).s) Q) (hU : HoldsChunks pp b (fun p => (crs p).u) U)
    (hW : HoldsChunks pp b (fun p => (crs p).w) W) (hH : HoldsChunks pp b (fun p => (crs p).h) H)
    (hV : HoldsChunks pp b (fun p => (crs p).v) V) {z ax : List F} (hzS : z.length = Q.length)
    (hzH : z.length = H.length) (hzV : z.length = V.length) (hax : ax.length = W.length)
    (hUl : U.length = 2 ^ (a + b)) (E : Nat → Errors F G1 G2)
    (tf : Nat → VecTape F) (td : VecTape F) (tm : Nat → MsmTape F G1) (tn : MsmTape F G2) (rng : Nat → Nat → Nat → F)
    {q : Nat → PackedQAPShare F} {masks : Nat → Nat → FftMask F} {zsh axsh : Nat → List F} {rsh : Nat → F} (ssh : Nat → F)
    {m1 : Nat → Nat → MsmMask G1} (hq : SharesProgram pp a b dom q xa xb xc) (hz : HoldsChunks pp b zsh z) (hx : HoldsChunks pp b axsh ax)
    (hm : CircomSpoiled pp a b dom2.groupGen dom (fun p => (E p).fft) tf masks)
    (hm1 : ∀ p, ∀ k < 4, m1 p k = spoiled ((E p).msm1 k) (pp.msmDealt gen1 (tm k) p)) (hr0 : ∀ p < 4 * 2 ^ b, rsh p ≠ 0) :
    Fate (four_pos b) (¬ NoticedIn pp.share.groupGen (4 * 2 ^ b) (2 ^ a) E) (fun _ => True)
      (fun i : Fin (4 * 2 ^ b) => pp.dsha256 true (4 * 2 ^ b) i (crs i) (q i) (zsh i) (axsh i) (rsh i) (ssh i) (masks i)
        (spoilDeg (pp.degDealt (2 ^ a) td i) (E i).degred) (m1 i) (spoiled (E i).msm2 (pp.msmDealt gen2 tn i)) rng)
      (fun _ => True) := by
  have k0 := fun i => hm1 i 0 (by omega)
  have k1 := fun i => hm1 i 1 (by omega)
  have k2 := fun i => hm1 i 2 (by omega)
  have k3 := fun i => hm1 i 3 (by omega)
  have unfolded : ∀ (dm : Nat → DegRedMask F) (m2 : Nat → MsmMask G2) (i : Fin (4 * 2 ^ b)),
      pp.dsha256 true (4 * 2 ^ b) i (crs i) (q i) (zsh i) (axsh i) (rsh i) (ssh i) (masks i) (dm i) (m1 i) (m2 i) rng =
      (pp.circomH true (4 * 2 ^ b) i (q i) (masks i) (dm i) rng).bind fun h =>
      (pp.proveA true (4 * 2 ^ b) i a0 δ1 α1 (crs i).s (zsh i) (rsh i) (m1 i 0) .zero).bind fun piA =>
      (pp.proveA true (4 * 2 ^ b) i b0 δ1 β1 (crs i).h (zsh i) (ssh i) (m1 i 1) .zero).bind fun piB1 =>
      (pp.proveA true (4 * 2 ^ b) i v0 δ2 β2 (crs i).v (zsh i) (ssh i) (m2 i) .zero).bind fun piB2 =>
      (pp.proveC true (4 * 2 ^ b) i piA piB1 (ssh i) (rsh i) δ1 (crs i).w (crs i).u (axsh i) h (m1 i 2) (m1 i 3)).bind fun piC =>
      Proc.done (.ok (piA, piB2, piC)) := by
    intro dm m2 i
    obtain ⟨e1, e2, e3, e4, e5, e6, e7, e8⟩ := hpub i
    unfold PSS.dsha256
    rw [e1, e2, e3, e4, e5, e6, e7, e8]
    simp only [proveBInG1_eq_A _ _ _ _ _ _ _ _ _ (hr0 i i.2)]
    rfl
  refine Fate.congr ?_ (unfolded (fun p => spoilDeg (pp.degDealt (2 ^ a) td p) (E p).degred) fun p => spoiled (E p).msm2 (pp.msmDealt gen2 tn p))
  simp only [k0, k1, k2, k3]
  refine Fate.iff ?_ not_noticedIn
  refine Fate.bind (circomH_fate hpp hgen a ha hdom hdom2 (fun p => (E p).fft) (fun p => (E p).degred) tf td rng hq hm) (fun _ _ => trivial) ?_
  rintro h ⟨y, ly, hy⟩
  refine Fate.bind (proveA_fate hpp hgen gen1 hzS (fun p => (E p).msm1 0) (tm 0) .zero a0 δ1 α1 rsh hS hz) (fun _ _ => trivial) ?_
  intro oA _
  refine Fate.bind (proveA_fate hpp hgen gen1 hzH (fun p => (E p).msm1 1) (tm 1) .zero b0 δ1 β1 ssh hH hz) (fun _ _ => trivial) ?_
  intro oB1 _
  refine Fate.bind (proveA_fate hpp hgen gen2 hzV (fun p => (E p).msm2) tn .zero v0 δ2 β2 ssh hV hz) (fun _ _ => trivial) ?_
  intro oB _
  refine Fate.bind (proveC_fate hpp hgen gen1 hax (ly.trans hUl.symm) (fun p => (E p).msm1 2) (fun p => (E p).msm1 3) (tm 2) (tm 3) δ1 rsh ssh oA oB1
    hW hU hx hy) (fun _ _ => trivial) ?_
  intro oC _
  exact Fate.done (fun p => (oA p, oB p, oC p)) trivial

/-- **C112** The errors of one server are always noticed: if no other server makes an error, they go unnoticed only if it makes none in what it sends. -/
theorem C112_one {dbg₀ : Bool} {b : Nat} {pp : PSS F} (hpp : PSS.new dbg₀ (2 ^ b) = .ok pp) {N : Nat} (E : Nat → Errors F G1 G2) (p : Nat)
    (hp : p < 4 * 2 ^ b) (hone : ∀ i < 4 * 2 ^ b, i ≠ p → (∀ k c, (E i).fft k c = 0) ∧ (∀ c, (E i).degred c = 0) ∧ (∀ k, (E i).msm1 k = 0) ∧ (E i).msm2 = 0) :
    ¬ NoticedIn pp.share.groupGen (4 * 2 ^ b) N E ↔
      (∀ k < 6, ∀ c < N, (E p).fft k c = 0) ∧ (∀ c < N, (E p).degred c = 0) ∧ (∀ k < 4, (E p).msm1 k = 0) ∧ (E p).msm2 = 0 := by
  have hω : pp.share.groupGen ^ p ≠ 0 := pow_ne_zero _ (shareGen_ne hpp)
  have one : ∀ {G : Type} [AddCommGroup G] [Module F G] (e : Nat → G), (∀ i < 4 * 2 ^ b, i ≠ p → e i = 0) →
      (∑ i ∈ range (4 * 2 ^ b), pp.share.groupGen ^ i • e i = 0 ↔ e p = 0) := by
    intro G _ _ e he
    rw [sum_eq_single p (fun i hi hne => by rw [he i (mem_range.1 hi) hne, smul_zero]) fun h => absurd (mem_range.2 hp) h]
    exact ⟨fun h => (smul_eq_zero.1 h).resolve_left hω, fun h => by rw [h, smul_zero]⟩
  have col : ∀ e : Nat → Nat → F, (∀ i < 4 * 2 ^ b, i ≠ p → ∀ c, e i c = 0) →
      (¬ Notices pp.share.groupGen (4 * 2 ^ b) N e ↔ ∀ c < N, e p c = 0) := by
    intro e he
    unfold Notices
    simp only [not_exists, not_and, ne_eq, not_not]
    exact forall₂_congr fun c _ => one (fun i => e i c) fun i hi hne => he i hi hne c
  have h0 := one (fun i => (E i).msm2) fun i hi hne => (hone i hi hne).2.2.2
  have h1 := fun k => one (fun i => (E i).msm1 k) fun i hi hne => (hone i hi hne).2.2.1 k
  have h2 := col (fun i => (E i).degred) fun i hi hne => (hone i hi hne).2.1
  have h3 := fun k => col (fun i => (E i).fft k) fun i hi hne => (hone i hi hne).1 k
  unfold NoticedIn
  simp only [not_or, not_exists, not_and, ne_eq, not_not, h0, h1, h2, h3]

/-- Errors outside of what is sent change nothing. -/
theorem spoil_none (E : Errors F G1 G2) {N : Nat} (x : ServerInput F G1 G2) (hx : x.fftMask.length = 6) (hx1 : x.g1Mask.length = 4)
    (lf : ∀ k < 6, (x.fftMask.getD k (FftMask.zero 0)).inMask.length = N) (ld : x.degredMask.inMask.length = N) (hf : ∀ k < 6, ∀ c < N, E.fft k c = 0)
    (hd : ∀ c < N, E.degred c = 0) (h1 : ∀ k < 4, E.msm1 k = 0) (h2 : E.msm2 = 0) : E.spoil x = x := by
  have add0 : ∀ (v : List F) (e : Nat → F), v.length = N → (∀ c < N, e c = 0) → addErr v e = v := by
    intro v e hv he
    apply list_ext_getD 0 (by simp [addErr])
    intro c hc
    have hc : c < v.length := by simpa [addErr] using hc
    rw [addErr, getD_map_range, if_pos hc, he c (hv ▸ hc), add_zero]
  have e1 : ((List.range 6).map fun k => (⟨addErr (x.fftMask.getD k (FftMask.zero 0)).inMask (E.fft k), (x.fftMask.getD k (FftMask.zero 0)).outMask⟩ :
      FftMask F)) = x.fftMask := by
    refine List.ext_getElem (by simp [hx]) fun k hk hk' => ?_
    have hk6 : k < 6 := hx ▸ hk'
    rw [List.getElem_map, List.getElem_range, add0 _ _ (lf k hk6) (hf k hk6), List.getD_eq_getElem _ _ hk']
  have e2 : ((List.range 4).map fun k => spoiled (E.msm1 k) (x.g1Mask.getD k MsmMask.zero)) = x.g1Mask := by
    refine List.ext_getElem (by simp [hx1]) fun k hk hk' => ?_
    rw [List.getElem_map, List.getElem_range, List.getD_eq_getElem _ _ hk', h1 k (hx1 ▸ hk'), spoiled, add_zero]
  unfold Errors.spoil
  dsimp only
  rw [e1, e2, add0 _ _ ld hd, h2, spoiled, add_zero]

/-- **C112** In a debug build: if in one of the messages of a session the errors of the servers, weighted with the powers of the generator of the shares,
do not add up to zero, no server ever finishes, whatever the schedule; otherwise all of them finish. If only one server makes errors, nobody ever finishes
unless the session is one without errors. -/
theorem C112_session {dbg₀ : Bool} {b : Nat} {pp : PSS F} (hpp : PSS.new dbg₀ (2 ^ b) = .ok pp)
    (hgen : (FftField.GENERATOR : F) ^ (4 * 2 ^ b) ≠ 1) (a : Nat) (ha : a < 64)
    {mats : ConstraintMatrices F} {z : List F} {dom dom2 : Domain F} (hcirc : Circuit a b mats z dom dom2) (pk : ProvingKey G1 G2)
    (hk : KeyFits z.length mats.numInstanceVariables (2 ^ (a + b)) pk) (hal : KeyAligned (2 ^ b) pk) (gen1 : G1) (gen2 : G2)
    (r s : F) (t : ClientTape F G1 G2) (rng : Nat → Nat → Nat → F) :
    ∃ ins : Nat → ServerInput F G1 G2, pp.deal true (2 ^ b) mats z pk gen1 gen2 r s t = .ok ((List.range (4 * 2 ^ b)).map ins) ∧
      ((∀ p < 4 * 2 ^ b, (ins p).r ≠ 0) → ∀ E : Nat → Errors F G1 G2,
        (NoticedIn pp.share.groupGen (4 * 2 ^ b) (2 ^ a) E →
          NobodyFinishes (Net.init fun i : Fin (4 * 2 ^ b) => ((E i).spoil (ins i)).run pp true (4 * 2 ^ b) i rng)) ∧
        (¬ NoticedIn pp.share.groupGen (4 * 2 ^ b) (2 ^ a) E → ∃ outs : Nat → G1 × G2 × G1,
          AlwaysYields (Net.init fun i : Fin (4 * 2 ^ b) => ((E i).spoil (ins i)).run pp true (4 * 2 ^ b) i rng) fun i => outs i) ∧
        ∀ p < 4 * 2 ^ b, (∀ i < 4 * 2 ^ b, i ≠ p → (∀ k c, (E i).fft k c = 0) ∧ (∀ c, (E i).degred c = 0) ∧ (∀ k, (E i).msm1 k = 0) ∧ (E i).msm2 = 0) →
          NobodyFinishes (Net.init fun i : Fin (4 * 2 ^ b) => ((E i).spoil (ins i)).run pp true (4 * 2 ^ b) i rng) ∨
            ∀ i < 4 * 2 ^ b, (E i).spoil (ins i) = ins i) := by
  have hin := hcirc.inputs
  have hwi := hcirc.wires
  have hdom' : Domain.new (2 ^ (a + b)) = some dom := hcirc.size ▸ Domain.new_size hcirc.domain
  obtain ⟨q, eq, hd, hni, hnc, la, lb, lc, -⟩ := C29_qap mats z hcirc.domain hcirc.rowsA hcirc.rowsB hcirc.colsA hcirc.colsB hcirc.wires
  rw [hcirc.size] at la lb lc
  have hcons : ∀ {T : Type} {v : List T}, v.length = z.length → ∃ x xs, v = x :: xs ∧ xs.length = z.length - 1 := by
    intro T v h
    cases v with
    | nil => simp at h; omega
    | cons x xs => exact ⟨x, xs, rfl, by simp at h; omega⟩
  obtain ⟨a0, as, hqa, las⟩ := hcons hk.aQuery
  obtain ⟨b0, bs, hqb, lbs⟩ := hcons hk.bG1Query
  obtain ⟨v0, vs, hqv, lvs⟩ := hcons hk.bG2Query
  obtain ⟨crs, ec, hpub, hS, hU, hW, hH, hV⟩ := C33_pack_key hpp true pk (fun _ => hal) hqa hqb hqv
  refine ⟨_, deal_dealt hpp true a hcirc eq hd la lb lc ec gen1 gen2 r s t, ?_⟩
  have f := dealt_facts hpp a mats.numInstanceVariables q z dom2.groupGen dom hd crs gen1 gen2 r s t
  have l6 : ∀ p, (dealtInput pp a b mats.numInstanceVariables q z dom2.groupGen dom crs gen1 gen2 r s t p).fftMask.length = 6 := fun _ => rfl
  have l4 : ∀ p, (dealtInput pp a b mats.numInstanceVariables q z dom2.groupGen dom crs gen1 gen2 r s t p).g1Mask.length = 4 := fun _ => rfl
  generalize dealtInput pp a b mats.numInstanceVariables q z dom2.groupGen dom crs gen1 gen2 r s t = I at f l6 l4 ⊢
  intro hr0 E
  have hle := l_eq hpp
  have lf : ∀ i < 4 * 2 ^ b, ∀ k < 6, ((I i).fftMask.getD k (FftMask.zero 0)).inMask.length = 2 ^ a := by
    intro i hi k hk
    rcases Nat.lt_or_ge k 3 with h | h
    · refine (congrArg (fun m : FftMask F => m.inMask.length) (f.masks.1 i k h)).trans ?_
      exact (fftDealt_in hpp true _ _ _).1 i (by omega)
    · obtain ⟨k, rfl⟩ := Nat.exists_eq_add_of_le h
      refine (congrArg (fun m : FftMask F => m.inMask.length) (f.masks.2 i k (by omega))).trans ?_
      exact (fftDealt_in hpp false _ _ _).1 i (by omega)
  have ld : ∀ i < 4 * 2 ^ b, (I i).degredMask.inMask.length = 2 ^ a := by
    intro i hi
    rw [f.degred]
    exact (PSS.freshVec_shared (PSS.good_of_new hpp) (fun c _ => chunks_length pp.l t.degred.vals c) _).1 i (by omega)
  have fate := dsha256_fate hpp hgen a ha hdom' hcirc.double gen1 gen2 hpub hS hU hW hH hV
    (z := z.drop 1) (ax := z.drop mats.numInstanceVariables) (by simp [las]) (by simp [lbs]) (by simp [lvs]) (by simp [hk.lQuery])
    hk.hQuery E t.fft t.degred t.msm1 t.msm2 rng (fun p => (I p).s) f.program f.shA f.shAx (spoil_masks f.masks)
    (spoil_msm1 f.msm1) hr0
  replace fate := fate.congr (ps' := fun i : Fin (4 * 2 ^ b) => ((E i).spoil (I i)).run pp true (4 * 2 ^ b) i rng) fun i => by
    rw [ServerInput.run, spoil_crs, f.crs, spoil_degred, f.degred, spoil_msm2, f.msm2]
    rfl
  have wf : ∀ i : Fin (4 * 2 ^ b), (((E i).spoil (I i)).run pp true (4 * 2 ^ b) i rng).WF fun _ => True :=
    fun i => dsha256_wf _ (by positivity) _ _ _ _ _ _ _ _ _ _ _ _
  have dead : NoticedIn pp.share.groupGen (4 * 2 ^ b) (2 ^ a) E →
      NobodyFinishes (Net.init fun i : Fin (4 * 2 ^ b) => ((E i).spoil (I i)).run pp true (4 * 2 ^ b) i rng) := by
    intro h
    obtain ⟨sid, -, d⟩ := fate.2 (not_not.2 h)
    obtain ⟨t, e, hd⟩ := d (fun _ => []) fun _ _ _ _ => rfl
    exact Dead.nobody (fun i => ⟨_, wf i⟩) e hd
  refine ⟨dead, fun h => ?_, fun p hp hone => ?_⟩
  · obtain ⟨o, r, -⟩ := fate.1 h
    exact ⟨o, r.alwaysYields wf⟩
  · by_cases h : NoticedIn pp.share.groupGen (4 * 2 ^ b) (2 ^ a) E
    · exact .inl (dead h)
    · refine .inr fun i hi => ?_
      by_cases hip : i = p
      · subst hip
        obtain ⟨h1, h2, h3, h4⟩ := (C112_one hpp E i hi hone).1 h
        exact spoil_none _ _ (l6 i) (l4 i) (lf i hi) (ld i hi) h1 h2 h3 h4
      · obtain ⟨h1, h2, h3, h4⟩ := hone i hi hip
        exact C107_honest _ h1 h2 h3 h4 _ (l6 i) (l4 i)

/-- **C112** Whether a session finishes depends on the errors alone: with the same errors a session on another assignment, with other randomness of the
client and other choices of the king, finishes if and only if this one does. So making a debug build fail tells nothing about the assignment. -/
theorem C112_selective {dbg₀ : Bool} {b : Nat} {pp : PSS F} (hpp : PSS.new dbg₀ (2 ^ b) = .ok pp)
    (hgen : (FftField.GENERATOR : F) ^ (4 * 2 ^ b) ≠ 1) (a : Nat) (ha : a < 64)
    {mats mats' : ConstraintMatrices F} {z z' : List F} {dom dom2 : Domain F} (hcirc : Circuit a b mats z dom dom2)
    (hcirc' : Circuit a b mats' z' dom dom2) (pk pk' : ProvingKey G1 G2)
    (hk : KeyFits z.length mats.numInstanceVariables (2 ^ (a + b)) pk) (hk' : KeyFits z'.length mats'.numInstanceVariables (2 ^ (a + b)) pk')
    (hal : KeyAligned (2 ^ b) pk) (hal' : KeyAligned (2 ^ b) pk') (gen1 : G1) (gen2 : G2) (r s r' s' : F) (t t' : ClientTape F G1 G2)
    (rng rng' : Nat → Nat → Nat → F) (ins ins' : Nat → ServerInput F G1 G2)
    (hd : pp.deal true (2 ^ b) mats z pk gen1 gen2 r s t = .ok ((List.range (4 * 2 ^ b)).map ins))
    (hd' : pp.deal true (2 ^ b) mats' z' pk' gen1 gen2 r' s' t' = .ok ((List.range (4 * 2 ^ b)).map ins'))
    (hr : ∀ p < 4 * 2 ^ b, (ins p).r ≠ 0) (hr' : ∀ p < 4 * 2 ^ b, (ins' p).r ≠ 0) (E : Nat → Errors F G1 G2) :
    (NobodyFinishes (Net.init fun i : Fin (4 * 2 ^ b) => ((E i).spoil (ins i)).run pp true (4 * 2 ^ b) i rng) ↔
      NobodyFinishes (Net.init fun i : Fin (4 * 2 ^ b) => ((E i).spoil (ins' i)).run pp true (4 * 2 ^ b) i rng')) ∧
    ((∃ outs : Nat → G1 × G2 × G1,
        AlwaysYields (Net.init fun i : Fin (4 * 2 ^ b) => ((E i).spoil (ins i)).run pp true (4 * 2 ^ b) i rng) fun i => outs i) ↔
      ∃ outs : Nat → G1 × G2 × G1,
        AlwaysYields (Net.init fun i : Fin (4 * 2 ^ b) => ((E i).spoil (ins' i)).run pp true (4 * 2 ^ b) i rng') fun i => outs i) := by
  have one : ∀ {mats : ConstraintMatrices F} {z : List F} (_ : Circuit a b mats z dom dom2) (pk : ProvingKey G1 G2)
      (_ : KeyFits z.length mats.numInstanceVariables (2 ^ (a + b)) pk) (_ : KeyAligned (2 ^ b) pk) (r s : F) (t : ClientTape F G1 G2)
      (rng : Nat → Nat → Nat → F) (ins : Nat → ServerInput F G1 G2)
      (_ : pp.deal true (2 ^ b) mats z pk gen1 gen2 r s t = .ok ((List.range (4 * 2 ^ b)).map ins)) (_ : ∀ p < 4 * 2 ^ b, (ins p).r ≠ 0),
      (NobodyFinishes (Net.init fun i : Fin (4 * 2 ^ b) => ((E i).spoil (ins i)).run pp true (4 * 2 ^ b) i rng) ↔
        NoticedIn pp.share.groupGen (4 * 2 ^ b) (2 ^ a) E) ∧
      ((∃ outs : Nat → G1 × G2 × G1,
          AlwaysYields (Net.init fun i : Fin (4 * 2 ^ b) => ((E i).spoil (ins i)).run pp true (4 * 2 ^ b) i rng) fun i => outs i) ↔
        ¬ NoticedIn pp.share.groupGen (4 * 2 ^ b) (2 ^ a) E) := by
    intro mats z hcirc pk hk hal r s t rng ins hd hr
    obtain ⟨ins0, e, h⟩ := C112_session hpp hgen a ha hcirc pk hk hal gen1 gen2 r s t rng
    have same : ∀ p < 4 * 2 ^ b, ins p = ins0 p := by
      intro p hp
      have := Except.ok.inj (hd.symm.trans e)
      simpa [hp] using congrArg (fun l : List (ServerInput F G1 G2) => l[p]?) this
    have hn : (fun i : Fin (4 * 2 ^ b) => ((E i).spoil (ins i)).run pp true (4 * 2 ^ b) i rng) =
        fun i : Fin (4 * 2 ^ b) => ((E i).spoil (ins0 i)).run pp true (4 * 2 ^ b) i rng := funext fun i => by rw [same i i.2]
    rw [hn]
    obtain ⟨h1, h2, -⟩ := h (fun p hp => same p hp ▸ hr p hp) E
    have excl : ∀ c : Net (4 * 2 ^ b) (G1 × G2 × G1), NobodyFinishes c → ∀ outs : Nat → G1 × G2 × G1, ¬ AlwaysYields c fun i => outs i :=
      fun c hc outs ho => NobodyFinishes.not_yields (four_pos b) hc ho
    refine ⟨⟨fun hd => ?_, h1⟩, ⟨fun ⟨o, ho⟩ hN => excl _ (h1 hN) o ho, h2⟩⟩
    by_contra hN
    obtain ⟨o, ho⟩ := h2 hN
    exact excl _ hd o ho
  obtain ⟨a1, a2⟩ := one hcirc pk hk hal r s t rng ins hd hr
  obtain ⟨b1, b2⟩ := one hcirc' pk' hk' hal' r' s' t' rng' ins' hd' hr'
  exact ⟨a1.trans b1.symm, a2.trans b2.symm⟩

end servers

/-! ### Examples -/

/-- Server 3 sends one wrong value: in the last column of the fifth transform. -/
def lateSlip17 (p : Nat) : Errors (ZMod 17) (ZMod 17) (ZMod 17) := ⟨fun k => if k = 4 then slip17 p else 0, 0, 0, 0⟩

/-- Server 3 sends a wrong value in the very last sum. -/
def lastSlip17 (p : Nat) : Errors (ZMod 17) (ZMod 17) (ZMod 17) := ⟨0, 0, fun k => if k = 3 then slip17 p 1 else 0, 0⟩

/-- C112: two sessions in which nobody finishes, and one in which the errors of the servers 2 and 5 cancel. -/
example (t : ClientTape (ZMod 17) (ZMod 17) (ZMod 17)) (ht : t.r = fun _ => 5) : ∃ (pk : ProvingKey (ZMod 17) (ZMod 17))
    (ins : Nat → ServerInput (ZMod 17) (ZMod 17) (ZMod 17)) (outs : Nat → ZMod 17 × ZMod 17 × ZMod 17),
    pp17.deal true (2 ^ 1) mats17e z17e pk 1 1 5 6 t = .ok ((List.range (4 * 2 ^ 1)).map ins) ∧
    NobodyFinishes (Net.init fun i : Fin (4 * 2 ^ 1) => ((lateSlip17 i).spoil (ins i)).run pp17 true (4 * 2 ^ 1) i fun _ i j => i + j) ∧
    NobodyFinishes (Net.init fun i : Fin (4 * 2 ^ 1) => ((lastSlip17 i).spoil (ins i)).run pp17 true (4 * 2 ^ 1) i fun _ i j => i + j) ∧
    AlwaysYields (Net.init fun i : Fin (4 * 2 ^ 1) => ((errors17 i).spoil (ins i)).run pp17 true (4 * 2 ^ 1) i fun _ i j => i + j) fun i => outs i := by
  obtain ⟨pa, pb, pc, pk, h1, h2⟩ := C35_key_exists circuit17e (⟨2, 3, 4, 5, 6⟩ : Toxic (ZMod 17)) (1 : ZMod 17) (1 : ZMod 17)
  have hal : KeyAligned (2 ^ 1) pk := by
    unfold KeyAligned
    rw [h2.aQuery, h2.hQuery, h2.lQuery, h2.bG1Query, h2.bG2Query]
    simp only [List.length_map, List.length_range]
    decide
  obtain ⟨ins, e, h⟩ := C112_session (pp17_eq true) gen17 1 (by norm_num) circuit17e pk (KeyFits.of_key h2) hal 1 1 5 6 t fun _ i j => i + j
  have hr0 : ∀ p < 4 * 2 ^ 1, (ins p).r ≠ 0 := by
    intro p hp
    obtain ⟨-, -, -, h, -⟩ := deal_parts (e ▸ partOf_range ins hp)
    rw [ht] at h
    intro h0
    rw [h0] at h
    revert h
    have : ∀ p < 8, partOf (pp17.pack true (List.replicate (2 ^ 1) (5 : ZMod 17)) fun _ => 5) p ≠ some 0 := by decide +kernel
    exact this p hp
  obtain ⟨outs, ho⟩ := (h hr0 errors17).2.1 (not_noticedIn.2 ⟨⟨fun k _ ⟨c, _, hc⟩ => hc (passes17.fft k c), fun ⟨c, _, hc⟩ => hc (passes17.degred c)⟩,
    passes17.msm1 0, passes17.msm1 1, passes17.msm2, ⟨passes17.msm1 2, passes17.msm1 3⟩, trivial⟩)
  exact ⟨pk, ins, outs, e, (h hr0 lateSlip17).1 (.inl ⟨4, by norm_num, slip17_noticed.1⟩),
    (h hr0 lastSlip17).1 (.inr (.inr (.inl ⟨3, by norm_num, by decide +kernel⟩))), ho⟩

/-- C112: sessions on two assignments of the same circuit. -/
example (t t' : ClientTape (ZMod 17) (ZMod 17) (ZMod 17)) (ht : t.r = fun _ => 5) (ht' : t'.r = fun _ => 5)
    (E : Nat → Errors (ZMod 17) (ZMod 17) (ZMod 17)) : ∃ (pk : ProvingKey (ZMod 17) (ZMod 17))
    (ins ins' : Nat → ServerInput (ZMod 17) (ZMod 17) (ZMod 17)),
    pp17.deal true (2 ^ 1) mats17e z17e pk 1 1 5 6 t = .ok ((List.range (4 * 2 ^ 1)).map ins) ∧
    pp17.deal true (2 ^ 1) mats17e [1, 12, 5, 4, 3] pk 1 1 5 7 t' = .ok ((List.range (4 * 2 ^ 1)).map ins') ∧
    (NobodyFinishes (Net.init fun i : Fin (4 * 2 ^ 1) => ((E i).spoil (ins i)).run pp17 true (4 * 2 ^ 1) i fun _ i j => i + j) ↔
      NobodyFinishes (Net.init fun i : Fin (4 * 2 ^ 1) => ((E i).spoil (ins' i)).run pp17 true (4 * 2 ^ 1) i fun _ _ _ => 3)) := by
  obtain ⟨pa, pb, pc, pk, h1, h2⟩ := C35_key_exists circuit17e (⟨2, 3, 4, 5, 6⟩ : Toxic (ZMod 17)) (1 : ZMod 17) (1 : ZMod 17)
  have hal : KeyAligned (2 ^ 1) pk := by
    unfold KeyAligned
    rw [h2.aQuery, h2.hQuery, h2.lQuery, h2.bG1Query, h2.bG2Query]
    simp only [List.length_map, List.length_range]
    decide
  have hr0 : ∀ {z s} {t : ClientTape (ZMod 17) (ZMod 17) (ZMod 17)} {ins : Nat → ServerInput (ZMod 17) (ZMod 17) (ZMod 17)}, t.r = (fun _ => 5) →
      pp17.deal true (2 ^ 1) mats17e z pk 1 1 5 s t = .ok ((List.range (4 * 2 ^ 1)).map ins) → ∀ p < 4 * 2 ^ 1, (ins p).r ≠ 0 := by
    intro z s t ins ht e p hp
    obtain ⟨-, -, -, h, -⟩ := deal_parts (e ▸ partOf_range ins hp)
    rw [ht] at h
    intro h0
    rw [h0] at h
    revert h
    have : ∀ p < 8, partOf (pp17.pack true (List.replicate (2 ^ 1) (5 : ZMod 17)) fun _ => 5) p ≠ some 0 := by decide +kernel
    exact this p hp
  obtain ⟨ins, e, -⟩ := C112_session (pp17_eq true) gen17 1 (by norm_num) circuit17e pk (KeyFits.of_key h2) hal 1 1 5 6 t fun _ i j => i + j
  obtain ⟨ins', e', -⟩ := C112_session (pp17_eq true) gen17 1 (by norm_num) circuit17e' pk (KeyFits.of_key h2) hal 1 1 5 7 t' fun _ i j => i + j
  exact ⟨pk, ins, ins', e, e', (C112_selective (pp17_eq true) gen17 1 (by norm_num) circuit17e circuit17e' pk pk (KeyFits.of_key h2) (KeyFits.of_key h2) hal
    hal 1 1 5 6 5 7 t t' _ _ ins ins' e e' (hr0 ht e) (hr0 ht' e') E).1⟩

/-- C112: the slip of server 3 is noticed since it makes an error in what it sends. -/
example : NoticedIn pp17.share.groupGen (4 * 2 ^ 1) (2 ^ 1) lateSlip17 := by
  by_contra h
  have := ((C112_one (pp17_eq true) lateSlip17 3 (by norm_num) fun i _ hi => ⟨fun k c => by simp only [lateSlip17]; split <;> simp [slip17, hi],
    fun _ => rfl, fun _ => rfl, rfl⟩).1 h).1 4 (by norm_num) 1 (by norm_num)
  revert this
  decide +kernel

end ZkSaas.Properties
