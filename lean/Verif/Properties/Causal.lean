import Verif.Properties.CheatOdds

/-!
# C110: strategies that go by the answers received so far
-/

set_option linter.unusedSectionVars false

namespace ZkSaas.Properties

open Finset Polynomial Spec

/-! ### Two runs that are alike up to a message -/

section follow

variable {n : Nat} {α β γ δ : Type} {S : Sid → Prop} {H : Nat → Prop}

/-- Two runs in which every party but the king receives `m` messages. If `H j`, the first `j` of them are the same in both; if `H m`, the runs end
alike. -/
def Follow (S : Sid → Prop) (H : Nat → Prop) (m : Nat) (ps ps' : Fin n → Proc α) (R : (Nat → α) → Prop) : Prop :=
  ∃ (outs outs' : Nat → α) (vs vs' : Fin n → Transcript), RunsV All S ps (fun i => outs i) vs ∧ RunsV All S ps' (fun i => outs' i) vs' ∧
    (∀ i, i.val ≠ 0 → (vs i).length = m ∧ (vs' i).length = m ∧ ∀ j ≤ m, H j → (vs i).take j = (vs' i).take j) ∧ R outs ∧ R outs' ∧
    (H m → outs = outs')

/-- A run in which every party but the king receives one message. -/
def Single (S : Sid → Prop) (ps : Fin n → Proc α) (R : (Nat → α) → Prop) : Prop :=
  ∃ (outs : Nat → α) (vs : Fin n → Transcript), RunsV All S ps (fun i => outs i) vs ∧ (∀ i, i.val ≠ 0 → (vs i).length = 1) ∧ R outs

theorem Single.congr {ps ps' : Fin n → Proc α} {R : (Nat → α) → Prop} (h : Single S ps R) (hp : ∀ i, ps' i = ps i) : Single S ps' R := by
  obtain ⟨o, vs, r, l, h⟩ := h
  exact ⟨o, vs, r.congr hp (fun _ => rfl) fun _ => rfl, l, h⟩

theorem Single.imp {ps : Fin n → Proc α} {R Q : (Nat → α) → Prop} (h : Single S ps R) (hR : ∀ o, R o → Q o) : Single S ps Q := by
  obtain ⟨o, vs, r, l, h⟩ := h
  exact ⟨o, vs, r, l, hR o h⟩

theorem Single.mono {S' : Sid → Prop} {ps : Fin n → Proc α} {R : (Nat → α) → Prop} (h : Single S ps R) (hS : ∀ x, S x → S' x) : Single S' ps R := by
  obtain ⟨o, vs, r, l, h⟩ := h
  exact ⟨o, vs, r.mono hS, l, h⟩

theorem Follow.one {ps ps' : Fin n → Proc α} {R : (Nat → α) → Prop} (h : Single S ps R) (h' : Single S ps' R) (he : H 1 → ps = ps') :
    Follow S H 1 ps ps' R := by
  by_cases hH : H 1
  · obtain rfl := he hH
    obtain ⟨o, vs, r, l, h⟩ := h
    exact ⟨o, o, vs, vs, r, r, fun i hi => ⟨l i hi, l i hi, fun _ _ _ => rfl⟩, h, h, fun _ => rfl⟩
  · obtain ⟨o, vs, r, l, h⟩ := h
    obtain ⟨o', vs', r', l', h'⟩ := h'
    refine ⟨o, o', vs, vs', r, r', fun i hi => ⟨l i hi, l' i hi, fun j hj hj' => ?_⟩, h, h', fun h => absurd h hH⟩
    obtain rfl | rfl : j = 0 ∨ j = 1 := by omega
    · simp
    · exact absurd hj' hH

theorem Follow.done {R : (Nat → α) → Prop} (o o' : Nat → α) (h : R o) (h' : R o') (he : H 0 → o = o') :
    Follow (n := n) S H 0 (fun i => .done (.ok (o i))) (fun i => .done (.ok (o' i))) R :=
  ⟨o, o', _, _, RunsV.done _, RunsV.done _, fun _ _ => ⟨rfl, rfl, fun _ _ _ => by simp⟩, h, h', he⟩

theorem Follow.congr {m : Nat} {ps ps' qs qs' : Fin n → Proc α} {R : (Nat → α) → Prop} (h : Follow S H m ps ps' R) (hp : ∀ i, qs i = ps i)
    (hp' : ∀ i, qs' i = ps' i) : Follow S H m qs qs' R := by
  obtain ⟨o, o', vs, vs', r, r', h⟩ := h
  exact ⟨o, o', vs, vs', r.congr hp (fun _ => rfl) fun _ => rfl, r'.congr hp' (fun _ => rfl) fun _ => rfl, h⟩

theorem Follow.mono {S' : Sid → Prop} {m : Nat} {ps ps' : Fin n → Proc α} {R : (Nat → α) → Prop} (h : Follow S H m ps ps' R) (hS : ∀ x, S x → S' x) :
    Follow S' H m ps ps' R := by
  obtain ⟨o, o', vs, vs', r, r', h⟩ := h
  exact ⟨o, o', vs, vs', r.mono hS, r'.mono hS, h⟩

theorem take_two {A : Type} (anti : ∀ j k, k ≤ j → H j → H k) {a a' b b' : List A} {m m' : Nat}
    (h : a.length = m ∧ a'.length = m ∧ ∀ j ≤ m, H j → a.take j = a'.take j)
    (k : b.length = m' ∧ b'.length = m' ∧ ∀ j ≤ m', H (m + j) → b.take j = b'.take j) :
    (a ++ b).length = m + m' ∧ (a' ++ b').length = m + m' ∧ ∀ j ≤ m + m', H j → (a ++ b).take j = (a' ++ b').take j := by
  obtain ⟨l, l', h⟩ := h
  obtain ⟨q, q', k⟩ := k
  refine ⟨by simp [l, q], by simp [l', q'], fun j hj hH => ?_⟩
  rw [List.take_append, List.take_append, l, l']
  by_cases hm : j ≤ m
  · rw [h j hm hH, Nat.sub_eq_zero_of_le hm]
    simp
  · have e := h m le_rfl (anti j m (by omega) hH)
    rw [← l, List.take_length, l, ← l', List.take_length] at e
    rw [e, k (j - m) (by omega) (by rwa [Nat.add_sub_of_le (by omega)])]

theorem Follow.bind (anti : ∀ j k, k ≤ j → H j → H k) {S1 : Sid → Prop} {m m' : Nat} {ps ps' : Fin n → Proc α} {R : (Nat → α) → Prop}
    (h : Follow S1 H m ps ps' R) (h1 : ∀ x, S1 x → S x) {f f' : Fin n → α → Proc β} {Q : (Nat → β) → Prop}
    (hf : ∀ o o', R o → R o' → (H m → o = o') → Follow S (fun j => H (m + j)) m' (fun i => f i (o i)) (fun i => f' i (o' i)) Q) :
    Follow S H (m + m') (fun i => (ps i).bind (f i)) (fun i => (ps' i).bind (f' i)) Q := by
  obtain ⟨o, o', vs, vs', r, r', hv, h, h', he⟩ := h
  obtain ⟨u, u', ws, ws', q, q', hw, k, k', hk⟩ := hf o o' h h' he
  exact ⟨u, u', _, _, (r.mono h1).bind q, (r'.mono h1).bind q', fun i hi => take_two anti (hv i hi) (hw i hi), k, k', hk⟩

theorem Follow.par (anti : ∀ j k, k ≤ j → H j → H k) {S1 S2 : Sid → Prop} {m m1 m2 : Nat} {ps ps' : Fin n → Proc α} {R : (Nat → α) → Prop}
    (h : Follow S1 H m ps ps' R) {qs qs' : Fin n → Proc β} {Q : (Nat → β) → Prop} (g : Follow S2 (fun j => H (m + j)) m1 qs qs' Q)
    (h1 : ∀ x, S1 x → S x) (h2 : ∀ x, S2 x → S x) {k k' : Fin n → α → β → Proc γ} {U : (Nat → γ) → Prop}
    (hk : ∀ o o' u u', R o → R o' → (H m → o = o') → Q u → Q u' → (H (m + m1) → u = u') →
      Follow S (fun j => H (m + (m1 + j))) m2 (fun i => k i (o i) (u i)) (fun i => k' i (o' i) (u' i)) U) :
    Follow S H (m + (m1 + m2)) (fun i => .par (ps i) (qs i) (k i)) (fun i => .par (ps' i) (qs' i) (k' i)) U := by
  obtain ⟨o, o', vs, vs', r, r', hv, h, h', he⟩ := h
  obtain ⟨u, u', ws, ws', q, q', hw, g, g', hg⟩ := g
  obtain ⟨x, x', xs, xs', t, t', hx, k, k', hk⟩ := hk o o' u u' h h' he g g' hg
  have anti' : ∀ j k, k ≤ j → H (m + j) → H (m + k) := fun j k hk => anti _ _ (by omega)
  exact ⟨x, x', _, _, r.par q h1 h2 t, r'.par q' h1 h2 t', fun i hi => take_two anti (hv i hi) (take_two anti' (hw i hi) (hx i hi)), k, k', hk⟩

theorem Follow.tryJoin3 (anti : ∀ j k, k ≤ j → H j → H k) {S0 S1 S2 : Sid → Prop} {m m1 m2 m3 : Nat} {ps ps' : Fin n → Proc α} {R : (Nat → α) → Prop}
    (h : Follow S0 H m ps ps' R) {qs qs' : Fin n → Proc β} {Q : (Nat → β) → Prop} (g : Follow S1 (fun j => H (m + j)) m1 qs qs' Q)
    {us us' : Fin n → Proc γ} {U : (Nat → γ) → Prop} (w : Follow S2 (fun j => H (m + (m1 + j))) m2 us us' U)
    (h0 : ∀ x, S0 x → S x) (h1 : ∀ x, S1 x → S x) (h2 : ∀ x, S2 x → S x) {k k' : Fin n → α → β → γ → Proc δ} {V : (Nat → δ) → Prop}
    (hk : ∀ o o' u u' y y', R o → R o' → (H m → o = o') → Q u → Q u' → (H (m + m1) → u = u') → U y → U y' → (H (m + (m1 + m2)) → y = y') →
      Follow S (fun j => H (m + (m1 + (m2 + j)))) m3 (fun i => k i (o i) (u i) (y i)) (fun i => k' i (o' i) (u' i) (y' i)) V) :
    Follow S H (m + (m1 + (m2 + m3))) (fun i => tryJoin3 (ps i) (qs i) (us i) (k i)) (fun i => tryJoin3 (ps' i) (qs' i) (us' i) (k' i)) V := by
  obtain ⟨o, o', vs, vs', r, r', hv, h, h', he⟩ := h
  obtain ⟨u, u', ws, ws', q, q', hw, g, g', hg⟩ := g
  obtain ⟨y, y', ts, ts', e, e', ht, w, w', hy⟩ := w
  obtain ⟨x, x', xs, xs', t, t', hx, k, k', hk⟩ := hk o o' u u' y y' h h' he g g' hg w w' hy
  have anti' : ∀ j k, k ≤ j → H (m + j) → H (m + k) := fun j k hk => anti _ _ (by omega)
  have anti'' : ∀ j k, k ≤ j → H (m + (m1 + j)) → H (m + (m1 + k)) := fun j k hk => anti _ _ (by omega)
  exact ⟨x, x', _, _, r.tryJoin3 q e h0 h1 h2 t, r'.tryJoin3 q' e' h0 h1 h2 t', fun i hi =>
    take_two anti (hv i hi) (take_two anti' (hw i hi) (take_two anti'' (ht i hi) (hx i hi))), k, k', hk⟩

end follow

/-! ### The rounds of a session -/

variable {F : Type} [Field F] [FftField F] [DecidableEq F] [FixedWire F]

theorem dFft_single {dbg₀ : Bool} {a b : Nat} {pp : PSS F} (hpp : PSS.new dbg₀ (2 ^ b) = .ok pp)
    (hgen : (FftField.GENERATOR : F) ^ (4 * 2 ^ b) ≠ 1) (dbg : Bool) (ha : a < 64) {dom : Domain F} (hsize : dom.size = 2 ^ (a + b))
    (hprim : IsPrimitiveRoot dom.groupGen (2 ^ (a + b))) {e : Nat → Nat → F}
    (he : dbg = true → ∀ c, ∑ p ∈ range (4 * 2 ^ b), pp.share.groupGen ^ p • e p c = 0) (rearrange : Bool) (t : VecTape F) (sid : Sid)
    (rng : Nat → Nat → F) {sh : Nat → List F} (hsh : ∃ x, pp.SharedVec (2 * pp.l) (2 ^ a) sh (packed true a b x)) :
    Single (only sid)
      (fun i : Fin (4 * 2 ^ b) => pp.dFft dbg (4 * 2 ^ b) i (sh i) (spoilFft (pp.fftDealt a b rearrange 1 dom.groupGen t i) (e i)) rearrange dom sid rng)
      (fun o => ∃ y, pp.SharedVec (2 * pp.l) (2 ^ a) o (packed rearrange a b y)) := by
  obtain ⟨x, hsh⟩ := hsh
  have hlb := l_eq hpp
  have hl := (PSS.good_of_new hpp).lpos
  obtain ⟨χ, hχ, hχe⟩ := exists_layout (a := a) (b := b) hprim (errVec pp b e)
  obtain ⟨px, e1, hpx⟩ := PSS.fft1_shared hlb hprim x hsh
  obtain ⟨v0, r, h⟩ := fft2_view_err hpp hgen dbg ha hprim (bp (fun i => x (bitRev (a + b) i))) (fun _ _ _ _ => rfl) le_rfl (by omega) hpx he hχ hχe 1
    rearrange t sid rng
  refine Single.congr ⟨_, _, r, fun i hi => by rw [if_neg hi]; rfl, _, h⟩ fun i => ?_
  have hi : i.val < 4 * pp.l := by have := i.2; omega
  unfold PSS.dFft
  rw [debugAssert_of (by rw [hsh.1 i hi, hlb, hsize, pow_add]; simp), e1 i hi]
  rfl

theorem dIfft_single {dbg₀ : Bool} {a b : Nat} {pp : PSS F} (hpp : PSS.new dbg₀ (2 ^ b) = .ok pp)
    (hgen : (FftField.GENERATOR : F) ^ (4 * 2 ^ b) ≠ 1) (dbg : Bool) (ha : a < 64) {dom : Domain F} (hsize : dom.size = 2 ^ (a + b))
    (hprim : IsPrimitiveRoot dom.groupGenInv (2 ^ (a + b))) {e : Nat → Nat → F}
    (he : dbg = true → ∀ c, ∑ p ∈ range (4 * 2 ^ b), pp.share.groupGen ^ p • e p c = 0) (g : F) (rearrange : Bool) (t : VecTape F) (sid : Sid)
    (rng : Nat → Nat → F) {sh : Nat → List F} (hsh : ∃ x, pp.SharedVec (2 * pp.l) (2 ^ a) sh (packed true a b x)) :
    Single (only sid)
      (fun i : Fin (4 * 2 ^ b) => pp.dIfft dbg (4 * 2 ^ b) i (sh i) (spoilFft (pp.fftDealt a b rearrange g dom.groupGenInv t i) (e i)) rearrange dom g sid
        rng)
      (fun o => ∃ y, pp.SharedVec (2 * pp.l) (2 ^ a) o (packed rearrange a b y)) := by
  obtain ⟨x, hsh⟩ := hsh
  have hlb := l_eq hpp
  have hl := (PSS.good_of_new hpp).lpos
  obtain ⟨χ, hχ, hχe⟩ := exists_layout (a := a) (b := b) hprim (errVec pp b e)
  have scaled : pp.SharedVec (2 * pp.l) (2 ^ a) (fun p => (sh p).map fun z => z * dom.sizeInv) (packed true a b fun i => x i * dom.sizeInv) :=
    SharedVec.congr (SharedVec.scale hsh dom.sizeInv) (fun _ _ => rfl) fun c hc => packed_smul _ _ _ _ _ _
  obtain ⟨px, e1, hpx⟩ := PSS.fft1_shared hlb hprim _ scaled
  obtain ⟨v0, r, h⟩ := fft2_view_err hpp hgen dbg ha hprim (bp (fun i => (fun i => x i * dom.sizeInv) (bitRev (a + b) i))) (fun _ _ _ _ => rfl) le_rfl
    (by omega) hpx he hχ hχe g rearrange t sid rng
  refine Single.congr ⟨_, _, r, fun i hi => by rw [if_neg hi]; rfl, _, h⟩ fun i => ?_
  have hi : i.val < 4 * pp.l := by have := i.2; omega
  unfold PSS.dIfft
  have e := e1 i hi
  rw [debugAssert_of (by rw [hsh.1 i hi, hlb, hsize, pow_add]; simp)]
  dsimp only
  rw [e]
  rfl

theorem circomH_follow {dbg₀ : Bool} {b : Nat} {pp : PSS F} (hpp : PSS.new dbg₀ (2 ^ b) = .ok pp)
    (hgen : (FftField.GENERATOR : F) ^ (4 * 2 ^ b) ≠ 1) (dbg : Bool) (a : Nat)
    (ha : a < 64) {dom dom2 : Domain F} (hdom : Domain.new (2 ^ (a + b)) = some dom)
    (hdom2 : Domain.new (2 ^ (a + b + 1)) = some dom2) {xa xb xc : Nat → F} {e e' : Nat → Nat → Nat → F} {f f' : Nat → Nat → F}
    (he : dbg = true → ∀ k c, ∑ p ∈ range (4 * 2 ^ b), pp.share.groupGen ^ p • e p k c = 0)
    (hf : dbg = true → ∀ c, ∑ p ∈ range (4 * 2 ^ b), pp.share.groupGen ^ p • f p c = 0)
    (he' : dbg = true → ∀ k c, ∑ p ∈ range (4 * 2 ^ b), pp.share.groupGen ^ p • e' p k c = 0)
    (hf' : dbg = true → ∀ c, ∑ p ∈ range (4 * 2 ^ b), pp.share.groupGen ^ p • f' p c = 0)
    {H : Nat → Prop} (anti : ∀ j k, k ≤ j → H j → H k) (hH : ∀ k < 6, H (k + 1) → ∀ p, e p k = e' p k) (hH6 : H 7 → f = f')
    (tf : Nat → VecTape F) (td : VecTape F) (rng : Nat → Nat → Nat → F) {q : Nat → PackedQAPShare F}
    {masks masks' : Nat → Nat → FftMask F} (hq : SharesProgram pp a b dom q xa xb xc)
    (hm : CircomSpoiled pp a b dom2.groupGen dom e tf masks) (hm' : CircomSpoiled pp a b dom2.groupGen dom e' tf masks') :
    Follow (fun _ => True) H 7
      (fun i : Fin (4 * 2 ^ b) => pp.circomH dbg (4 * 2 ^ b) i (q i) (masks i) (spoilDeg (pp.degDealt (2 ^ a) td i) (f i)) rng)
      (fun i : Fin (4 * 2 ^ b) => pp.circomH dbg (4 * 2 ^ b) i (q i) (masks' i) (spoilDeg (pp.degDealt (2 ^ a) td i) (f' i)) rng)
      (fun o => ∃ y : List F, y.length = 2 ^ (a + b) ∧ HoldsChunks pp b o y) := by
  have hle := l_eq hpp
  have hg := PSS.good_of_new hpp
  have hl := hg.lpos
  obtain ⟨hwf, hoff, -, hsize⟩ := Domain.new_pow2 hdom
  obtain ⟨-, hoff2, -, hsize2⟩ := Domain.new_pow2 hdom2
  have hprim : IsPrimitiveRoot dom.groupGen (2 ^ (a + b)) := by rw [← hsize]; exact hwf.prim
  have hprim' : IsPrimitiveRoot dom.groupGenInv (2 ^ (a + b)) := by rw [hwf.ginv]; exact hprim.inv
  obtain ⟨hq, hqa, hqb, hqc⟩ := hq
  obtain ⟨hm1, hm2⟩ := hm
  obtain ⟨hm1', hm2'⟩ := hm'
  have hb0 : 0 < 2 ^ b := by positivity
  have herr : ∀ (f : Nat → Nat → F) c, (errSec pp b fun p => f p c) = packed false a b (errVec pp b f) c := by
    intro f c
    apply list_ext_getD 0 (by simp [errSec, packed])
    intro j hj
    have hj : j < 2 ^ b := by simpa [errSec] using hj
    rw [packed, getD_map_range, if_pos hj, slot, if_neg (by simp), errVec, show (c * 2 ^ b + j) / 2 ^ b = c by
      rw [Nat.mul_comm, Nat.mul_add_div hb0, Nat.div_eq_of_lt hj, Nat.add_zero], show (c * 2 ^ b + j) % 2 ^ b = j by
      rw [Nat.mul_comm, Nat.mul_add_mod, Nat.mod_eq_of_lt hj]]
  have unfolded : ∀ (masks : Nat → Nat → FftMask F) (dm : Nat → DegRedMask F),
      ∀ i : Fin (4 * 2 ^ b), pp.circomH dbg (4 * 2 ^ b) i (q i) (masks i) (dm i) rng =
    tryJoin3 (pp.dIfft dbg (4 * 2 ^ b) i (q i).a (masks i 0) true dom dom2.groupGen .zero (rng 0))
      (pp.dIfft dbg (4 * 2 ^ b) i (q i).b (masks i 1) true dom dom2.groupGen .one (rng 1))
      (pp.dIfft dbg (4 * 2 ^ b) i (q i).c (masks i 2) true dom dom2.groupGen .two (rng 2)) fun aCoeff bCoeff cCoeff =>
    tryJoin3 (pp.dFft dbg (4 * 2 ^ b) i aCoeff (masks i 3) false dom .zero (rng 3))
      (pp.dFft dbg (4 * 2 ^ b) i bCoeff (masks i 4) false dom .one (rng 4))
      (pp.dFft dbg (4 * 2 ^ b) i cCoeff (masks i 5) false dom .two (rng 5)) fun aEval bEval cEval =>
    pp.degRed dbg (4 * 2 ^ b) i (List.zipWith (fun ab c => ab.1 * ab.2 - c) (List.zip aEval bEval) cEval) (dm i) .zero (rng 6) := by
    intro masks dm i
    have hroot : dom2.element 1 = dom2.groupGen := by rw [Domain.element, hoff2, one_mul, pow_one]
    rw [PSS.circomH, hq i i.2, hsize, ← pow_succ', hdom2, ← hroot]
    rfl
  have deg : ∀ (f : Nat → Nat → F), (dbg = true → ∀ c, ∑ p ∈ range (4 * 2 ^ b), pp.share.groupGen ^ p • f p c = 0) → ∀ {sh : Nat → List F},
      (∃ y, pp.SharedVec (4 * pp.l - 1) (2 ^ a) sh (packed false a b y)) →
      Single (fun _ => True) (fun i : Fin (4 * 2 ^ b) => pp.degRed dbg (4 * 2 ^ b) i (sh i) (spoilDeg (pp.degDealt (2 ^ a) td i) (f i)) .zero (rng 6))
        (fun o => ∃ y : List F, y.length = 2 ^ (a + b) ∧ HoldsChunks pp b o y) := by
    rintro f hf sh ⟨y, hy⟩
    obtain ⟨v0, r, h⟩ := degRed_view_err hpp hgen dbg (N := 2 ^ a) (by positivity) (Nat.pow_lt_pow_right (by omega) ha) (by omega) le_rfl hy hf td .zero
      (rng 6)
    have hs : Single (only .zero)
        (fun i : Fin (4 * 2 ^ b) => pp.degRed dbg (4 * 2 ^ b) i (sh i) (spoilDeg (pp.degDealt (2 ^ a) td i) (f i)) .zero (rng 6))
        (fun o => pp.SharedVec (2 * pp.l) (2 ^ a) o fun c => List.zipWith (· + ·) (packed false a b y c) (errSec pp b fun p => f p c)) :=
      ⟨fun i => addMask _ (pp.degDealt (2 ^ a) td i).outMask, _, r, fun i hi => by rw [if_neg hi]; rfl, h⟩
    refine (hs.mono fun _ _ => trivial).imp fun o h => ⟨(List.range (2 ^ (a + b))).map fun i => y i + errVec pp b f i, by simp, ?_⟩
    refine HoldsOutput.chunks (a := a) ⟨by simp, ?_⟩
    rw [← hle]
    refine SharedVec.congr h (fun _ _ => rfl) fun c hc => ?_
    rw [herr, packed_zipWith]
    refine packed_congr _ hc fun i hi => ?_
    rw [getD_map_range, if_pos hi]
  refine Follow.congr ?_ (unfolded masks fun p => spoilDeg (pp.degDealt (2 ^ a) td p) (f p))
    (unfolded masks' fun p => spoilDeg (pp.degDealt (2 ^ a) td p) (f' p))
  have k0 := fun i => hm1 i 0 (by omega)
  have k1 := fun i => hm1 i 1 (by omega)
  have k2 := fun i => hm1 i 2 (by omega)
  have k3 := fun i => hm2 i 0 (by omega)
  have k4 := fun i => hm2 i 1 (by omega)
  have k5 := fun i => hm2 i 2 (by omega)
  have k0' := fun i => hm1' i 0 (by omega)
  have k1' := fun i => hm1' i 1 (by omega)
  have k2' := fun i => hm1' i 2 (by omega)
  have k3' := fun i => hm2' i 0 (by omega)
  have k4' := fun i => hm2' i 1 (by omega)
  have k5' := fun i => hm2' i 2 (by omega)
  simp only [Nat.add_zero, Nat.reduceAdd] at k3 k4 k5 k3' k4' k5'
  simp only [k0, k1, k2, k3, k4, k5, k0', k1', k2', k3', k4', k5']
  have ifft : ∀ (e : Nat → Nat → Nat → F), (dbg = true → ∀ k c, ∑ p ∈ range (4 * 2 ^ b), pp.share.groupGen ^ p • e p k c = 0) → ∀ k t sid rng
      {sh : Nat → List F}, (∃ x, pp.SharedVec (2 * pp.l) (2 ^ a) sh (packed true a b x)) → _ := fun e he k t sid rng {sh} hsh =>
    dIfft_single hpp hgen dbg ha hsize hprim' (e := fun p => e p k) (fun h => he h k) dom2.groupGen true t sid rng hsh
  have fft : ∀ (e : Nat → Nat → Nat → F), (dbg = true → ∀ k c, ∑ p ∈ range (4 * 2 ^ b), pp.share.groupGen ^ p • e p k c = 0) → ∀ k t sid rng
      {sh : Nat → List F}, (∃ x, pp.SharedVec (2 * pp.l) (2 ^ a) sh (packed true a b x)) → _ := fun e he k t sid rng {sh} hsh =>
    dFft_single hpp hgen dbg ha hsize hprim (e := fun p => e p k) (fun h => he h k) false t sid rng hsh
  refine Follow.tryJoin3 (m := 1) (m1 := 1) (m2 := 1) (m3 := 4) anti
    (Follow.one (ifft e he 0 (tf 0) .zero (rng 0) ⟨_, hqa⟩) (ifft e' he' 0 (tf 0) .zero (rng 0) ⟨_, hqa⟩) fun h => by simp only [hH 0 (by omega) h])
    (Follow.one (ifft e he 1 (tf 1) .one (rng 1) ⟨_, hqb⟩) (ifft e' he' 1 (tf 1) .one (rng 1) ⟨_, hqb⟩) fun h => by simp only [hH 1 (by omega) h])
    (Follow.one (ifft e he 2 (tf 2) .two (rng 2) ⟨_, hqc⟩) (ifft e' he' 2 (tf 2) .two (rng 2) ⟨_, hqc⟩) fun h => by simp only [hH 2 (by omega) h])
    (fun _ _ => trivial) (fun _ _ => trivial) (fun _ _ => trivial) ?_
  intro oa oa' ob ob' oc oc' ra ra' ea rb rb' eb rc rc' ec
  refine Follow.tryJoin3 (m := 1) (m1 := 1) (m2 := 1) (m3 := 1) (fun j k hk => anti _ _ (by omega))
    (Follow.one (fft e he 3 (tf 3) .zero (rng 3) ra) (fft e' he' 3 (tf 3) .zero (rng 3) ra') fun h => by
      simp only [hH 3 (by omega) h, ea (anti _ _ (by omega) h)])
    (Follow.one (fft e he 4 (tf 4) .one (rng 4) rb) (fft e' he' 4 (tf 4) .one (rng 4) rb') fun h => by
      simp only [hH 4 (by omega) h, eb (anti _ _ (by omega) h)])
    (Follow.one (fft e he 5 (tf 5) .two (rng 5) rc) (fft e' he' 5 (tf 5) .two (rng 5) rc') fun h => by
      simp only [hH 5 (by omega) h, ec (anti _ _ (by omega) h)])
    (fun _ _ => trivial) (fun _ _ => trivial) (fun _ _ => trivial) ?_
  rintro pa pa' pb pb' pc pc' ⟨ya, ra⟩ ⟨ya', ra'⟩ ea ⟨yb, rb⟩ ⟨yb', rb'⟩ eb ⟨yc, rc⟩ ⟨yc', rc'⟩ ec
  refine Follow.one (deg f hf ⟨_, SharedVec.mulSub hg hle false rfl ra rb rc⟩) (deg f' hf' ⟨_, SharedVec.mulSub hg hle false rfl ra' rb' rc'⟩) fun h => ?_
  simp only [hH6 h, ea (anti _ _ (by omega) h), eb (anti _ _ (by omega) h), ec (anti _ _ (by omega) h)]

section groups

variable {G : Type} [AddCommGroup G] [Module F G] [DecidableEq G] [FixedWire G]

theorem dMsm_single {dbg₀ : Bool} {b : Nat} {pp : PSS F} (hpp : PSS.new dbg₀ (2 ^ b) = .ok pp)
    (hgen : (FftField.GENERATOR : F) ^ (4 * 2 ^ b) ≠ 1) (dbg : Bool) (gen : G) {y : List G} {x : List F} (hlen : x.length = y.length) {e : Nat → G}
    (he : dbg = true → ∑ p ∈ range (4 * 2 ^ b), pp.share.groupGen ^ p • e p = 0) (t : MsmTape F G) (sid : Sid) {bs : Nat → List G}
    {ss : Nat → List F} (hb : HoldsChunks pp b bs y) (hs : HoldsChunks pp b ss x) :
    Single (only sid) (fun i : Fin (4 * 2 ^ b) => pp.dMsm dbg (4 * 2 ^ b) i (bs i) (ss i) (spoiled (e i) (pp.msmDealt gen t i)) sid) (fun _ => True) := by
  have hle := l_eq hpp
  have hg := PSS.good_of_new hpp
  have hl := hg.lpos
  rw [HoldsChunks, ← hle] at hb hs
  rw [hlen] at hs
  obtain ⟨v0, r⟩ := dMsm_view_err hpp hgen dbg (by omega) (by omega) hb hs he gen t sid
    (by rw [sum_chunks, sum_padded (N := (y.length + pp.l - 1) / pp.l * pp.l) _ _ rfl (numChunks_mul y hl)])
  refine ⟨fun i => _ + (pp.msmDealt gen t i).outMask, _, r, fun i hi => ?_, trivial⟩
  rw [if_neg hi]
  rfl

theorem proveA_follow {dbg₀ : Bool} {b : Nat} {pp : PSS F} (hpp : PSS.new dbg₀ (2 ^ b) = .ok pp)
    (hgen : (FftField.GENERATOR : F) ^ (4 * 2 ^ b) ≠ 1) (dbg : Bool) (gen : G) {Q : List G} {z : List F} (hlen : z.length = Q.length) {e e' : Nat → G}
    (he : dbg = true → ∑ p ∈ range (4 * 2 ^ b), pp.share.groupGen ^ p • e p = 0)
    (he' : dbg = true → ∑ p ∈ range (4 * 2 ^ b), pp.share.groupGen ^ p • e' p = 0)
    {H : Nat → Prop} (anti : ∀ j k, k ≤ j → H j → H k) (hH : H 1 → e = e') (t : MsmTape F G) (sid : Sid) (L N AG : G) {Ssh : Nat → List G}
    {zsh : Nat → List F} (rsh : Nat → F) (hS : HoldsChunks pp b Ssh Q) (hz : HoldsChunks pp b zsh z) :
    Follow (only sid) H 1
      (fun i : Fin (4 * 2 ^ b) => pp.proveA dbg (4 * 2 ^ b) i L N AG (Ssh i) (zsh i) (rsh i) (spoiled (e i) (pp.msmDealt gen t i)) sid)
      (fun i : Fin (4 * 2 ^ b) => pp.proveA dbg (4 * 2 ^ b) i L N AG (Ssh i) (zsh i) (rsh i) (spoiled (e' i) (pp.msmDealt gen t i)) sid)
      (fun _ => True) := by
  refine Follow.bind (m := 1) (m' := 0) anti (Follow.one (dMsm_single hpp hgen dbg gen hlen he t sid hS hz)
    (dMsm_single hpp hgen dbg gen hlen he' t sid hS hz) fun h => by rw [hH h]) (fun _ h => h) fun o o' _ _ he => ?_
  exact Follow.done (fun p => (L + rsh p • N) + o p + AG) (fun p => (L + rsh p • N) + o' p + AG) trivial trivial fun h => by rw [he h]

theorem proveC_follow {dbg₀ : Bool} {b : Nat} {pp : PSS F} (hpp : PSS.new dbg₀ (2 ^ b) = .ok pp)
    (hgen : (FftField.GENERATOR : F) ^ (4 * 2 ^ b) ≠ 1) (dbg : Bool) (gen : G) {W U : List G} {ax h h' : List F} (hW : ax.length = W.length)
    (hU : h.length = U.length) (hU' : h'.length = U.length) {e f e' f' : Nat → G}
    (he : dbg = true → ∑ p ∈ range (4 * 2 ^ b), pp.share.groupGen ^ p • e p = 0)
    (hf : dbg = true → ∑ p ∈ range (4 * 2 ^ b), pp.share.groupGen ^ p • f p = 0)
    (he' : dbg = true → ∑ p ∈ range (4 * 2 ^ b), pp.share.groupGen ^ p • e' p = 0)
    (hf' : dbg = true → ∑ p ∈ range (4 * 2 ^ b), pp.share.groupGen ^ p • f' p = 0)
    {H : Nat → Prop} (anti : ∀ j k, k ≤ j → H j → H k) (hH1 : H 1 → e = e') (hH2 : H 2 → f = f')
    (t u : MsmTape F G) (M : G) {Wsh Ush : Nat → List G} {axsh hsh hsh' : Nat → List F} (rsh ssh : Nat → F) {Ash Ash' Bsh Bsh' : Nat → G}
    (w : HoldsChunks pp b Wsh W) (u' : HoldsChunks pp b Ush U) (x : HoldsChunks pp b axsh ax) (y : HoldsChunks pp b hsh h)
    (y' : HoldsChunks pp b hsh' h') (eh : H 0 → hsh = hsh') (eA : H 0 → Ash = Ash') (eB : H 0 → Bsh = Bsh') :
    Follow (fun _ => True) H 2
      (fun i : Fin (4 * 2 ^ b) => pp.proveC dbg (4 * 2 ^ b) i (Ash i) (Bsh i) (ssh i) (rsh i) M (Wsh i) (Ush i) (axsh i) (hsh i)
        (spoiled (e i) (pp.msmDealt gen t i)) (spoiled (f i) (pp.msmDealt gen u i)))
      (fun i : Fin (4 * 2 ^ b) => pp.proveC dbg (4 * 2 ^ b) i (Ash' i) (Bsh' i) (ssh i) (rsh i) M (Wsh i) (Ush i) (axsh i) (hsh' i)
        (spoiled (e' i) (pp.msmDealt gen t i)) (spoiled (f' i) (pp.msmDealt gen u i)))
      (fun _ => True) := by
  refine Follow.par (m := 1) (m1 := 1) (m2 := 0) anti (Follow.one (dMsm_single hpp hgen dbg gen hW he t .zero w x)
      (dMsm_single hpp hgen dbg gen hW he' t .zero w x) fun h => by rw [hH1 h])
    (Follow.one (dMsm_single hpp hgen dbg gen hU hf u .one u' y) (dMsm_single hpp hgen dbg gen hU' hf' u .one u' y') fun h => by
      rw [hH2 h, eh (anti _ _ (by omega) h)]) (fun _ _ => trivial) (fun _ _ => trivial) ?_
  intro o o' v v' _ _ eo _ _ ev
  exact Follow.done (fun p => ssh p • Ash p + rsh p • Bsh p - (rsh p * ssh p) • M + o p + v p)
    (fun p => ssh p • Ash' p + rsh p • Bsh' p - (rsh p * ssh p) • M + o' p + v' p) trivial trivial
    fun h => by rw [eA (anti _ _ (by omega) h), eB (anti _ _ (by omega) h), eo (anti _ _ (by omega) h), ev h]

end groups

section servers

variable {G1 G2 : Type} [AddCommGroup G1] [Module F G1] [DecidableEq G1] [FixedWire G1]
  [AddCommGroup G2] [Module F G2] [DecidableEq G2] [FixedWire G2]

theorem dsha256_follow {dbg₀ : Bool} {b : Nat} {pp : PSS F} (hpp : PSS.new dbg₀ (2 ^ b) = .ok pp)
    (hgen : (FftField.GENERATOR : F) ^ (4 * 2 ^ b) ≠ 1) (dbg : Bool) (a : Nat)
    (ha : a < 64) {dom dom2 : Domain F} (hdom : Domain.new (2 ^ (a + b)) = some dom)
    (hdom2 : Domain.new (2 ^ (a + b + 1)) = some dom2) (gen1 : G1) (gen2 : G2) {xa xb xc : Nat → F}
    {crs : Nat → PackedProvingKeyShare G1 G2} {a0 b0 α1 β1 δ1 : G1} {v0 β2 δ2 : G2}
    (hpub : ∀ p, (crs p).aQuery0 = a0 ∧ (crs p).bG1Query0 = b0 ∧ (crs p).bG2Query0 = v0 ∧ (crs p).deltaG1 = δ1 ∧
        (crs p).deltaG2 = δ2 ∧ (crs p).alphaG1 = α1 ∧ (crs p).betaG1 = β1 ∧ (crs p).betaG2 = β2)
    {Q H W U : List G1} {V : List G2} (hS : HoldsChunks pp b (fun p => (crs p).s) Q) (hU : HoldsChunks pp b (fun p => (crs p).u) U)
    (hW : HoldsChunks pp b (fun p => (crs p).w) W) (hH : HoldsChunks pp b (fun p => (crs p).h) H)
    (hV : HoldsChunks pp b (fun p => (crs p).v) V) {z ax : List F} (hzS : z.length = Q.length)
    (hzH : z.length = H.length) (hzV : z.length = V.length) (hax : ax.length = W.length)
    (hUl : U.length = 2 ^ (a + b)) {E E' : Nat → Errors F G1 G2} (hE : dbg = true → Passes pp b E) (hE' : dbg = true → Passes pp b E')
    (tf : Nat → VecTape F) (td : VecTape F) (tm : Nat → MsmTape F G1) (tn : MsmTape F G2) (rng : Nat → Nat → Nat → F)
    {q : Nat → PackedQAPShare F} {masks masks' : Nat → Nat → FftMask F} {zsh axsh : Nat → List F} {rsh : Nat → F} (ssh : Nat → F)
    {m1 m1' : Nat → Nat → MsmMask G1} (hq : SharesProgram pp a b dom q xa xb xc) (hz : HoldsChunks pp b zsh z) (hx : HoldsChunks pp b axsh ax)
    (hm : CircomSpoiled pp a b dom2.groupGen dom (fun p => (E p).fft) tf masks)
    (hm' : CircomSpoiled pp a b dom2.groupGen dom (fun p => (E' p).fft) tf masks')
    (hm1 : ∀ p, ∀ k < 4, m1 p k = spoiled ((E p).msm1 k) (pp.msmDealt gen1 (tm k) p))
    (hm1' : ∀ p, ∀ k < 4, m1' p k = spoiled ((E' p).msm1 k) (pp.msmDealt gen1 (tm k) p)) (hr0 : ∀ p < 4 * 2 ^ b, rsh p ≠ 0) :
    Follow (fun _ => True) (fun j => ∀ k < j, ∀ p, SameAt k (E p) (E' p)) 12
      (fun i : Fin (4 * 2 ^ b) => pp.dsha256 dbg (4 * 2 ^ b) i (crs i) (q i) (zsh i) (axsh i) (rsh i) (ssh i) (masks i)
        (spoilDeg (pp.degDealt (2 ^ a) td i) (E i).degred) (m1 i) (spoiled (E i).msm2 (pp.msmDealt gen2 tn i)) rng)
      (fun i : Fin (4 * 2 ^ b) => pp.dsha256 dbg (4 * 2 ^ b) i (crs i) (q i) (zsh i) (axsh i) (rsh i) (ssh i) (masks' i)
        (spoilDeg (pp.degDealt (2 ^ a) td i) (E' i).degred) (m1' i) (spoiled (E' i).msm2 (pp.msmDealt gen2 tn i)) rng)
      (fun _ => True) := by
  have anti : ∀ j k, k ≤ j → (∀ i < j, ∀ p, SameAt i (E p) (E' p)) → ∀ i < k, ∀ p, SameAt i (E p) (E' p) := fun j k hk h i hi => h i (by omega)
  have k0 := fun i => hm1 i 0 (by omega)
  have k1 := fun i => hm1 i 1 (by omega)
  have k2 := fun i => hm1 i 2 (by omega)
  have k3 := fun i => hm1 i 3 (by omega)
  have k0' := fun i => hm1' i 0 (by omega)
  have k1' := fun i => hm1' i 1 (by omega)
  have k2' := fun i => hm1' i 2 (by omega)
  have k3' := fun i => hm1' i 3 (by omega)
  have unfolded : ∀ (masks : Nat → Nat → FftMask F)
      (dm : Nat → DegRedMask F) (m1 : Nat → Nat → MsmMask G1) (m2 : Nat → MsmMask G2) (i : Fin (4 * 2 ^ b)),
      pp.dsha256 dbg (4 * 2 ^ b) i (crs i) (q i) (zsh i) (axsh i) (rsh i) (ssh i) (masks i) (dm i) (m1 i) (m2 i) rng =
      (pp.circomH dbg (4 * 2 ^ b) i (q i) (masks i) (dm i) rng).bind fun h =>
      (pp.proveA dbg (4 * 2 ^ b) i a0 δ1 α1 (crs i).s (zsh i) (rsh i) (m1 i 0) .zero).bind fun piA =>
      (pp.proveA dbg (4 * 2 ^ b) i b0 δ1 β1 (crs i).h (zsh i) (ssh i) (m1 i 1) .zero).bind fun piB1 =>
      (pp.proveA dbg (4 * 2 ^ b) i v0 δ2 β2 (crs i).v (zsh i) (ssh i) (m2 i) .zero).bind fun piB2 =>
      (pp.proveC dbg (4 * 2 ^ b) i piA piB1 (ssh i) (rsh i) δ1 (crs i).w (crs i).u (axsh i) h (m1 i 2) (m1 i 3)).bind fun piC =>
      Proc.done (.ok (piA, piB2, piC)) := by
    intro masks dm m1 m2 i
    obtain ⟨e1, e2, e3, e4, e5, e6, e7, e8⟩ := hpub i
    unfold PSS.dsha256
    rw [e1, e2, e3, e4, e5, e6, e7, e8]
    simp only [proveBInG1_eq_A _ _ _ _ _ _ _ _ _ (hr0 i i.2)]
    rfl
  refine Follow.congr ?_ (unfolded masks (fun p => spoilDeg (pp.degDealt (2 ^ a) td p) (E p).degred) m1
      fun p => spoiled (E p).msm2 (pp.msmDealt gen2 tn p))
    (unfolded masks' (fun p => spoilDeg (pp.degDealt (2 ^ a) td p) (E' p).degred) m1' fun p => spoiled (E' p).msm2 (pp.msmDealt gen2 tn p))
  simp only [k0, k1, k2, k3, k0', k1', k2', k3']
  refine Follow.bind (m := 7) (m' := 5) anti (circomH_follow hpp hgen dbg a ha hdom hdom2 (e := fun p => (E p).fft) (e' := fun p => (E' p).fft)
    (f := fun p => (E p).degred) (f' := fun p => (E' p).degred) (fun h => (hE h).fft) (fun h => (hE h).degred) (fun h => (hE' h).fft)
    (fun h => (hE' h).degred) anti (fun k hk h p => (h k (by omega) p).1 hk) (fun h => funext fun p => (h 6 (by omega) p).2.1 rfl) tf td rng hq hm hm')
    (fun _ _ => trivial) ?_
  rintro h h' ⟨y, ly, hy⟩ ⟨y', ly', hy'⟩ eh
  refine Follow.bind (m := 1) (m' := 4) (fun j k hk => anti _ _ (by omega)) (proveA_follow hpp hgen dbg gen1 hzS (e := fun p => (E p).msm1 0)
    (e' := fun p => (E' p).msm1 0) (fun h => (hE h).msm1 0) (fun h => (hE' h).msm1 0) (fun j k hk => anti _ _ (by omega))
    (fun h => funext fun p => (h 7 (by omega) p).2.2.1 rfl) (tm 0) .zero a0 δ1 α1 rsh hS hz) (fun _ _ => trivial) ?_
  intro oA oA' _ _ eA
  refine Follow.bind (m := 1) (m' := 3) (fun j k hk => anti _ _ (by omega)) (proveA_follow hpp hgen dbg gen1 hzH (e := fun p => (E p).msm1 1)
    (e' := fun p => (E' p).msm1 1) (fun h => (hE h).msm1 1) (fun h => (hE' h).msm1 1) (fun j k hk => anti _ _ (by omega))
    (fun h => funext fun p => (h 8 (by omega) p).2.2.2.1 rfl) (tm 1) .zero b0 δ1 β1 ssh hH hz) (fun _ _ => trivial) ?_
  intro oB1 oB1' _ _ eB1
  refine Follow.bind (m := 1) (m' := 2) (fun j k hk => anti _ _ (by omega)) (proveA_follow hpp hgen dbg gen2 hzV (e := fun p => (E p).msm2)
    (e' := fun p => (E' p).msm2) (fun h => (hE h).msm2) (fun h => (hE' h).msm2) (fun j k hk => anti _ _ (by omega))
    (fun h => funext fun p => (h 9 (by omega) p).2.2.2.2.1 rfl) tn .zero v0 δ2 β2 ssh hV hz) (fun _ _ => trivial) ?_
  intro oB oB' _ _ eB
  refine Follow.bind (m := 2) (m' := 0) (fun j k hk => anti _ _ (by omega)) (proveC_follow hpp hgen dbg gen1 hax (ly.trans hUl.symm) (ly'.trans hUl.symm)
    (e := fun p => (E p).msm1 2) (e' := fun p => (E' p).msm1 2) (f := fun p => (E p).msm1 3) (f' := fun p => (E' p).msm1 3)
    (fun h => (hE h).msm1 2) (fun h => (hE h).msm1 3) (fun h => (hE' h).msm1 2) (fun h => (hE' h).msm1 3) (fun j k hk => anti _ _ (by omega))
    (fun h => funext fun p => (h 10 (by omega) p).2.2.2.2.2.1 rfl) (fun h => funext fun p => (h 11 (by omega) p).2.2.2.2.2.2 rfl)
    (tm 2) (tm 3) δ1 rsh ssh hW hU hx hy hy' (fun h => eh (anti _ _ (by omega) h)) (fun h => eA (anti _ _ (by omega) h))
    (fun h => eB1 (anti _ _ (by omega) h))) (fun _ _ => trivial) ?_
  intro oC oC' _ _ eC
  exact Follow.done (fun p => (oA p, oB p, oC p)) (fun p => (oA' p, oB' p, oC' p)) trivial trivial
    fun h => by rw [eA (anti _ _ (by omega) h), eB (anti _ _ (by omega) h), eC (anti _ _ (by omega) h)]

/-! ### C110 -/

/-- A session in which the servers make errors: what it ends with, and what part of it goes by which errors. -/
theorem session_follow {dbg₀ : Bool} {b : Nat} {pp : PSS F} (hpp : PSS.new dbg₀ (2 ^ b) = .ok pp)
    (hgen : (FftField.GENERATOR : F) ^ (4 * 2 ^ b) ≠ 1) (dbg : Bool) (a : Nat) (ha : a < 64)
    {mats : ConstraintMatrices F} {z : List F} {dom dom2 : Domain F} (hcirc : Circuit a b mats z dom dom2) (pk : ProvingKey G1 G2)
    (hk : KeyFits z.length mats.numInstanceVariables (2 ^ (a + b)) pk) (hal : dbg = true → KeyAligned (2 ^ b) pk) (gen1 : G1) (gen2 : G2)
    (r s : F) (t : ClientTape F G1 G2) (rng : Nat → Nat → Nat → F) :
    ∃ ins : Nat → ServerInput F G1 G2, pp.deal dbg (2 ^ b) mats z pk gen1 gen2 r s t = .ok ((List.range (4 * 2 ^ b)).map ins) ∧
      ((∀ p < 4 * 2 ^ b, (ins p).r ≠ 0) → ∀ E E' : Nat → Errors F G1 G2, (dbg = true → Passes pp b E) → (dbg = true → Passes pp b E') →
        ∃ (outs outs' : Nat → G1 × G2 × G1) (views views' : Fin (4 * 2 ^ b) → Transcript),
          AlwaysYields (Net.init fun i : Fin (4 * 2 ^ b) => (((E i).spoil (ins i)).run pp dbg (4 * 2 ^ b) i rng).recorded)
            (fun i => (outs i, views i)) ∧
          AlwaysYields (Net.init fun i : Fin (4 * 2 ^ b) => (((E' i).spoil (ins i)).run pp dbg (4 * 2 ^ b) i rng).recorded)
            (fun i => (outs' i, views' i)) ∧
          (∀ i, i.val ≠ 0 → (views i).length = 12 ∧ (views' i).length = 12 ∧
            ∀ j ≤ 12, (∀ k < j, ∀ p, SameAt k (E p) (E' p)) → (views i).take j = (views' i).take j) ∧
          ((∀ k < 12, ∀ p, SameAt k (E p) (E' p)) → outs = outs')) := by
  have hin := hcirc.inputs
  have hwi := hcirc.wires
  have hdom' : Domain.new (2 ^ (a + b)) = some dom := hcirc.size ▸ Domain.new_size hcirc.domain
  obtain ⟨q, eq, hd, hni, hnc, la, lb, lc, -⟩ := C29_qap mats z hcirc.domain hcirc.rowsA hcirc.rowsB hcirc.colsA hcirc.colsB hcirc.wires
  rw [hcirc.size] at la lb lc
  have hcons : ∀ {T : Type} {v : List T}, v.length = z.length → ∃ x xs, v = x :: xs ∧ xs.length = z.length - 1 := by
    intro T v h
    cases v with
    | nil => simp at h; omega
    | cons x xs => exact ⟨x, xs, rfl, by simp at h; omega⟩
  obtain ⟨a0, as, hqa, las⟩ := hcons hk.aQuery
  obtain ⟨b0, bs, hqb, lbs⟩ := hcons hk.bG1Query
  obtain ⟨v0, vs, hqv, lvs⟩ := hcons hk.bG2Query
  obtain ⟨crs, ec, hpub, hS, hU, hW, hH, hV⟩ := C33_pack_key hpp dbg pk hal hqa hqb hqv
  refine ⟨_, deal_dealt hpp dbg a hcirc eq hd la lb lc ec gen1 gen2 r s t, ?_⟩
  have f := dealt_facts hpp a mats.numInstanceVariables q z dom2.groupGen dom hd crs gen1 gen2 r s t
  generalize dealtInput pp a b mats.numInstanceVariables q z dom2.groupGen dom crs gen1 gen2 r s t = I at f ⊢
  intro hr0 E E' hE hE'
  obtain ⟨outs, outs', views, views', h1, h2, hv, -, -, h3⟩ := dsha256_follow hpp hgen dbg a ha hdom' hcirc.double gen1 gen2 hpub hS hU hW hH hV
    (z := z.drop 1) (ax := z.drop mats.numInstanceVariables) (by simp [las]) (by simp [lbs]) (by simp [lvs]) (by simp [hk.lQuery])
    hk.hQuery hE hE' t.fft t.degred t.msm1 t.msm2 rng (fun p => (I p).s) f.program f.shA f.shAx (spoil_masks f.masks) (spoil_masks f.masks)
    (spoil_msm1 f.msm1) (spoil_msm1 f.msm1) hr0
  refine ⟨outs, outs', views, views', RunsV.alwaysYields (P := All) (S := fun _ => True) (h1.congr (fun i => ?_) (fun _ => rfl) fun _ => rfl)
    fun i => dsha256_wf _ (by positivity) _ _ _ _ _ _ _ _ _ _ _ _, RunsV.alwaysYields (P := All) (S := fun _ => True) (h2.congr (fun i => ?_) (fun _ => rfl) fun _ => rfl)
    fun i => dsha256_wf _ (by positivity) _ _ _ _ _ _ _ _ _ _ _ _, hv, h3⟩
  · rw [ServerInput.run, spoil_crs, f.crs, spoil_degred, f.degred, spoil_msm2, f.msm2]
    rfl
  · rw [ServerInput.run, spoil_crs, f.crs, spoil_degred, f.degred, spoil_msm2, f.msm2]
    rfl

section
variable {dbg₀ : Bool} {b : Nat} {pp : PSS F} (hpp : PSS.new dbg₀ (2 ^ b) = .ok pp)
  (hgen : (FftField.GENERATOR : F) ^ (4 * 2 ^ b) ≠ 1) (dbg : Bool) (a : Nat) (ha : a < 64)
  {mats : ConstraintMatrices F} {z z' : List F} {dom dom2 : Domain F} (hcirc : Circuit a b mats z dom dom2)
  (hcirc' : Circuit a b mats z' dom dom2) (hz : z.length = z'.length) (pk : ProvingKey G1 G2)
  (hk : KeyFits z.length mats.numInstanceVariables (2 ^ (a + b)) pk) (hal : dbg = true → KeyAligned (2 ^ b) pk) (gen1 : G1) (gen2 : G2)
  (rng : Nat → Nat → Nat → F) {k : Nat} (P : Fin k → Nat) (hlt : ∀ i, P i < 4 * 2 ^ b) (hking : ∀ i, P i ≠ 0)
  (σ : Holding F G1 G2 k → Nat → Errors F G1 G2) (hσ : dbg = true → ∀ v, Passes pp b (σ v)) (hcausal : Causal σ) {N : Nat}
include hpp hgen ha hcirc hk hal hlt hking hσ hcausal

omit hlt hking hcausal in
/-- What the servers have of the session with these draws in which the errors are those for `v`. -/
theorem session_holding (x : Draws F G1 G2 N) (hx : NoZeroShare pp dbg b x) :
    ∃ (ins : Nat → ServerInput F G1 G2) (O : Holding F G1 G2 k → Nat → G1 × G2 × G1) (V : Holding F G1 G2 k → Nat → Transcript),
      pp.deal dbg (2 ^ b) mats z pk gen1 gen2 x.1.1 x.1.2 (clientTape x) = .ok ((List.range (4 * 2 ^ b)).map ins) ∧
      (∀ v, AlwaysYields (Net.init fun i : Fin (4 * 2 ^ b) => (((σ v i).spoil (ins i)).run pp dbg (4 * 2 ^ b) i rng).recorded)
        (fun i => (O v i, V v i))) ∧
      (∀ v p, p < 4 * 2 ^ b → p ≠ 0 → (V v p).length = 12) ∧
      (∀ v v' p, p < 4 * 2 ^ b → p ≠ 0 → ∀ j ≤ 12, (∀ k < j, ∀ p, SameAt k (σ v p) (σ v' p)) → (V v p).take j = (V v' p).take j) ∧
      ∀ v v' p, p < 4 * 2 ^ b → (∀ k < 12, ∀ p, SameAt k (σ v p) (σ v' p)) → O v p = O v' p := by
  obtain ⟨ins, e, h⟩ := session_follow hpp hgen dbg a ha hcirc pk hk hal gen1 gen2 x.1.1 x.1.2 (clientTape x) rng
  have hr0 : ∀ p < 4 * 2 ^ b, (ins p).r ≠ 0 := by
    intro p hp
    obtain ⟨-, -, -, h, -⟩ := deal_parts (e ▸ partOf_range ins hp)
    rw [pack_fresh hpp, partOf_range _ hp] at h
    rw [← Option.some.inj h]
    exact hx _ (pack_fresh hpp dbg x.1.1 (clientTape x).r) _ (List.mem_map.2 ⟨p, List.mem_range.2 hp, rfl⟩)
  have one := fun v => h hr0 (σ v) (σ v) (fun e => hσ e v) fun e => hσ e v
  choose outs _ views _ hy _ _ _ using one
  let V : Holding F G1 G2 k → Nat → Transcript := fun v p => if h : p < 4 * 2 ^ b then views v ⟨p, h⟩ else []
  have hV : ∀ v p (hp : p < 4 * 2 ^ b), V v p = views v ⟨p, hp⟩ := fun v p hp => by simp only [V]; rw [dif_pos hp]
  have two : ∀ v v', (∀ i : Fin (4 * 2 ^ b), i.val ≠ 0 → (views v i).length = 12 ∧ (views v' i).length = 12 ∧
      ∀ j ≤ 12, (∀ k < j, ∀ p, SameAt k (σ v p) (σ v' p)) → (views v i).take j = (views v' i).take j) ∧
      ((∀ k < 12, ∀ p, SameAt k (σ v p) (σ v' p)) → ∀ i : Fin (4 * 2 ^ b), outs v i = outs v' i) := by
    intro v v'
    obtain ⟨o, o', w, w', h1, h2, h3, h4⟩ := h hr0 (σ v) (σ v') (fun e => hσ e v) fun e => hσ e v'
    have u := AlwaysYields.unique h1 (hy v)
    have u' := AlwaysYields.unique h2 (hy v')
    have a1 : ∀ i : Fin (4 * 2 ^ b), o i = outs v i ∧ w i = views v i := fun i => Prod.mk.inj (congrFun u i)
    have a2 : ∀ i : Fin (4 * 2 ^ b), o' i = outs v' i ∧ w' i = views v' i := fun i => Prod.mk.inj (congrFun u' i)
    refine ⟨fun i hi => ?_, fun hs i => ?_⟩
    · rw [← (a1 i).2, ← (a2 i).2]
      exact h3 i hi
    · rw [← (a1 i).1, ← (a2 i).1, h4 hs]
  refine ⟨ins, outs, V, e, fun v => ?_, fun v p hp h0 => ?_, fun v v' p hp h0 => ?_, fun v v' p hp hs => ?_⟩
  · have := hy v
    simpa only [hV v _ (Fin.is_lt _)] using this
  · rw [hV v p hp]
    exact ((two v v).1 ⟨p, hp⟩ h0).1
  · rw [hV v p hp, hV v' p hp]
    exact ((two v v').1 ⟨p, hp⟩ h0).2.2
  · exact (two v v').2 hs ⟨p, hp⟩

/-- **C110** Strategies that choose each message by what the servers are dealt and by the answers to the messages before decide the course of every
session. -/
theorem C110_decided : Decided pp dbg b mats z pk gen1 gen2 rng P σ N := by
  intro x v v' hx hv hv'
  obtain ⟨ins, O, V, hd, hy, hl, ht, ho⟩ := session_holding hpp hgen dbg a ha hcirc pk hk hal gen1 gen2 rng σ hσ x hx
  have is : ∀ {v}, Comes pp dbg b mats z pk gen1 gen2 rng P σ x v → (∀ i, v.dealt i = ins (P i)) ∧ (∀ i, v.sent i = V v (P i)) ∧
      ∀ i, v.answers i = O v (P i) := by
    rintro v ⟨I, outs, views, hd', hy', q1, q2, q3⟩
    have hI : ∀ p < 4 * 2 ^ b, I p = ins p := fun p hp => List.map_inj_left.1 (Except.ok.inj (hd'.symm.trans hd)) p (List.mem_range.2 hp)
    have hy'' : AlwaysYields (Net.init fun i : Fin (4 * 2 ^ b) => (((σ v i).spoil (ins i)).run pp dbg (4 * 2 ^ b) i rng).recorded)
        (fun i => (outs i, views i)) := by
      refine cast ?_ hy'
      congr 2
      funext i
      rw [hI i i.2]
    have hu := AlwaysYields.unique hy'' (hy v)
    exact ⟨fun i => (q1 i).trans (hI _ (hlt i)), fun i => (q2 i).trans (Prod.mk.inj (congrFun hu ⟨P i, hlt i⟩)).2,
      fun i => (q3 i).trans (Prod.mk.inj (congrFun hu ⟨P i, hlt i⟩)).1⟩
  obtain ⟨d1, d2, d3⟩ := is hv
  obtain ⟨e1, e2, e3⟩ := is hv'
  have hdealt : v.dealt = v'.dealt := funext fun i => (d1 i).trans (e1 i).symm
  have same : ∀ j ≤ 12, ∀ k < j, ∀ p, SameAt k (σ v p) (σ v' p) := by
    intro j
    induction j with
    | zero => intro _ k hk; omega
    | succ j ih =>
      intro hj k hk p
      by_cases hkj : k < j
      · exact ih (by omega) k hkj p
      · obtain rfl : k = j := by omega
        refine hcausal v v' hdealt k (by omega) (fun i => ?_) p
        rw [d2, e2]
        exact ht v v' _ (hlt i) (hking i) k (by omega) (ih (by omega))
  have hs := same 12 le_rfl
  have hsent : v.sent = v'.sent := funext fun i => by
    have := ht v v' _ (hlt i) (hking i) 12 le_rfl hs
    rw [List.take_of_length_le (by rw [hl v _ (hlt i) (hking i)]), List.take_of_length_le (by rw [hl v' _ (hlt i) (hking i)])] at this
    rw [d2, e2, this]
  have hans : v.answers = v'.answers := funext fun i => by rw [d3, e3, ho v v' _ (hlt i) hs]
  cases v
  cases v'
  simp only at hdealt hsent hans
  rw [hdealt, hsent, hans]

/-- **C110** And such a strategy can be played: whenever no share of `r` is zero, the servers have something of the session in the end. -/
theorem C110_plays (x : Draws F G1 G2 N) (hx : NoZeroShare pp dbg b x) : ∃ v, Comes pp dbg b mats z pk gen1 gen2 rng P σ x v := by
  obtain ⟨ins, O, V, hd, hy, hl, ht, ho⟩ := session_holding hpp hgen dbg a ha hcirc pk hk hal gen1 gen2 rng σ hσ x hx
  -- from the errors for some holding to the holding with these errors
  let next : Holding F G1 G2 k → Holding F G1 G2 k := fun v => ⟨fun i => ins (P i), fun i => V v (P i), fun i => O v (P i)⟩
  let w : Nat → Holding F G1 G2 k := fun n => next^[n + 1] ⟨fun i => ins (P i), fun _ => [], fun _ => 0⟩
  have hw : ∀ n, w (n + 1) = next (w n) := fun n => Function.iterate_succ_apply' next (n + 1) _
  have hdealt : ∀ n, (w n).dealt = fun i => ins (P i) := fun n => by
    simp only [w, Function.iterate_succ_apply']
    rfl
  have same : ∀ n ≤ 12, ∀ k < n, ∀ p, SameAt k (σ (w n) p) (σ (w (n + 1)) p) := by
    intro n
    induction n with
    | zero => intro _ k hk; omega
    | succ n ih =>
      intro hn k hk p
      refine hcausal _ _ ((hdealt _).trans (hdealt _).symm) k (by omega) (fun i => ?_) p
      rw [hw n, hw (n + 1)]
      exact ht _ _ _ (hlt i) (hking i) k (by omega) fun m hm => ih (by omega) m (by omega)
  have hs := same 12 le_rfl
  have fix : next (w 12) = w 13 := (hw 12).symm
  have hsent : ∀ i, V (w 12) (P i) = V (w 13) (P i) := fun i => by
    have := ht (w 12) (w 13) _ (hlt i) (hking i) 12 le_rfl hs
    rwa [List.take_of_length_le (by rw [hl _ _ (hlt i) (hking i)]), List.take_of_length_le (by rw [hl _ _ (hlt i) (hking i)])] at this
  refine ⟨w 13, ins, O (w 13), V (w 13), hd, hy (w 13), fun i => by rw [hdealt], fun i => ?_, fun i => ?_⟩
  · rw [← hsent i, ← fix]
  · rw [← ho (w 12) (w 13) _ (hlt i) hs, ← fix]

end

section
variable [Finite F] [Finite G1] [Finite G2] {dbg₀ : Bool} {b : Nat} {pp : PSS F} (hpp : PSS.new dbg₀ (2 ^ b) = .ok pp)
  (hgen : (FftField.GENERATOR : F) ^ (4 * 2 ^ b) ≠ 1) (dbg : Bool) (a : Nat) (ha : a < 64)
  {mats : ConstraintMatrices F} {z z' : List F} {dom dom2 : Domain F} (hcirc : Circuit a b mats z dom dom2)
  (hcirc' : Circuit a b mats z' dom dom2) (hz : z.length = z'.length) (pk : ProvingKey G1 G2)
  (hk : KeyFits z.length mats.numInstanceVariables (2 ^ (a + b)) pk) (hal : dbg = true → KeyAligned (2 ^ b) pk) (gen1 : G1) (gen2 : G2)
  (hspan1 : ∀ g : G1, ∃ c : F, c • gen1 = g) (hspan2 : ∀ g : G2, ∃ c : F, c • gen2 = g)
  (rng : Nat → Nat → Nat → F) (P : Fin (2 ^ b) → Nat) (hinj : Function.Injective P) (hlt : ∀ i, P i < 4 * 2 ^ b) (hking : ∀ i, P i ≠ 0)
  {N : Nat} (hN : 2 ^ (a + b) ≤ N) (hzN : z.length ≤ N)
  (σ : Holding F G1 G2 (2 ^ b) → Nat → Errors F G1 G2) (hσ : dbg = true → ∀ v, Passes pp b (σ v)) (hcausal : Causal σ)
include hpp hgen ha hcirc hcirc' hz hk hal hspan1 hspan2 hinj hlt hking hN hzN hσ hcausal

omit hcirc' hz hspan1 hspan2 hinj hzN in
/-- **C110** Sessions against such strategies end but for a share of `4l / |F|` of the draws. -/
theorem C110_ends : prob (fun x => gained (N := N) pp dbg b mats z pk gen1 gen2 rng P σ x = none) ≤ 4 * 2 ^ b / Nat.card F := by
  have := Fintype.ofFinite F
  have := Fintype.ofFinite G1
  have := Fintype.ofFinite G2
  have hb : 2 ^ b ≤ N := le_trans (Nat.pow_le_pow_right (by norm_num) (by omega)) hN
  refine (prob_mono fun x hx => ?_).trans (prob_zeroShare (G1 := G1) (G2 := G2) hpp hgen dbg hb)
  by_contra hn
  rw [gained, dif_pos (C110_plays hpp hgen dbg a ha hcirc pk hk hal gen1 gen2 rng P hlt hking σ hσ hcausal x (noZeroShare hpp hn))] at hx
  exact absurd hx (by simp)

/-- **C110** The servers `P` who choose each wrong message by what they are dealt and by the answers to the messages before tell two assignments apart
with an advantage of at most `4l / |F|`. -/
theorem C110_session :
    Close (4 * 2 ^ b / Nat.card F) (gained (N := N) pp dbg b mats z pk gen1 gen2 rng P σ) (gained (N := N) pp dbg b mats z' pk gen1 gen2 rng P σ) :=
  C109_session hpp hgen dbg a ha hcirc hcirc' hz pk hk hal gen1 gen2 hspan1 hspan2 rng P hinj hlt hking hN hzN σ hσ
    (C110_decided hpp hgen dbg a ha hcirc pk hk hal gen1 gen2 rng P hlt hking σ hσ hcausal)
    (C110_decided hpp hgen dbg a ha hcirc' pk (hz ▸ hk) hal gen1 gen2 rng P hlt hking σ hσ hcausal)

end

end servers

/-- A strategy of the servers 3 and 6: in the transforms they add to the entry `c` of a message `c` plus the number of answers so far to server 6 that
begin with a zero byte; in the rest they go by what they hold and by the number and the lengths of the answers so far. -/
def sly17 (v : Holding (ZMod 17) (ZMod 17) (ZMod 17) (2 ^ 1)) (p : Nat) : Errors (ZMod 17) (ZMod 17) (ZMod 17) :=
  if p = 3 ∨ p = 6 then
    ⟨fun j c => c + ((v.sent 1).take j).countP (fun m => m.2.head? = some 0), fun c => (v.dealt 1).ax.getD c 0 + ((v.sent 0).take 6).length,
      fun k => (v.dealt 0).r * ((v.sent 0).take 7).length + k, (((v.sent 0).take 9).map fun m => m.2.length).sum⟩
  else ⟨0, 0, 0, 0⟩

theorem sly17_causal : Causal sly17 := by
  intro v v' hd j hj hs p
  have take : ∀ i m, m ≤ j → (v.sent i).take m = (v'.sent i).take m := fun i m hm => by
    have := congrArg (List.take m) (hs i)
    rwa [List.take_take, List.take_take, min_eq_left hm] at this
  unfold sly17
  split_ifs
  · refine ⟨fun _ => ?_, fun h => ?_, fun h => ?_, fun h => ?_, fun h => ?_, fun h => ?_, fun h => ?_⟩ <;> dsimp only
    · simp only [hs]
    · simp only [hd, take 0 6 (by omega)]
    · simp only [hd, take 0 7 (by omega)]
    · simp only [hd, take 0 7 (by omega)]
    · simp only [take 0 9 (by omega)]
    · simp only [hd, take 0 7 (by omega)]
    · simp only [hd, take 0 7 (by omega)]
  · exact ⟨fun _ => rfl, fun _ => rfl, fun _ => rfl, fun _ => rfl, fun _ => rfl, fun _ => rfl, fun _ => rfl⟩

/-- C110: servers 3 and 6 of a release build choose what to add to each message by the answers to the messages before. -/
example (rng : Nat → Nat → Nat → ZMod 17) : ∃ pk : ProvingKey (ZMod 17) (ZMod 17),
    prob (fun x => gained (N := 6) pp17 false 1 mats17 z17 pk 1 1 rng pair17 sly17 x = none) ≤ 8 / 17 ∧
    Close (8 / 17) (gained (N := 6) pp17 false 1 mats17 z17 pk 1 1 rng pair17 sly17)
      (gained (N := 6) pp17 false 1 mats17 [1, 9, 14] pk 1 1 rng pair17 sly17) := by
  obtain ⟨pa, pb, pc, pk, h1, h2⟩ := C35_key_exists circuit17 (⟨2, 3, 4, 5, 6⟩ : Toxic (ZMod 17)) (1 : ZMod 17) (1 : ZMod 17)
  have e : (4 * 2 ^ 1 / (Nat.card (ZMod 17) : ℚ)) = 8 / 17 := by
    rw [Nat.card_eq_fintype_card, ZMod.card]
    norm_num
  refine ⟨pk, ?_, ?_⟩
  · rw [← e]
    exact C110_ends (pp17_eq true) gen17 false 1 (by norm_num) circuit17 pk (KeyFits.of_key h2) (by simp) 1 1 rng pair17 pair17_lt (by decide)
      (by decide) sly17 (by simp) sly17_causal
  · rw [← e]
    exact C110_session (pp17_eq true) gen17 false 1 (by norm_num) circuit17 circuit17' rfl pk (KeyFits.of_key h2) (by simp) 1 1
      (fun g => ⟨g, by simp⟩) (fun g => ⟨g, by simp⟩) rng pair17 pair17_inj pair17_lt (by decide) (by decide) (by decide) sly17 (by simp) sly17_causal

end ZkSaas.Properties
