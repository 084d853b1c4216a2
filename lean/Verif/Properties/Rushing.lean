import Verif.Spec.Rushing
import Verif.Properties.Bn254Cheats

/-!
# C113: servers who also choose in which order they send
-/

set_option linter.unusedSectionVars false

namespace ZkSaas.Properties

open Finset Polynomial Spec

/-! ### Two runs that are alike in some messages -/

section track

variable {n : Nat} {α β γ δ : Type} {S : Sid → Prop} {H : Nat → Prop}

/-- Two runs in which every party but the king receives `m` messages. If `H j`, the message `j` is the same in both; if `K`, the runs end alike. -/
def Track (S : Sid → Prop) (H : Nat → Prop) (K : Prop) (m : Nat) (ps ps' : Fin n → Proc α) (R : (Nat → α) → Prop) : Prop :=
  ∃ (outs outs' : Nat → α) (vs vs' : Fin n → Transcript), RunsV All S ps (fun i => outs i) vs ∧ RunsV All S ps' (fun i => outs' i) vs' ∧
    (∀ i, i.val ≠ 0 → (vs i).length = m ∧ (vs' i).length = m ∧ ∀ j < m, H j → (vs i)[j]? = (vs' i)[j]?) ∧ R outs ∧ R outs' ∧
    (K → outs = outs')

theorem Track.one {ps ps' : Fin n → Proc α} {R : (Nat → α) → Prop} (h : Single S ps R) (h' : Single S ps' R) (he : H 0 → ps = ps') :
    Track S H (H 0) 1 ps ps' R := by
  by_cases hH : H 0
  · obtain rfl := he hH
    obtain ⟨o, vs, r, l, h⟩ := h
    exact ⟨o, o, vs, vs, r, r, fun i hi => ⟨l i hi, l i hi, fun _ _ _ => rfl⟩, h, h, fun _ => rfl⟩
  · obtain ⟨o, vs, r, l, h⟩ := h
    obtain ⟨o', vs', r', l', h'⟩ := h'
    refine ⟨o, o', vs, vs', r, r', fun i hi => ⟨l i hi, l' i hi, fun j hj hj' => ?_⟩, h, h', fun h => absurd h hH⟩
    obtain rfl : j = 0 := by omega
    exact absurd hj' hH

theorem Track.done {K : Prop} {R : (Nat → α) → Prop} (o o' : Nat → α) (h : R o) (h' : R o') (he : K → o = o') :
    Track (n := n) S H K 0 (fun i => .done (.ok (o i))) (fun i => .done (.ok (o' i))) R :=
  ⟨o, o', _, _, RunsV.done _, RunsV.done _, fun _ _ => ⟨rfl, rfl, fun _ h _ => by omega⟩, h, h', he⟩

theorem Track.congr {K : Prop} {m : Nat} {ps ps' qs qs' : Fin n → Proc α} {R : (Nat → α) → Prop} (h : Track S H K m ps ps' R) (hp : ∀ i, qs i = ps i)
    (hp' : ∀ i, qs' i = ps' i) : Track S H K m qs qs' R := by
  obtain ⟨o, o', vs, vs', r, r', h⟩ := h
  exact ⟨o, o', vs, vs', r.congr hp (fun _ => rfl) fun _ => rfl, r'.congr hp' (fun _ => rfl) fun _ => rfl, h⟩

theorem nth_two {A : Type} {a a' b b' : List A} {m m' : Nat}
    (h : a.length = m ∧ a'.length = m ∧ ∀ j < m, H j → a[j]? = a'[j]?)
    (k : b.length = m' ∧ b'.length = m' ∧ ∀ j < m', H (m + j) → b[j]? = b'[j]?) :
    (a ++ b).length = m + m' ∧ (a' ++ b').length = m + m' ∧ ∀ j < m + m', H j → (a ++ b)[j]? = (a' ++ b')[j]? := by
  obtain ⟨l, l', h⟩ := h
  obtain ⟨q, q', k⟩ := k
  refine ⟨by simp [l, q], by simp [l', q'], fun j hj hH => ?_⟩
  by_cases hm : j < m
  · rw [List.getElem?_append_left (by omega), List.getElem?_append_left (by omega), h j hm hH]
  · rw [List.getElem?_append_right (by omega), List.getElem?_append_right (by omega), l, l',
      k (j - m) (by omega) (by rwa [Nat.add_sub_of_le (by omega)])]

theorem Track.bind {K K' : Prop} {S1 : Sid → Prop} {m m' : Nat} {ps ps' : Fin n → Proc α} {R : (Nat → α) → Prop}
    (h : Track S1 H K m ps ps' R) (h1 : ∀ x, S1 x → S x) {f f' : Fin n → α → Proc β} {Q : (Nat → β) → Prop}
    (hf : ∀ o o', R o → R o' → (K → o = o') → Track S (fun j => H (m + j)) K' m' (fun i => f i (o i)) (fun i => f' i (o' i)) Q) :
    Track S H K' (m + m') (fun i => (ps i).bind (f i)) (fun i => (ps' i).bind (f' i)) Q := by
  obtain ⟨o, o', vs, vs', r, r', hv, h, h', he⟩ := h
  obtain ⟨u, u', ws, ws', q, q', hw, k, k', hk⟩ := hf o o' h h' he
  exact ⟨u, u', _, _, (r.mono h1).bind q, (r'.mono h1).bind q', fun i hi => nth_two (hv i hi) (hw i hi), k, k', hk⟩

theorem Track.par {K K1 K2 : Prop} {S1 S2 : Sid → Prop} {m m1 m2 : Nat} {ps ps' : Fin n → Proc α} {R : (Nat → α) → Prop}
    (h : Track S1 H K m ps ps' R) {qs qs' : Fin n → Proc β} {Q : (Nat → β) → Prop} (g : Track S2 (fun j => H (m + j)) K1 m1 qs qs' Q)
    (h1 : ∀ x, S1 x → S x) (h2 : ∀ x, S2 x → S x) {k k' : Fin n → α → β → Proc γ} {U : (Nat → γ) → Prop}
    (hk : ∀ o o' u u', R o → R o' → (K → o = o') → Q u → Q u' → (K1 → u = u') →
      Track S (fun j => H (m + (m1 + j))) K2 m2 (fun i => k i (o i) (u i)) (fun i => k' i (o' i) (u' i)) U) :
    Track S H K2 (m + (m1 + m2)) (fun i => .par (ps i) (qs i) (k i)) (fun i => .par (ps' i) (qs' i) (k' i)) U := by
  obtain ⟨o, o', vs, vs', r, r', hv, h, h', he⟩ := h
  obtain ⟨u, u', ws, ws', q, q', hw, g, g', hg⟩ := g
  obtain ⟨x, x', xs, xs', t, t', hx, k, k', hk⟩ := hk o o' u u' h h' he g g' hg
  exact ⟨x, x', _, _, r.par q h1 h2 t, r'.par q' h1 h2 t',
    fun i hi => nth_two (hv i hi) (nth_two (H := fun j => H (m + j)) (hw i hi) (hx i hi)), k, k', hk⟩

theorem Track.tryJoin3 {K K1 K2 K3 : Prop} {S0 S1 S2 : Sid → Prop} {m m1 m2 m3 : Nat} {ps ps' : Fin n → Proc α} {R : (Nat → α) → Prop}
    (h : Track S0 H K m ps ps' R) {qs qs' : Fin n → Proc β} {Q : (Nat → β) → Prop} (g : Track S1 (fun j => H (m + j)) K1 m1 qs qs' Q)
    {us us' : Fin n → Proc γ} {U : (Nat → γ) → Prop} (w : Track S2 (fun j => H (m + (m1 + j))) K2 m2 us us' U)
    (h0 : ∀ x, S0 x → S x) (h1 : ∀ x, S1 x → S x) (h2 : ∀ x, S2 x → S x) {k k' : Fin n → α → β → γ → Proc δ} {V : (Nat → δ) → Prop}
    (hk : ∀ o o' u u' y y', R o → R o' → (K → o = o') → Q u → Q u' → (K1 → u = u') → U y → U y' → (K2 → y = y') →
      Track S (fun j => H (m + (m1 + (m2 + j)))) K3 m3 (fun i => k i (o i) (u i) (y i)) (fun i => k' i (o' i) (u' i) (y' i)) V) :
    Track S H K3 (m + (m1 + (m2 + m3))) (fun i => tryJoin3 (ps i) (qs i) (us i) (k i)) (fun i => tryJoin3 (ps' i) (qs' i) (us' i) (k' i)) V := by
  obtain ⟨o, o', vs, vs', r, r', hv, h, h', he⟩ := h
  obtain ⟨u, u', ws, ws', q, q', hw, g, g', hg⟩ := g
  obtain ⟨y, y', ts, ts', e, e', ht, w, w', hy⟩ := w
  obtain ⟨x, x', xs, xs', t, t', hx, k, k', hk⟩ := hk o o' u u' y y' h h' he g g' hg w w' hy
  exact ⟨x, x', _, _, r.tryJoin3 q e h0 h1 h2 t, r'.tryJoin3 q' e' h0 h1 h2 t', fun i hi =>
    nth_two (hv i hi) (nth_two (H := fun j => H (m + j)) (hw i hi) (nth_two (H := fun j => H (m + (m1 + j))) (ht i hi) (hx i hi))), k, k', hk⟩

end track

variable {F : Type} [Field F] [FftField F] [DecidableEq F] [FixedWire F]

theorem circomH_track {dbg₀ : Bool} {b : Nat} {pp : PSS F} (hpp : PSS.new dbg₀ (2 ^ b) = .ok pp)
    (hgen : (FftField.GENERATOR : F) ^ (4 * 2 ^ b) ≠ 1) (dbg : Bool) (a : Nat)
    (ha : a < 64) {dom dom2 : Domain F} (hdom : Domain.new (2 ^ (a + b)) = some dom)
    (hdom2 : Domain.new (2 ^ (a + b + 1)) = some dom2) {xa xb xc : Nat → F} {e e' : Nat → Nat → Nat → F} {f f' : Nat → Nat → F}
    (he : dbg = true → ∀ k c, ∑ p ∈ range (4 * 2 ^ b), pp.share.groupGen ^ p • e p k c = 0)
    (hf : dbg = true → ∀ c, ∑ p ∈ range (4 * 2 ^ b), pp.share.groupGen ^ p • f p c = 0)
    (he' : dbg = true → ∀ k c, ∑ p ∈ range (4 * 2 ^ b), pp.share.groupGen ^ p • e' p k c = 0)
    (hf' : dbg = true → ∀ c, ∑ p ∈ range (4 * 2 ^ b), pp.share.groupGen ^ p • f' p c = 0)
    {H : Nat → Prop} (anti : ∀ j k, roundOf k < roundOf j → H j → H k) (hH : ∀ k < 6, H k → ∀ p, e p k = e' p k) (hH6 : H 6 → f = f')
    (tf : Nat → VecTape F) (td : VecTape F) (rng : Nat → Nat → Nat → F) {q : Nat → PackedQAPShare F}
    {masks masks' : Nat → Nat → FftMask F} (hq : SharesProgram pp a b dom q xa xb xc)
    (hm : CircomSpoiled pp a b dom2.groupGen dom e tf masks) (hm' : CircomSpoiled pp a b dom2.groupGen dom e' tf masks') :
    Track (fun _ => True) H (H 6) 7
      (fun i : Fin (4 * 2 ^ b) => pp.circomH dbg (4 * 2 ^ b) i (q i) (masks i) (spoilDeg (pp.degDealt (2 ^ a) td i) (f i)) rng)
      (fun i : Fin (4 * 2 ^ b) => pp.circomH dbg (4 * 2 ^ b) i (q i) (masks' i) (spoilDeg (pp.degDealt (2 ^ a) td i) (f' i)) rng)
      (fun o => ∃ y : List F, y.length = 2 ^ (a + b) ∧ HoldsChunks pp b o y) := by
  have hle := l_eq hpp
  have hg := PSS.good_of_new hpp
  have hl := hg.lpos
  obtain ⟨hwf, hoff, -, hsize⟩ := Domain.new_pow2 hdom
  obtain ⟨-, hoff2, -, hsize2⟩ := Domain.new_pow2 hdom2
  have hprim : IsPrimitiveRoot dom.groupGen (2 ^ (a + b)) := by rw [← hsize]; exact hwf.prim
  have hprim' : IsPrimitiveRoot dom.groupGenInv (2 ^ (a + b)) := by rw [hwf.ginv]; exact hprim.inv
  obtain ⟨hq, hqa, hqb, hqc⟩ := hq
  obtain ⟨hm1, hm2⟩ := hm
  obtain ⟨hm1', hm2'⟩ := hm'
  have hb0 : 0 < 2 ^ b := by positivity
  have herr : ∀ (f : Nat → Nat → F) c, (errSec pp b fun p => f p c) = packed false a b (errVec pp b f) c := by
    intro f c
    apply list_ext_getD 0 (by simp [errSec, packed])
    intro j hj
    have hj : j < 2 ^ b := by simpa [errSec] using hj
    rw [packed, getD_map_range, if_pos hj, slot, if_neg (by simp), errVec, show (c * 2 ^ b + j) / 2 ^ b = c by
      rw [Nat.mul_comm, Nat.mul_add_div hb0, Nat.div_eq_of_lt hj, Nat.add_zero], show (c * 2 ^ b + j) % 2 ^ b = j by
      rw [Nat.mul_comm, Nat.mul_add_mod, Nat.mod_eq_of_lt hj]]
  have unfolded : ∀ (masks : Nat → Nat → FftMask F) (dm : Nat → DegRedMask F),
      ∀ i : Fin (4 * 2 ^ b), pp.circomH dbg (4 * 2 ^ b) i (q i) (masks i) (dm i) rng =
    tryJoin3 (pp.dIfft dbg (4 * 2 ^ b) i (q i).a (masks i 0) true dom dom2.groupGen .zero (rng 0))
      (pp.dIfft dbg (4 * 2 ^ b) i (q i).b (masks i 1) true dom dom2.groupGen .one (rng 1))
      (pp.dIfft dbg (4 * 2 ^ b) i (q i).c (masks i 2) true dom dom2.groupGen .two (rng 2)) fun aCoeff bCoeff cCoeff =>
    tryJoin3 (pp.dFft dbg (4 * 2 ^ b) i aCoeff (masks i 3) false dom .zero (rng 3))
      (pp.dFft dbg (4 * 2 ^ b) i bCoeff (masks i 4) false dom .one (rng 4))
      (pp.dFft dbg (4 * 2 ^ b) i cCoeff (masks i 5) false dom .two (rng 5)) fun aEval bEval cEval =>
    pp.degRed dbg (4 * 2 ^ b) i (List.zipWith (fun ab c => ab.1 * ab.2 - c) (List.zip aEval bEval) cEval) (dm i) .zero (rng 6) := by
    intro masks dm i
    have hroot : dom2.element 1 = dom2.groupGen := by rw [Domain.element, hoff2, one_mul, pow_one]
    rw [PSS.circomH, hq i i.2, hsize, ← pow_succ', hdom2, ← hroot]
    rfl
  have deg : ∀ (f : Nat → Nat → F), (dbg = true → ∀ c, ∑ p ∈ range (4 * 2 ^ b), pp.share.groupGen ^ p • f p c = 0) → ∀ {sh : Nat → List F},
      (∃ y, pp.SharedVec (4 * pp.l - 1) (2 ^ a) sh (packed false a b y)) →
      Single (fun _ => True) (fun i : Fin (4 * 2 ^ b) => pp.degRed dbg (4 * 2 ^ b) i (sh i) (spoilDeg (pp.degDealt (2 ^ a) td i) (f i)) .zero (rng 6))
        (fun o => ∃ y : List F, y.length = 2 ^ (a + b) ∧ HoldsChunks pp b o y) := by
    rintro f hf sh ⟨y, hy⟩
    obtain ⟨v0, r, h⟩ := degRed_view_err hpp hgen dbg (N := 2 ^ a) (by positivity) (Nat.pow_lt_pow_right (by omega) ha) (by omega) le_rfl hy hf td .zero
      (rng 6)
    have hs : Single (only .zero)
        (fun i : Fin (4 * 2 ^ b) => pp.degRed dbg (4 * 2 ^ b) i (sh i) (spoilDeg (pp.degDealt (2 ^ a) td i) (f i)) .zero (rng 6))
        (fun o => pp.SharedVec (2 * pp.l) (2 ^ a) o fun c => List.zipWith (· + ·) (packed false a b y c) (errSec pp b fun p => f p c)) :=
      ⟨fun i => addMask _ (pp.degDealt (2 ^ a) td i).outMask, _, r, fun i hi => by rw [if_neg hi]; rfl, h⟩
    refine (hs.mono fun _ _ => trivial).imp fun o h => ⟨(List.range (2 ^ (a + b))).map fun i => y i + errVec pp b f i, by simp, ?_⟩
    refine HoldsOutput.chunks (a := a) ⟨by simp, ?_⟩
    rw [← hle]
    refine SharedVec.congr h (fun _ _ => rfl) fun c hc => ?_
    rw [herr, packed_zipWith]
    refine packed_congr _ hc fun i hi => ?_
    rw [getD_map_range, if_pos hi]
  refine Track.congr ?_ (unfolded masks fun p => spoilDeg (pp.degDealt (2 ^ a) td p) (f p))
    (unfolded masks' fun p => spoilDeg (pp.degDealt (2 ^ a) td p) (f' p))
  have k0 := fun i => hm1 i 0 (by omega)
  have k1 := fun i => hm1 i 1 (by omega)
  have k2 := fun i => hm1 i 2 (by omega)
  have k3 := fun i => hm2 i 0 (by omega)
  have k4 := fun i => hm2 i 1 (by omega)
  have k5 := fun i => hm2 i 2 (by omega)
  have k0' := fun i => hm1' i 0 (by omega)
  have k1' := fun i => hm1' i 1 (by omega)
  have k2' := fun i => hm1' i 2 (by omega)
  have k3' := fun i => hm2' i 0 (by omega)
  have k4' := fun i => hm2' i 1 (by omega)
  have k5' := fun i => hm2' i 2 (by omega)
  simp only [Nat.add_zero, Nat.reduceAdd] at k3 k4 k5 k3' k4' k5'
  simp only [k0, k1, k2, k3, k4, k5, k0', k1', k2', k3', k4', k5']
  have ifft : ∀ (e : Nat → Nat → Nat → F), (dbg = true → ∀ k c, ∑ p ∈ range (4 * 2 ^ b), pp.share.groupGen ^ p • e p k c = 0) → ∀ k t sid rng
      {sh : Nat → List F}, (∃ x, pp.SharedVec (2 * pp.l) (2 ^ a) sh (packed true a b x)) → _ := fun e he k t sid rng {sh} hsh =>
    dIfft_single hpp hgen dbg ha hsize hprim' (e := fun p => e p k) (fun h => he h k) dom2.groupGen true t sid rng hsh
  have fft : ∀ (e : Nat → Nat → Nat → F), (dbg = true → ∀ k c, ∑ p ∈ range (4 * 2 ^ b), pp.share.groupGen ^ p • e p k c = 0) → ∀ k t sid rng
      {sh : Nat → List F}, (∃ x, pp.SharedVec (2 * pp.l) (2 ^ a) sh (packed true a b x)) → _ := fun e he k t sid rng {sh} hsh =>
    dFft_single hpp hgen dbg ha hsize hprim (e := fun p => e p k) (fun h => he h k) false t sid rng hsh
  refine Track.tryJoin3 (m := 1) (m1 := 1) (m2 := 1) (m3 := 4)
    (Track.one (ifft e he 0 (tf 0) .zero (rng 0) ⟨_, hqa⟩) (ifft e' he' 0 (tf 0) .zero (rng 0) ⟨_, hqa⟩) fun h => by simp only [hH 0 (by omega) h])
    (Track.one (ifft e he 1 (tf 1) .one (rng 1) ⟨_, hqb⟩) (ifft e' he' 1 (tf 1) .one (rng 1) ⟨_, hqb⟩) fun h => by simp only [hH 1 (by omega) h])
    (Track.one (ifft e he 2 (tf 2) .two (rng 2) ⟨_, hqc⟩) (ifft e' he' 2 (tf 2) .two (rng 2) ⟨_, hqc⟩) fun h => by simp only [hH 2 (by omega) h])
    (fun _ _ => trivial) (fun _ _ => trivial) (fun _ _ => trivial) ?_
  intro oa oa' ob ob' oc oc' ra ra' ea rb rb' eb rc rc' ec
  refine Track.tryJoin3 (m := 1) (m1 := 1) (m2 := 1) (m3 := 1)
    (Track.one (fft e he 3 (tf 3) .zero (rng 3) ra) (fft e' he' 3 (tf 3) .zero (rng 3) ra') fun h => by
      simp only [hH 3 (by omega) h, ea (anti 3 0 (by decide) h)])
    (Track.one (fft e he 4 (tf 4) .one (rng 4) rb) (fft e' he' 4 (tf 4) .one (rng 4) rb') fun h => by
      simp only [hH 4 (by omega) h, eb (anti 4 1 (by decide) h)])
    (Track.one (fft e he 5 (tf 5) .two (rng 5) rc) (fft e' he' 5 (tf 5) .two (rng 5) rc') fun h => by
      simp only [hH 5 (by omega) h, ec (anti 5 2 (by decide) h)])
    (fun _ _ => trivial) (fun _ _ => trivial) (fun _ _ => trivial) ?_
  rintro pa pa' pb pb' pc pc' ⟨ya, ra⟩ ⟨ya', ra'⟩ ea ⟨yb, rb⟩ ⟨yb', rb'⟩ eb ⟨yc, rc⟩ ⟨yc', rc'⟩ ec
  refine Track.one (deg f hf ⟨_, SharedVec.mulSub hg hle false rfl ra rb rc⟩) (deg f' hf' ⟨_, SharedVec.mulSub hg hle false rfl ra' rb' rc'⟩) fun h => ?_
  simp only [hH6 h, ea (anti 6 3 (by decide) h), eb (anti 6 4 (by decide) h), ec (anti 6 5 (by decide) h)]

section groups

variable {G : Type} [AddCommGroup G] [Module F G] [DecidableEq G] [FixedWire G]

theorem proveA_track {dbg₀ : Bool} {b : Nat} {pp : PSS F} (hpp : PSS.new dbg₀ (2 ^ b) = .ok pp)
    (hgen : (FftField.GENERATOR : F) ^ (4 * 2 ^ b) ≠ 1) (dbg : Bool) (gen : G) {Q : List G} {z : List F} (hlen : z.length = Q.length) {e e' : Nat → G}
    (he : dbg = true → ∑ p ∈ range (4 * 2 ^ b), pp.share.groupGen ^ p • e p = 0)
    (he' : dbg = true → ∑ p ∈ range (4 * 2 ^ b), pp.share.groupGen ^ p • e' p = 0)
    {H : Nat → Prop} (hH : H 0 → e = e') (t : MsmTape F G) (sid : Sid) (L N AG : G) {Ssh : Nat → List G}
    {zsh : Nat → List F} (rsh : Nat → F) (hS : HoldsChunks pp b Ssh Q) (hz : HoldsChunks pp b zsh z) :
    Track (only sid) H (H 0) 1
      (fun i : Fin (4 * 2 ^ b) => pp.proveA dbg (4 * 2 ^ b) i L N AG (Ssh i) (zsh i) (rsh i) (spoiled (e i) (pp.msmDealt gen t i)) sid)
      (fun i : Fin (4 * 2 ^ b) => pp.proveA dbg (4 * 2 ^ b) i L N AG (Ssh i) (zsh i) (rsh i) (spoiled (e' i) (pp.msmDealt gen t i)) sid)
      (fun _ => True) := by
  refine Track.bind (m := 1) (m' := 0) (Track.one (dMsm_single hpp hgen dbg gen hlen he t sid hS hz)
    (dMsm_single hpp hgen dbg gen hlen he' t sid hS hz) fun h => by rw [hH h]) (fun _ h => h) fun o o' _ _ he => ?_
  exact Track.done (fun p => (L + rsh p • N) + o p + AG) (fun p => (L + rsh p • N) + o' p + AG) trivial trivial fun h => by rw [he h]

theorem proveC_track {dbg₀ : Bool} {b : Nat} {pp : PSS F} (hpp : PSS.new dbg₀ (2 ^ b) = .ok pp)
    (hgen : (FftField.GENERATOR : F) ^ (4 * 2 ^ b) ≠ 1) (dbg : Bool) (gen : G) {W U : List G} {ax h h' : List F} (hW : ax.length = W.length)
    (hU : h.length = U.length) (hU' : h'.length = U.length) {e f e' f' : Nat → G}
    (he : dbg = true → ∑ p ∈ range (4 * 2 ^ b), pp.share.groupGen ^ p • e p = 0)
    (hf : dbg = true → ∑ p ∈ range (4 * 2 ^ b), pp.share.groupGen ^ p • f p = 0)
    (he' : dbg = true → ∑ p ∈ range (4 * 2 ^ b), pp.share.groupGen ^ p • e' p = 0)
    (hf' : dbg = true → ∑ p ∈ range (4 * 2 ^ b), pp.share.groupGen ^ p • f' p = 0)
    {H : Nat → Prop} {K : Prop} (hH1 : H 0 → e = e') (hH2 : H 1 → f = f') (hK : K → H 0 ∧ H 1)
    (t u : MsmTape F G) (M : G) {Wsh Ush : Nat → List G} {axsh hsh hsh' : Nat → List F} (rsh ssh : Nat → F) {Ash Ash' Bsh Bsh' : Nat → G}
    (w : HoldsChunks pp b Wsh W) (u' : HoldsChunks pp b Ush U) (x : HoldsChunks pp b axsh ax) (y : HoldsChunks pp b hsh h)
    (y' : HoldsChunks pp b hsh' h') (eh : H 1 → hsh = hsh') (eA : K → Ash = Ash') (eB : K → Bsh = Bsh') :
    Track (fun _ => True) H K 2
      (fun i : Fin (4 * 2 ^ b) => pp.proveC dbg (4 * 2 ^ b) i (Ash i) (Bsh i) (ssh i) (rsh i) M (Wsh i) (Ush i) (axsh i) (hsh i)
        (spoiled (e i) (pp.msmDealt gen t i)) (spoiled (f i) (pp.msmDealt gen u i)))
      (fun i : Fin (4 * 2 ^ b) => pp.proveC dbg (4 * 2 ^ b) i (Ash' i) (Bsh' i) (ssh i) (rsh i) M (Wsh i) (Ush i) (axsh i) (hsh' i)
        (spoiled (e' i) (pp.msmDealt gen t i)) (spoiled (f' i) (pp.msmDealt gen u i)))
      (fun _ => True) := by
  refine Track.par (m := 1) (m1 := 1) (m2 := 0) (Track.one (dMsm_single hpp hgen dbg gen hW he t .zero w x)
      (dMsm_single hpp hgen dbg gen hW he' t .zero w x) fun h => by rw [hH1 h])
    (Track.one (dMsm_single hpp hgen dbg gen hU hf u .one u' y) (dMsm_single hpp hgen dbg gen hU' hf' u .one u' y') fun h => by
      rw [hH2 h, eh h]) (fun _ _ => trivial) (fun _ _ => trivial) ?_
  intro o o' v v' _ _ eo _ _ ev
  exact Track.done (fun p => ssh p • Ash p + rsh p • Bsh p - (rsh p * ssh p) • M + o p + v p)
    (fun p => ssh p • Ash' p + rsh p • Bsh' p - (rsh p * ssh p) • M + o' p + v' p) trivial trivial
    fun h => by rw [eA h, eB h, eo (hK h).1, ev (hK h).2]

end groups

section servers

variable {G1 G2 : Type} [AddCommGroup G1] [Module F G1] [DecidableEq G1] [FixedWire G1]
  [AddCommGroup G2] [Module F G2] [DecidableEq G2] [FixedWire G2]

theorem dsha256_track {dbg₀ : Bool} {b : Nat} {pp : PSS F} (hpp : PSS.new dbg₀ (2 ^ b) = .ok pp)
    (hgen : (FftField.GENERATOR : F) ^ (4 * 2 ^ b) ≠ 1) (dbg : Bool) (a : Nat)
    (ha : a < 64) {dom dom2 : Domain F} (hdom : Domain.new (2 ^ (a + b)) = some dom)
    (hdom2 : Domain.new (2 ^ (a + b + 1)) = some dom2) (gen1 : G1) (gen2 : G2) {xa xb xc : Nat → F}
    {crs : Nat → PackedProvingKeyShare G1 G2} {a0 b0 α1 β1 δ1 : G1} {v0 β2 δ2 : G2}
    (hpub : ∀ p, (crs p).aQuery0 = a0 ∧ (crs p).bG1Query0 = b0 ∧ (crs p).bG2Query0 = v0 ∧ (crs p).deltaG1 = δ1 ∧
        (crs p).deltaG2 = δ2 ∧ (crs p).alphaG1 = α1 ∧ (crs p).betaG1 = β1 ∧ (crs p).betaG2 = β2)
    {Q H W U : List G1} {V : List G2} (hS : HoldsChunks pp b (fun p => (crs p).s) Q) (hU : HoldsChunks pp b (fun p => (crs p).u) U)
    (hW : HoldsChunks pp b (fun p => (crs p).w) W) (hH : HoldsChunks pp b (fun p => (crs p).h) H)
    (hV : HoldsChunks pp b (fun p => (crs p).v) V) {z ax : List F} (hzS : z.length = Q.length)
    (hzH : z.length = H.length) (hzV : z.length = V.length) (hax : ax.length = W.length)
    (hUl : U.length = 2 ^ (a + b)) {E E' : Nat → Errors F G1 G2} (hE : dbg = true → Passes pp b E) (hE' : dbg = true → Passes pp b E')
    (tf : Nat → VecTape F) (td : VecTape F) (tm : Nat → MsmTape F G1) (tn : MsmTape F G2) (rng : Nat → Nat → Nat → F)
    {q : Nat → PackedQAPShare F} {masks masks' : Nat → Nat → FftMask F} {zsh axsh : Nat → List F} {rsh : Nat → F} (ssh : Nat → F)
    {m1 m1' : Nat → Nat → MsmMask G1} (hq : SharesProgram pp a b dom q xa xb xc) (hz : HoldsChunks pp b zsh z) (hx : HoldsChunks pp b axsh ax)
    (hm : CircomSpoiled pp a b dom2.groupGen dom (fun p => (E p).fft) tf masks)
    (hm' : CircomSpoiled pp a b dom2.groupGen dom (fun p => (E' p).fft) tf masks')
    (hm1 : ∀ p, ∀ k < 4, m1 p k = spoiled ((E p).msm1 k) (pp.msmDealt gen1 (tm k) p))
    (hm1' : ∀ p, ∀ k < 4, m1' p k = spoiled ((E' p).msm1 k) (pp.msmDealt gen1 (tm k) p)) (hr0 : ∀ p < 4 * 2 ^ b, rsh p ≠ 0) :
    Track (fun _ => True) (fun j => ∀ k, k = j ∨ roundOf k < roundOf j → ∀ p, SameAt k (E p) (E' p)) (∀ k < 12, ∀ p, SameAt k (E p) (E' p)) 12
      (fun i : Fin (4 * 2 ^ b) => pp.dsha256 dbg (4 * 2 ^ b) i (crs i) (q i) (zsh i) (axsh i) (rsh i) (ssh i) (masks i)
        (spoilDeg (pp.degDealt (2 ^ a) td i) (E i).degred) (m1 i) (spoiled (E i).msm2 (pp.msmDealt gen2 tn i)) rng)
      (fun i : Fin (4 * 2 ^ b) => pp.dsha256 dbg (4 * 2 ^ b) i (crs i) (q i) (zsh i) (axsh i) (rsh i) (ssh i) (masks' i)
        (spoilDeg (pp.degDealt (2 ^ a) td i) (E' i).degred) (m1' i) (spoiled (E' i).msm2 (pp.msmDealt gen2 tn i)) rng)
      (fun _ => True) := by
  have anti : ∀ j k, roundOf k < roundOf j → (∀ i, i = j ∨ roundOf i < roundOf j → ∀ p, SameAt i (E p) (E' p)) →
      ∀ i, i = k ∨ roundOf i < roundOf k → ∀ p, SameAt i (E p) (E' p) := by
    rintro j k hk h i (rfl | hi)
    · exact h i (.inr hk)
    · exact h i (.inr (hi.trans hk))
  have all : (∀ k < 12, ∀ p, SameAt k (E p) (E' p)) → ∀ j < 12, ∀ k, k = j ∨ roundOf k < roundOf j → ∀ p, SameAt k (E p) (E' p) := by
    rintro h j hj k hk
    refine h k ?_
    rcases hk with rfl | hk
    · exact hj
    · have e : roundOf k < 6 := lt_of_lt_of_le hk (by unfold roundOf; split_ifs <;> omega)
      unfold roundOf at e
      split_ifs at e <;> omega
  have k0 := fun i => hm1 i 0 (by omega)
  have k1 := fun i => hm1 i 1 (by omega)
  have k2 := fun i => hm1 i 2 (by omega)
  have k3 := fun i => hm1 i 3 (by omega)
  have k0' := fun i => hm1' i 0 (by omega)
  have k1' := fun i => hm1' i 1 (by omega)
  have k2' := fun i => hm1' i 2 (by omega)
  have k3' := fun i => hm1' i 3 (by omega)
  have unfolded : ∀ (masks : Nat → Nat → FftMask F)
      (dm : Nat → DegRedMask F) (m1 : Nat → Nat → MsmMask G1) (m2 : Nat → MsmMask G2) (i : Fin (4 * 2 ^ b)),
      pp.dsha256 dbg (4 * 2 ^ b) i (crs i) (q i) (zsh i) (axsh i) (rsh i) (ssh i) (masks i) (dm i) (m1 i) (m2 i) rng =
      (pp.circomH dbg (4 * 2 ^ b) i (q i) (masks i) (dm i) rng).bind fun h =>
      (pp.proveA dbg (4 * 2 ^ b) i a0 δ1 α1 (crs i).s (zsh i) (rsh i) (m1 i 0) .zero).bind fun piA =>
      (pp.proveA dbg (4 * 2 ^ b) i b0 δ1 β1 (crs i).h (zsh i) (ssh i) (m1 i 1) .zero).bind fun piB1 =>
      (pp.proveA dbg (4 * 2 ^ b) i v0 δ2 β2 (crs i).v (zsh i) (ssh i) (m2 i) .zero).bind fun piB2 =>
      (pp.proveC dbg (4 * 2 ^ b) i piA piB1 (ssh i) (rsh i) δ1 (crs i).w (crs i).u (axsh i) h (m1 i 2) (m1 i 3)).bind fun piC =>
      Proc.done (.ok (piA, piB2, piC)) := by
    intro masks dm m1 m2 i
    obtain ⟨e1, e2, e3, e4, e5, e6, e7, e8⟩ := hpub i
    unfold PSS.dsha256
    rw [e1, e2, e3, e4, e5, e6, e7, e8]
    simp only [proveBInG1_eq_A _ _ _ _ _ _ _ _ _ (hr0 i i.2)]
    rfl
  refine Track.congr ?_ (unfolded masks (fun p => spoilDeg (pp.degDealt (2 ^ a) td p) (E p).degred) m1
      fun p => spoiled (E p).msm2 (pp.msmDealt gen2 tn p))
    (unfolded masks' (fun p => spoilDeg (pp.degDealt (2 ^ a) td p) (E' p).degred) m1' fun p => spoiled (E' p).msm2 (pp.msmDealt gen2 tn p))
  simp only [k0, k1, k2, k3, k0', k1', k2', k3']
  refine Track.bind (m := 7) (m' := 5) (circomH_track hpp hgen dbg a ha hdom hdom2 (e := fun p => (E p).fft) (e' := fun p => (E' p).fft)
    (f := fun p => (E p).degred) (f' := fun p => (E' p).degred) (fun h => (hE h).fft) (fun h => (hE h).degred) (fun h => (hE' h).fft)
    (fun h => (hE' h).degred) anti (fun k hk h p => (h k (.inl rfl) p).1 hk) (fun h => funext fun p => (h 6 (.inl rfl) p).2.1 rfl) tf td rng hq hm hm')
    (fun _ _ => trivial) ?_
  rintro h h' ⟨y, ly, hy⟩ ⟨y', ly', hy'⟩ eh
  refine Track.bind (m := 1) (m' := 4) (proveA_track hpp hgen dbg gen1 hzS (e := fun p => (E p).msm1 0)
    (e' := fun p => (E' p).msm1 0) (fun h => (hE h).msm1 0) (fun h => (hE' h).msm1 0)
    (fun h => funext fun p => (h 7 (.inl rfl) p).2.2.1 rfl) (tm 0) .zero a0 δ1 α1 rsh hS hz) (fun _ _ => trivial) ?_
  intro oA oA' _ _ eA
  refine Track.bind (m := 1) (m' := 3) (proveA_track hpp hgen dbg gen1 hzH (e := fun p => (E p).msm1 1)
    (e' := fun p => (E' p).msm1 1) (fun h => (hE h).msm1 1) (fun h => (hE' h).msm1 1)
    (fun h => funext fun p => (h 8 (.inl rfl) p).2.2.2.1 rfl) (tm 1) .zero b0 δ1 β1 ssh hH hz) (fun _ _ => trivial) ?_
  intro oB1 oB1' _ _ eB1
  refine Track.bind (m := 1) (m' := 2) (proveA_track hpp hgen dbg gen2 hzV (e := fun p => (E p).msm2)
    (e' := fun p => (E' p).msm2) (fun h => (hE h).msm2) (fun h => (hE' h).msm2)
    (fun h => funext fun p => (h 9 (.inl rfl) p).2.2.2.2.1 rfl) tn .zero v0 δ2 β2 ssh hV hz) (fun _ _ => trivial) ?_
  intro oB oB' _ _ eB
  refine Track.bind (m := 2) (m' := 0) (K := ∀ k < 12, ∀ p, SameAt k (E p) (E' p)) (proveC_track hpp hgen dbg gen1 hax (ly.trans hUl.symm) (ly'.trans hUl.symm)
    (e := fun p => (E p).msm1 2) (e' := fun p => (E' p).msm1 2) (f := fun p => (E p).msm1 3) (f' := fun p => (E' p).msm1 3)
    (fun h => (hE h).msm1 2) (fun h => (hE h).msm1 3) (fun h => (hE' h).msm1 2) (fun h => (hE' h).msm1 3)
    (fun h => funext fun p => (h 10 (.inl rfl) p).2.2.2.2.2.1 rfl) (fun h => funext fun p => (h 11 (.inl rfl) p).2.2.2.2.2.2 rfl)
    (fun h => ⟨all h 10 (by omega), all h 11 (by omega)⟩)
    (tm 2) (tm 3) δ1 rsh ssh hW hU hx hy hy' (fun h => eh (anti 11 6 (by decide) h)) (fun h => eA (all h 7 (by omega)))
    (fun h => eB1 (all h 8 (by omega)))) (fun _ _ => trivial) ?_
  intro oC oC' _ _ eC
  exact Track.done (fun p => (oA p, oB p, oC p)) (fun p => (oA' p, oB' p, oC' p)) trivial trivial
    fun h => by rw [eA (all h 7 (by omega)), eB (all h 9 (by omega)), eC h]

/-- A session in which the servers make errors: what it ends with, and what part of it goes by which errors. -/
theorem session_track {dbg₀ : Bool} {b : Nat} {pp : PSS F} (hpp : PSS.new dbg₀ (2 ^ b) = .ok pp)
    (hgen : (FftField.GENERATOR : F) ^ (4 * 2 ^ b) ≠ 1) (dbg : Bool) (a : Nat) (ha : a < 64)
    {mats : ConstraintMatrices F} {z : List F} {dom dom2 : Domain F} (hcirc : Circuit a b mats z dom dom2) (pk : ProvingKey G1 G2)
    (hk : KeyFits z.length mats.numInstanceVariables (2 ^ (a + b)) pk) (hal : dbg = true → KeyAligned (2 ^ b) pk) (gen1 : G1) (gen2 : G2)
    (r s : F) (t : ClientTape F G1 G2) (rng : Nat → Nat → Nat → F) :
    ∃ ins : Nat → ServerInput F G1 G2, pp.deal dbg (2 ^ b) mats z pk gen1 gen2 r s t = .ok ((List.range (4 * 2 ^ b)).map ins) ∧
      ((∀ p < 4 * 2 ^ b, (ins p).r ≠ 0) → ∀ E E' : Nat → Errors F G1 G2, (dbg = true → Passes pp b E) → (dbg = true → Passes pp b E') →
        ∃ (outs outs' : Nat → G1 × G2 × G1) (views views' : Fin (4 * 2 ^ b) → Transcript),
          AlwaysYields (Net.init fun i : Fin (4 * 2 ^ b) => (((E i).spoil (ins i)).run pp dbg (4 * 2 ^ b) i rng).recorded)
            (fun i => (outs i, views i)) ∧
          AlwaysYields (Net.init fun i : Fin (4 * 2 ^ b) => (((E' i).spoil (ins i)).run pp dbg (4 * 2 ^ b) i rng).recorded)
            (fun i => (outs' i, views' i)) ∧
          (∀ i, i.val ≠ 0 → (views i).length = 12 ∧ (views' i).length = 12 ∧
            ∀ j < 12, (∀ k, k = j ∨ roundOf k < roundOf j → ∀ p, SameAt k (E p) (E' p)) → (views i)[j]? = (views' i)[j]?) ∧
          ((∀ k < 12, ∀ p, SameAt k (E p) (E' p)) → outs = outs')) := by
  have hin := hcirc.inputs
  have hwi := hcirc.wires
  have hdom' : Domain.new (2 ^ (a + b)) = some dom := hcirc.size ▸ Domain.new_size hcirc.domain
  obtain ⟨q, eq, hd, hni, hnc, la, lb, lc, -⟩ := C29_qap mats z hcirc.domain hcirc.rowsA hcirc.rowsB hcirc.colsA hcirc.colsB hcirc.wires
  rw [hcirc.size] at la lb lc
  have hcons : ∀ {T : Type} {v : List T}, v.length = z.length → ∃ x xs, v = x :: xs ∧ xs.length = z.length - 1 := by
    intro T v h
    cases v with
    | nil => simp at h; omega
    | cons x xs => exact ⟨x, xs, rfl, by simp at h; omega⟩
  obtain ⟨a0, as, hqa, las⟩ := hcons hk.aQuery
  obtain ⟨b0, bs, hqb, lbs⟩ := hcons hk.bG1Query
  obtain ⟨v0, vs, hqv, lvs⟩ := hcons hk.bG2Query
  obtain ⟨crs, ec, hpub, hS, hU, hW, hH, hV⟩ := C33_pack_key hpp dbg pk hal hqa hqb hqv
  refine ⟨_, deal_dealt hpp dbg a hcirc eq hd la lb lc ec gen1 gen2 r s t, ?_⟩
  have f := dealt_facts hpp a mats.numInstanceVariables q z dom2.groupGen dom hd crs gen1 gen2 r s t
  generalize dealtInput pp a b mats.numInstanceVariables q z dom2.groupGen dom crs gen1 gen2 r s t = I at f ⊢
  intro hr0 E E' hE hE'
  obtain ⟨outs, outs', views, views', h1, h2, hv, -, -, h3⟩ := dsha256_track hpp hgen dbg a ha hdom' hcirc.double gen1 gen2 hpub hS hU hW hH hV
    (z := z.drop 1) (ax := z.drop mats.numInstanceVariables) (by simp [las]) (by simp [lbs]) (by simp [lvs]) (by simp [hk.lQuery])
    hk.hQuery hE hE' t.fft t.degred t.msm1 t.msm2 rng (fun p => (I p).s) f.program f.shA f.shAx (spoil_masks f.masks) (spoil_masks f.masks)
    (spoil_msm1 f.msm1) (spoil_msm1 f.msm1) hr0
  refine ⟨outs, outs', views, views', RunsV.alwaysYields (P := All) (S := fun _ => True) (h1.congr (fun i => ?_) (fun _ => rfl) fun _ => rfl)
    fun i => dsha256_wf _ (by positivity) _ _ _ _ _ _ _ _ _ _ _ _, RunsV.alwaysYields (P := All) (S := fun _ => True) (h2.congr (fun i => ?_) (fun _ => rfl) fun _ => rfl)
    fun i => dsha256_wf _ (by positivity) _ _ _ _ _ _ _ _ _ _ _ _, hv, h3⟩
  · rw [ServerInput.run, spoil_crs, f.crs, spoil_degred, f.degred, spoil_msm2, f.msm2]
    rfl
  · rw [ServerInput.run, spoil_crs, f.crs, spoil_degred, f.degred, spoil_msm2, f.msm2]
    rfl

section
variable {dbg₀ : Bool} {b : Nat} {pp : PSS F} (hpp : PSS.new dbg₀ (2 ^ b) = .ok pp)
  (hgen : (FftField.GENERATOR : F) ^ (4 * 2 ^ b) ≠ 1) (dbg : Bool) (a : Nat) (ha : a < 64)
  {mats : ConstraintMatrices F} {z z' : List F} {dom dom2 : Domain F} (hcirc : Circuit a b mats z dom dom2)
  (hcirc' : Circuit a b mats z' dom dom2) (hz : z.length = z'.length) (pk : ProvingKey G1 G2)
  (hk : KeyFits z.length mats.numInstanceVariables (2 ^ (a + b)) pk) (hal : dbg = true → KeyAligned (2 ^ b) pk) (gen1 : G1) (gen2 : G2)
  (rng : Nat → Nat → Nat → F) {k : Nat} (P : Fin k → Nat) (hlt : ∀ i, P i < 4 * 2 ^ b) (hking : ∀ i, P i ≠ 0)
  (σ : Holding F G1 G2 k → Nat → Errors F G1 G2) (hσ : dbg = true → ∀ v, Passes pp b (σ v)) {N : Nat}
include hpp hgen ha hcirc hk hal hlt hking hσ

omit hlt hking in
/-- What the servers have of the session with these draws in which the errors are those for `v`. -/
theorem session_told (x : Draws F G1 G2 N) (hx : NoZeroShare pp dbg b x) :
    ∃ (ins : Nat → ServerInput F G1 G2) (O : Holding F G1 G2 k → Nat → G1 × G2 × G1) (V : Holding F G1 G2 k → Nat → Transcript),
      pp.deal dbg (2 ^ b) mats z pk gen1 gen2 x.1.1 x.1.2 (clientTape x) = .ok ((List.range (4 * 2 ^ b)).map ins) ∧
      (∀ v, AlwaysYields (Net.init fun i : Fin (4 * 2 ^ b) => (((σ v i).spoil (ins i)).run pp dbg (4 * 2 ^ b) i rng).recorded)
        (fun i => (O v i, V v i))) ∧
      (∀ v p, p < 4 * 2 ^ b → p ≠ 0 → (V v p).length = 12) ∧
      (∀ v v' p, p < 4 * 2 ^ b → p ≠ 0 → ∀ j < 12, (∀ k, k = j ∨ roundOf k < roundOf j → ∀ p, SameAt k (σ v p) (σ v' p)) → (V v p)[j]? = (V v' p)[j]?) ∧
      ∀ v v' p, p < 4 * 2 ^ b → (∀ k < 12, ∀ p, SameAt k (σ v p) (σ v' p)) → O v p = O v' p := by
  obtain ⟨ins, e, h⟩ := session_track hpp hgen dbg a ha hcirc pk hk hal gen1 gen2 x.1.1 x.1.2 (clientTape x) rng
  have hr0 : ∀ p < 4 * 2 ^ b, (ins p).r ≠ 0 := by
    intro p hp
    obtain ⟨-, -, -, h, -⟩ := deal_parts (e ▸ partOf_range ins hp)
    rw [pack_fresh hpp, partOf_range _ hp] at h
    rw [← Option.some.inj h]
    exact hx _ (pack_fresh hpp dbg x.1.1 (clientTape x).r) _ (List.mem_map.2 ⟨p, List.mem_range.2 hp, rfl⟩)
  have one := fun v => h hr0 (σ v) (σ v) (fun e => hσ e v) fun e => hσ e v
  choose outs _ views _ hy _ _ _ using one
  let V : Holding F G1 G2 k → Nat → Transcript := fun v p => if h : p < 4 * 2 ^ b then views v ⟨p, h⟩ else []
  have hV : ∀ v p (hp : p < 4 * 2 ^ b), V v p = views v ⟨p, hp⟩ := fun v p hp => by simp only [V]; rw [dif_pos hp]
  have two : ∀ v v', (∀ i : Fin (4 * 2 ^ b), i.val ≠ 0 → (views v i).length = 12 ∧ (views v' i).length = 12 ∧
      ∀ j < 12, (∀ k, k = j ∨ roundOf k < roundOf j → ∀ p, SameAt k (σ v p) (σ v' p)) → (views v i)[j]? = (views v' i)[j]?) ∧
      ((∀ k < 12, ∀ p, SameAt k (σ v p) (σ v' p)) → ∀ i : Fin (4 * 2 ^ b), outs v i = outs v' i) := by
    intro v v'
    obtain ⟨o, o', w, w', h1, h2, h3, h4⟩ := h hr0 (σ v) (σ v') (fun e => hσ e v) fun e => hσ e v'
    have u := AlwaysYields.unique h1 (hy v)
    have u' := AlwaysYields.unique h2 (hy v')
    have a1 : ∀ i : Fin (4 * 2 ^ b), o i = outs v i ∧ w i = views v i := fun i => Prod.mk.inj (congrFun u i)
    have a2 : ∀ i : Fin (4 * 2 ^ b), o' i = outs v' i ∧ w' i = views v' i := fun i => Prod.mk.inj (congrFun u' i)
    refine ⟨fun i hi => ?_, fun hs i => ?_⟩
    · rw [← (a1 i).2, ← (a2 i).2]
      exact h3 i hi
    · rw [← (a1 i).1, ← (a2 i).1, h4 hs]
  refine ⟨ins, outs, V, e, fun v => ?_, fun v p hp h0 => ?_, fun v v' p hp h0 => ?_, fun v v' p hp hs => ?_⟩
  · have := hy v
    simpa only [hV v _ (Fin.is_lt _)] using this
  · rw [hV v p hp]
    exact ((two v v).1 ⟨p, hp⟩ h0).1
  · rw [hV v p hp, hV v' p hp]
    exact ((two v v').1 ⟨p, hp⟩ h0).2.2
  · exact (two v v').2 hs ⟨p, hp⟩

end

/-! ### Plays -/

section play

variable {k : Nat} {τ : Play F G1 G2 k}

theorem Play.history_agree {v v' : Holding F G1 G2 k} (hd : v.dealt = v'.dealt) {n : Nat}
    (h : ∀ m < n, ∀ i, (v.sent i)[τ.choice v m]? = (v'.sent i)[τ.choice v m]?) : ∀ m ≤ n, τ.history v m = τ.history v' m := by
  intro m
  induction m with
  | zero => intro _; rfl
  | succ m ih =>
    intro hm
    have e := ih (by omega)
    have hs := h m (by omega)
    unfold Play.choice at hs
    rw [Play.history, Play.history, ← e, ← hd]
    simp only [hs]

theorem Play.turn (hτ : τ.Legal) (v : Holding F G1 G2 k) {n : Nat} (hn : n < 12) :
    ((List.range 12).findIdx fun m => τ.choice v m == τ.choice v n) = n := by
  rw [List.findIdx_eq (by simpa using hn)]
  refine ⟨by simp, fun m hm => ?_⟩
  simp only [List.getElem_range, beq_eq_false_iff_ne]
  exact (hτ v n hn).2.1 m hm

theorem Play.all (hτ : τ.Legal) (v : Holding F G1 G2 k) {j : Nat} (hj : j < 12) : ∃ n < 12, τ.choice v n = j := by
  let f : Fin 12 → Fin 12 := fun n => ⟨τ.choice v n, (hτ v n n.2).1⟩
  have inj : Function.Injective f := by
    intro m n h
    have e : τ.choice v m = τ.choice v n := congrArg Fin.val h
    rcases lt_trichotomy m.val n.val with h | h | h
    · exact absurd e ((hτ v n n.2).2.1 m h)
    · exact Fin.ext h
    · exact absurd e.symm ((hτ v m m.2).2.1 n h)
  obtain ⟨n, hn⟩ := Finite.injective_iff_surjective.1 inj ⟨j, hj⟩
  exact ⟨n, n.2, congrArg Fin.val hn⟩

/-- If the histories agree up to the turn `n`, the errors agree in the messages sent until then. -/
theorem Play.same (hτ : τ.Legal) {v v' : Holding F G1 G2 k} (hd : v.dealt = v'.dealt) {n : Nat} (hn : n < 12)
    (h : ∀ m ≤ n, τ.history v m = τ.history v' m) : ∀ m ≤ n, ∀ p, SameAt (τ.choice v m) (τ.errors v p) (τ.errors v' p) := by
  intro m hm p
  have hc : τ.choice v m = τ.choice v' m := by rw [Play.choice, Play.choice, h m hm, hd]
  have e : τ.errorsIn v (τ.choice v m) p = τ.errorsIn v' (τ.choice v m) p := by
    rw [Play.errorsIn, Play.errorsIn, Play.turn hτ v (by omega), hc, Play.turn hτ v' (by omega), h m hm, hd]
  generalize τ.choice v m = j at e
  refine ⟨fun _ => ?_, fun h => ?_, fun h => ?_, fun h => ?_, fun h => ?_, fun h => ?_, fun h => ?_⟩
  · simp only [Play.errors, e]
  all_goals
    subst h
    simp [Play.errors, e]

/-- And so do all that the message of the turn `n` needs. -/
theorem Play.known (hτ : τ.Legal) {v v' : Holding F G1 G2 k} (hd : v.dealt = v'.dealt) {n : Nat} (hn : n < 12)
    (h : ∀ m ≤ n, τ.history v m = τ.history v' m) {m : Nat} (hm : m ≤ n) :
    ∀ j, j = τ.choice v m ∨ roundOf j < roundOf (τ.choice v m) → ∀ p, SameAt j (τ.errors v p) (τ.errors v' p) := by
  rintro j (rfl | hj)
  · exact Play.same hτ hd hn h m hm
  · obtain ⟨m', hm', rfl⟩ := (hτ v m (by omega)).2.2 j hj
    exact Play.same hτ hd hn h m' (by omega)

end play

section
variable {dbg₀ : Bool} {b : Nat} {pp : PSS F} (hpp : PSS.new dbg₀ (2 ^ b) = .ok pp)
  (hgen : (FftField.GENERATOR : F) ^ (4 * 2 ^ b) ≠ 1) (dbg : Bool) (a : Nat) (ha : a < 64)
  {mats : ConstraintMatrices F} {z z' : List F} {dom dom2 : Domain F} (hcirc : Circuit a b mats z dom dom2)
  (hcirc' : Circuit a b mats z' dom dom2) (hz : z.length = z'.length) (pk : ProvingKey G1 G2)
  (hk : KeyFits z.length mats.numInstanceVariables (2 ^ (a + b)) pk) (hal : dbg = true → KeyAligned (2 ^ b) pk) (gen1 : G1) (gen2 : G2)
  (rng : Nat → Nat → Nat → F) {k : Nat} (P : Fin k → Nat) (hlt : ∀ i, P i < 4 * 2 ^ b) (hking : ∀ i, P i ≠ 0)
  (τ : Play F G1 G2 k) (hσ : dbg = true → ∀ v, Passes pp b (τ.errors v)) (hτ : τ.Legal) {N : Nat}
include hpp hgen ha hcirc hk hal hlt hking hσ hτ

/-- **C113** Servers who choose by all they have so far which message to send next and with which errors decide the course of every session. -/
theorem C113_decided : Decided pp dbg b mats z pk gen1 gen2 rng P τ.errors N := by
  intro x v v' hx hv hv'
  obtain ⟨ins, O, V, hd, hy, hl, ht, ho⟩ := session_told hpp hgen dbg a ha hcirc pk hk hal gen1 gen2 rng τ.errors hσ x hx
  have is : ∀ {v}, Comes pp dbg b mats z pk gen1 gen2 rng P τ.errors x v → (∀ i, v.dealt i = ins (P i)) ∧ (∀ i, v.sent i = V v (P i)) ∧
      ∀ i, v.answers i = O v (P i) := by
    rintro v ⟨I, outs, views, hd', hy', q1, q2, q3⟩
    have hI : ∀ p < 4 * 2 ^ b, I p = ins p := fun p hp => List.map_inj_left.1 (Except.ok.inj (hd'.symm.trans hd)) p (List.mem_range.2 hp)
    have hy'' : AlwaysYields (Net.init fun i : Fin (4 * 2 ^ b) => (((τ.errors v i).spoil (ins i)).run pp dbg (4 * 2 ^ b) i rng).recorded)
        (fun i => (outs i, views i)) := by
      refine cast ?_ hy'
      congr 2
      funext i
      rw [hI i i.2]
    have hu := AlwaysYields.unique hy'' (hy v)
    exact ⟨fun i => (q1 i).trans (hI _ (hlt i)), fun i => (q2 i).trans (Prod.mk.inj (congrFun hu ⟨P i, hlt i⟩)).2,
      fun i => (q3 i).trans (Prod.mk.inj (congrFun hu ⟨P i, hlt i⟩)).1⟩
  obtain ⟨d1, d2, d3⟩ := is hv
  obtain ⟨e1, e2, e3⟩ := is hv'
  have hdealt : v.dealt = v'.dealt := funext fun i => (d1 i).trans (e1 i).symm
  have told : ∀ n ≤ 12, ∀ m < n, ∀ i, (v.sent i)[τ.choice v m]? = (v'.sent i)[τ.choice v m]? := by
    intro n
    induction n with
    | zero => intro _ m hm; omega
    | succ n ih =>
      intro hn m hm i
      rw [d2, e2]
      exact ht v v' _ (hlt i) (hking i) _ (hτ v m (by omega)).1
        (Play.known hτ hdealt (by omega) (Play.history_agree hdealt (ih (by omega))) (by omega))
  have hs : ∀ j < 12, ∀ p, SameAt j (τ.errors v p) (τ.errors v' p) := by
    intro j hj
    obtain ⟨n, hn, rfl⟩ := Play.all hτ v hj
    exact Play.same hτ hdealt hn (Play.history_agree hdealt (told n hn.le)) n le_rfl
  have hsent : v.sent = v'.sent := funext fun i => by
    refine List.ext_getElem? fun j => ?_
    by_cases hj : j < 12
    · obtain ⟨n, hn, rfl⟩ := Play.all hτ v hj
      exact told 12 le_rfl n hn i
    · rw [List.getElem?_eq_none (by rw [d2, hl v _ (hlt i) (hking i)]; omega), List.getElem?_eq_none (by rw [e2, hl v' _ (hlt i) (hking i)]; omega)]
  have hans : v.answers = v'.answers := funext fun i => by rw [d3, e3, ho v v' _ (hlt i) hs]
  cases v
  cases v'
  simp only at hdealt hsent hans
  rw [hdealt, hsent, hans]

/-- **C113** And every legal way to cheat can be played: whenever no share of `r` is zero, the servers have something of the session in the end. -/
theorem C113_plays (x : Draws F G1 G2 N) (hx : NoZeroShare pp dbg b x) : ∃ v, Comes pp dbg b mats z pk gen1 gen2 rng P τ.errors x v := by
  obtain ⟨ins, O, V, hd, hy, hl, ht, ho⟩ := session_told hpp hgen dbg a ha hcirc pk hk hal gen1 gen2 rng τ.errors hσ x hx
  -- from the errors for some holding to the holding with these errors
  let next : Holding F G1 G2 k → Holding F G1 G2 k := fun v => ⟨fun i => ins (P i), fun i => V v (P i), fun i => O v (P i)⟩
  let w : Nat → Holding F G1 G2 k := fun n => next^[n + 1] ⟨fun i => ins (P i), fun _ => [], fun _ => 0⟩
  have hw : ∀ n, w (n + 1) = next (w n) := fun n => Function.iterate_succ_apply' next (n + 1) _
  have hdealt : ∀ n, (w n).dealt = fun i => ins (P i) := fun n => by
    simp only [w, Function.iterate_succ_apply']
    rfl
  have hd2 : ∀ n, (w n).dealt = (w (n + 1)).dealt := fun n => (hdealt _).trans (hdealt _).symm
  have hist : ∀ n ≤ 12, ∀ m ≤ n, τ.history (w n) m = τ.history (w (n + 1)) m := by
    intro n
    induction n with
    | zero =>
      intro _ m hm
      obtain rfl : m = 0 := by omega
      rfl
    | succ n ih =>
      intro hn
      refine Play.history_agree (hd2 _) fun m hm i => ?_
      have hc : τ.choice (w (n + 1)) m = τ.choice (w n) m := by
        rw [Play.choice, Play.choice, ← ih (by omega) m (by omega), ← hd2 n]
      rw [hc, hw n, hw (n + 1)]
      exact ht _ _ _ (hlt i) (hking i) _ (hτ _ m (by omega)).1 (Play.known hτ (hd2 n) (n := n) (by omega) (ih (by omega)) (by omega))
  have hs : ∀ j < 12, ∀ p, SameAt j (τ.errors (w 12) p) (τ.errors (w 13) p) := by
    intro j hj
    obtain ⟨n, hn, rfl⟩ := Play.all hτ (w 12) hj
    exact Play.same hτ (hd2 12) hn (fun m hm => hist 12 le_rfl m (by omega)) n le_rfl
  have fix : next (w 12) = w 13 := (hw 12).symm
  have hsent : ∀ i, V (w 12) (P i) = V (w 13) (P i) := fun i => by
    refine List.ext_getElem? fun j => ?_
    by_cases hj : j < 12
    · obtain ⟨n, hn, rfl⟩ := Play.all hτ (w 12) hj
      exact ht _ _ _ (hlt i) (hking i) _ hj (Play.known hτ (hd2 12) hn (fun m hm => hist 12 le_rfl m (by omega)) le_rfl)
    · rw [List.getElem?_eq_none (by rw [hl _ _ (hlt i) (hking i)]; omega), List.getElem?_eq_none (by rw [hl _ _ (hlt i) (hking i)]; omega)]
  refine ⟨w 13, ins, O (w 13), V (w 13), hd, hy (w 13), fun i => by rw [hdealt], fun i => ?_, fun i => ?_⟩
  · rw [← hsent i, ← fix]
  · rw [← ho (w 12) (w 13) _ (hlt i) hs, ← fix]

end

section
variable [Finite F] [Finite G1] [Finite G2] {dbg₀ : Bool} {b : Nat} {pp : PSS F} (hpp : PSS.new dbg₀ (2 ^ b) = .ok pp)
  (hgen : (FftField.GENERATOR : F) ^ (4 * 2 ^ b) ≠ 1) (dbg : Bool) (a : Nat) (ha : a < 64)
  {mats : ConstraintMatrices F} {z z' : List F} {dom dom2 : Domain F} (hcirc : Circuit a b mats z dom dom2)
  (hcirc' : Circuit a b mats z' dom dom2) (hz : z.length = z'.length) (pk : ProvingKey G1 G2)
  (hk : KeyFits z.length mats.numInstanceVariables (2 ^ (a + b)) pk) (hal : dbg = true → KeyAligned (2 ^ b) pk) (gen1 : G1) (gen2 : G2)
  (hspan1 : ∀ g : G1, ∃ c : F, c • gen1 = g) (hspan2 : ∀ g : G2, ∃ c : F, c • gen2 = g)
  (rng : Nat → Nat → Nat → F) (P : Fin (2 ^ b) → Nat) (hinj : Function.Injective P) (hlt : ∀ i, P i < 4 * 2 ^ b) (hking : ∀ i, P i ≠ 0)
  {N : Nat} (hN : 2 ^ (a + b) ≤ N) (hzN : z.length ≤ N)
  (τ : Play F G1 G2 (2 ^ b)) (hσ : dbg = true → ∀ v, Passes pp b (τ.errors v)) (hτ : τ.Legal)
include hpp hgen ha hcirc hcirc' hz hk hal hspan1 hspan2 hinj hlt hking hN hzN hσ hτ

omit hcirc' hz hspan1 hspan2 hinj hzN in
/-- **C113** Sessions against such servers end but for a share of `4l / |F|` of the draws. -/
theorem C113_ends : prob (fun x => gained (N := N) pp dbg b mats z pk gen1 gen2 rng P τ.errors x = none) ≤ 4 * 2 ^ b / Nat.card F := by
  have := Fintype.ofFinite F
  have := Fintype.ofFinite G1
  have := Fintype.ofFinite G2
  have hb : 2 ^ b ≤ N := le_trans (Nat.pow_le_pow_right (by norm_num) (by omega)) hN
  refine (prob_mono fun x hx => ?_).trans (prob_zeroShare (G1 := G1) (G2 := G2) hpp hgen dbg hb)
  by_contra hn
  rw [gained, dif_pos (C113_plays hpp hgen dbg a ha hcirc pk hk hal gen1 gen2 rng P hlt hking τ hσ hτ x (noZeroShare hpp hn))] at hx
  exact absurd hx (by simp)

/-- **C113** The servers `P` who choose by what they are dealt and by the answers so far which message to send next and with which errors tell two
assignments apart with an advantage of at most `4l / |F|`. -/
theorem C113_session :
    Close (4 * 2 ^ b / Nat.card F) (gained (N := N) pp dbg b mats z pk gen1 gen2 rng P τ.errors) (gained (N := N) pp dbg b mats z' pk gen1 gen2 rng P τ.errors) :=
  C109_session hpp hgen dbg a ha hcirc hcirc' hz pk hk hal gen1 gen2 hspan1 hspan2 rng P hinj hlt hking hN hzN τ.errors hσ
    (C113_decided hpp hgen dbg a ha hcirc pk hk hal gen1 gen2 rng P hlt hking τ hσ hτ)
    (C113_decided hpp hgen dbg a ha hcirc' pk (hz ▸ hk) hal gen1 gen2 rng P hlt hking τ hσ hτ)

end

/-- **C113** The strategies of C110 are among these ways to cheat: those that send in the order of the streams. -/
theorem C113_covers {k : Nat} {σ : Holding F G1 G2 k → Nat → Errors F G1 G2} (hcausal : Causal σ) :
    ∃ τ : Play F G1 G2 k, τ.Legal ∧ (∀ v, ∀ n < 12, τ.choice v n = n) ∧ ∀ v, ∀ j < 12, ∀ p, SameAt j (τ.errors v p) (σ v p) := by
  let τ : Play F G1 G2 k := fun dealt h => (h.length, σ ⟨dealt, fun i => h.filterMap fun e => e.2 i, fun _ => 0⟩)
  have len : ∀ v n, (τ.history v n).length = n := fun v n => by
    induction n with
    | zero => rfl
    | succ n ih => rw [Play.history, List.length_append, ih, List.length_singleton]
  have hc : ∀ v n, τ.choice v n = n := fun v n => len v n
  have hist : ∀ v i n, ((τ.history v n).filterMap fun e => e.2 i) = (v.sent i).take n := fun v i n => by
    induction n with
    | zero => rfl
    | succ n ih =>
      have e : (τ v.dealt (τ.history v n)).1 = n := hc v n
      rw [Play.history, List.filterMap_append, ih, e, List.take_add_one]
      cases h : (v.sent i)[n]? <;> simp [h]
  have legal : τ.Legal := fun v n hn => by
    simp only [hc]
    refine ⟨hn, fun m hm => by omega, fun j hj => ⟨j, ?_, rfl⟩⟩
    by_contra h
    unfold roundOf at hj
    split_ifs at hj <;> omega
  refine ⟨τ, legal, fun v n _ => hc v n, fun v j hj p => ?_⟩
  have hE : ∀ i < 12, τ.errorsIn v i p = σ ⟨v.dealt, fun l => (v.sent l).take i, fun _ => 0⟩ p := fun i hi => by
    have t := Play.turn legal v hi
    rw [hc v i] at t
    rw [Play.errorsIn, t]
    simp only [τ, hist]
  have key := hcausal ⟨v.dealt, fun l => (v.sent l).take j, fun _ => 0⟩ v rfl j hj (fun i => by simp) p
  obtain ⟨k1, k2, k3, k4, k5, k6, k7⟩ := key
  refine ⟨fun h => ?_, fun h => ?_, fun h => ?_, fun h => ?_, fun h => ?_, fun h => ?_, fun h => ?_⟩
  · simp only [Play.errors, hE j hj, k1 h]
  all_goals
    subst h
    first
      | simp only [Play.errors, hE _ hj, k2 rfl]
      | simp [Play.errors, hE _ hj, k3 rfl]
      | simp [Play.errors, hE _ hj, k4 rfl]
      | simp [Play.errors, hE _ hj, k5 rfl]
      | simp [Play.errors, hE _ hj, k6 rfl]
      | simp [Play.errors, hE _ hj, k7 rfl]

/-- C113: the strategy `sly17` of C110. -/
example : ∃ τ : Play (ZMod 17) (ZMod 17) (ZMod 17) (2 ^ 1), τ.Legal ∧ ∀ v, ∀ j < 12, ∀ p, SameAt j (τ.errors v p) (sly17 v p) := by
  obtain ⟨τ, h, -, h'⟩ := C113_covers sly17_causal
  exact ⟨τ, h, h'⟩

end servers

/-- **C113** Any number of sessions one after the other with fresh draws, in each of which the servers choose by what they are dealt and by the
answers so far which message to send next and with which errors. The circuit, the key, both assignments, the servers and the strategy of each session may depend on all that was seen before. -/
theorem C113_sessions {F : Type} [Field F] [FftField F] [DecidableEq F] [FixedWire F] {G1 G2 : Type} [AddCommGroup G1] [Module F G1] [DecidableEq G1]
    [FixedWire G1] [AddCommGroup G2] [Module F G2] [DecidableEq G2] [FixedWire G2] [Finite F] [Finite G1] [Finite G2] {dbg₀ : Bool} {b : Nat} {pp : PSS F}
    (hpp : PSS.new dbg₀ (2 ^ b) = .ok pp) (hgen : (FftField.GENERATOR : F) ^ (4 * 2 ^ b) ≠ 1) (dbg : Bool) (a : Nat) (ha : a < 64) {O : Type}
    {mats : List O → ConstraintMatrices F} {z z' : List O → List F} {dom dom2 : Domain F} (hcirc : ∀ h, Circuit a b (mats h) (z h) dom dom2)
    (hcirc' : ∀ h, Circuit a b (mats h) (z' h) dom dom2) (hz : ∀ h, (z h).length = (z' h).length) (pk : List O → ProvingKey G1 G2)
    (hk : ∀ h, KeyFits (z h).length (mats h).numInstanceVariables (2 ^ (a + b)) (pk h)) (hal : dbg = true → ∀ h, KeyAligned (2 ^ b) (pk h))
    (gen1 : G1) (gen2 : G2) (hspan1 : ∀ g : G1, ∃ c : F, c • gen1 = g) (hspan2 : ∀ g : G2, ∃ c : F, c • gen2 = g)
    (rng : List O → Nat → Nat → Nat → F) (P : List O → Fin (2 ^ b) → Nat) (hinj : ∀ h, Function.Injective (P h)) (hlt : ∀ h i, P h i < 4 * 2 ^ b)
    (hking : ∀ h i, P h i ≠ 0) {N : Nat} (hN : 2 ^ (a + b) ≤ N) (hzN : ∀ h, (z h).length ≤ N)
    (τ : List O → Play F G1 G2 (2 ^ b)) (hσ : dbg = true → ∀ h v, Passes pp b ((τ h).errors v)) (hτ : ∀ h, (τ h).Legal)
    (f : List O → Option (Holding F G1 G2 (2 ^ b)) → O) (k : Nat) :
    Close (k * (4 * 2 ^ b / Nat.card F))
      (observed (fun h x => f h (gained (N := N) pp dbg b (mats h) (z h) (pk h) gen1 gen2 (rng h) (P h) (τ h).errors x)) k [])
      (observed (fun h x => f h (gained (N := N) pp dbg b (mats h) (z' h) (pk h) gen1 gen2 (rng h) (P h) (τ h).errors x)) k []) :=
  C109_sessions hpp hgen dbg a ha hcirc hcirc' hz pk hk hal gen1 gen2 hspan1 hspan2 rng P hinj hlt hking hN hzN (fun h => (τ h).errors) hσ
    (fun h => C113_decided hpp hgen dbg a ha (hcirc h) (pk h) (hk h) (fun e => hal e h) gen1 gen2 (rng h) (P h) (hlt h) (hking h) (τ h)
      (fun e => hσ e h) (hτ h))
    (fun h => C113_decided hpp hgen dbg a ha (hcirc' h) (pk h) (hz h ▸ hk h) (fun e => hal e h) gen1 gen2 (rng h) (P h) (hlt h) (hking h) (τ h)
      (fun e => hσ e h) (hτ h)) f k

section
variable {dbg₀ : Bool} {b : Nat} {pp : PSS Bn254Fr} (hpp : PSS.new dbg₀ (2 ^ b) = .ok pp) (dbg : Bool) {a : Nat} (ha : a < 64) {N : Nat}
  (hN : 2 ^ (a + b) ≤ N)
include hpp ha hN

/-- **C113** On BN254 the servers who cheat in `k` sessions learn of the assignments at most what gives an advantage of `k·l / 2^251`. -/
theorem C113_bn254 {O : Type} {mats : List O → ConstraintMatrices Bn254Fr} {z z' : List O → List Bn254Fr} {dom dom2 : Domain Bn254Fr}
    (hcirc : ∀ h, Circuit a b (mats h) (z h) dom dom2) (hcirc' : ∀ h, Circuit a b (mats h) (z' h) dom dom2) (hz : ∀ h, (z h).length = (z' h).length)
    (pk : List O → ProvingKey Bn254G1 Bn254G2) (hk : ∀ h, KeyFits (z h).length (mats h).numInstanceVariables (2 ^ (a + b)) (pk h))
    (hal : dbg = true → ∀ h, KeyAligned (2 ^ b) (pk h)) {gen1 : Bn254G1} {gen2 : Bn254G2} (h1 : gen1 ≠ 0) (h2 : gen2 ≠ 0)
    (rng : List O → Nat → Nat → Nat → Bn254Fr) (P : List O → Fin (2 ^ b) → Nat) (hinj : ∀ h, Function.Injective (P h))
    (hlt : ∀ h i, P h i < 4 * 2 ^ b) (hking : ∀ h i, P h i ≠ 0) (hzN : ∀ h, (z h).length ≤ N)
    (τ : List O → Play Bn254Fr Bn254G1 Bn254G2 (2 ^ b)) (hσ : dbg = true → ∀ h v, Passes pp b ((τ h).errors v))
    (hτ : ∀ h, (τ h).Legal) (f : List O → Option (Holding Bn254Fr Bn254G1 Bn254G2 (2 ^ b)) → O) (k : Nat) :
    Close (k * 2 ^ b / 2 ^ 251)
      (observed (fun h x => f h (gained (N := N) pp dbg b (mats h) (z h) (pk h) gen1 gen2 (rng h) (P h) (τ h).errors x)) k [])
      (observed (fun h x => f h (gained (N := N) pp dbg b (mats h) (z' h) (pk h) gen1 gen2 (rng h) (P h) (τ h).errors x)) k []) := by
  intro E
  refine (C113_sessions hpp (bn254_gen b) dbg a ha hcirc hcirc' hz pk hk hal gen1 gen2 (spans_of_card bn254G1_card h1) (spans_of_card C91_g2_card h2)
    rng P hinj hlt hking hN hzN τ hσ hτ f k E).trans ?_
  have h3 : (k : ℚ) * (4 * 2 ^ b / Nat.card Bn254Fr) ≤ k * (4 * 2 ^ b / 2 ^ 253) := by
    have := bn254_large
    gcongr
  exact h3.trans (le_of_eq (by ring))

/-- **C113** And all but `l / 2^251` of the draws let such a session end. -/
theorem C113_bn254_ends {mats : ConstraintMatrices Bn254Fr} {z : List Bn254Fr} {dom dom2 : Domain Bn254Fr} (hcirc : Circuit a b mats z dom dom2)
    (pk : ProvingKey Bn254G1 Bn254G2) (hk : KeyFits z.length mats.numInstanceVariables (2 ^ (a + b)) pk) (hal : dbg = true → KeyAligned (2 ^ b) pk)
    (gen1 : Bn254G1) (gen2 : Bn254G2) (rng : Nat → Nat → Nat → Bn254Fr) (P : Fin (2 ^ b) → Nat) (hlt : ∀ i, P i < 4 * 2 ^ b) (hking : ∀ i, P i ≠ 0)
    (τ : Play Bn254Fr Bn254G1 Bn254G2 (2 ^ b)) (hσ : dbg = true → ∀ v, Passes pp b (τ.errors v))
    (hτ : τ.Legal) :
    prob (fun x => gained (N := N) pp dbg b mats z pk gen1 gen2 rng P τ.errors x = none) ≤ 2 ^ b / 2 ^ 251 := by
  refine (C113_ends hpp (bn254_gen b) dbg a ha hcirc pk hk hal gen1 gen2 rng P hlt hking hN τ hσ hτ).trans ?_
  have h3 : (4 * 2 ^ b / Nat.card Bn254Fr : ℚ) ≤ 4 * 2 ^ b / 2 ^ 253 := by
    have := bn254_large
    gcongr
  exact h3.trans (le_of_eq (by ring))

end

/-- Whether the first answer to the second server begins with a zero byte. -/
def lowStart (h : List (Nat × (Fin (2 ^ 1) → Option (Nat × Bytes)))) : Bool := (h.head?.bind fun e => e.2 1).any fun m => m.2.head? == some 0

/-- The order in which the servers of `rash` send. -/
def rashOrder (low : Bool) : List Nat := if low then [0, 1, 2, 4, 3, 5, 6, 7, 8, 9, 10, 11] else [0, 2, 1, 5, 4, 3, 6, 7, 8, 9, 11, 10]

/-- Servers 3 and 6 first send the message of the first transform. By the first answer to server 6 they choose in which order to send the rest. In the
transforms they add to the entry `c` of a message `c` plus the number of answers so far to server 3 that begin with a zero byte, in the rest they go by
what they hold and by the number of answers so far. -/
def rash {F G1 G2 : Type} [Field F] [AddCommGroup G1] [Module F G1] [AddCommGroup G2] [Module F G2] (g1 : G1) (g2 : G2) : Play F G1 G2 (2 ^ 1) :=
  fun dealt h => ((rashOrder (lowStart h)).getD h.length 0, fun p =>
    if p = 3 ∨ p = 6 then
      ⟨fun _ c => c + (h.countP fun e => (e.2 0).any fun m => m.2.head? == some 0 : Nat), fun c => (dealt 1).ax.getD c 0 + h.length,
        fun j => ((dealt 0).r * h.length + j) • g1, ((dealt 1).s + h.length) • g2⟩
    else ⟨0, 0, 0, 0⟩)

theorem Play.history_length {F G1 G2 : Type} {k : Nat} (τ : Play F G1 G2 k) (v : Holding F G1 G2 k) (n : Nat) : (τ.history v n).length = n := by
  induction n with
  | zero => rfl
  | succ n ih => rw [Play.history, List.length_append, ih, List.length_singleton]

theorem Play.history_head {F G1 G2 : Type} {k : Nat} (τ : Play F G1 G2 k) (v : Holding F G1 G2 k) (n : Nat) :
    (τ.history v (n + 1)).head? = (τ.history v 1).head? := by
  induction n with
  | zero => rfl
  | succ n ih =>
    rw [Play.history, List.head?_append, ih]
    rfl

theorem rash_legal {F G1 G2 : Type} [Field F] [AddCommGroup G1] [Module F G1] [AddCommGroup G2] [Module F G2] (g1 : G1) (g2 : G2) :
    (rash (F := F) g1 g2).Legal := by
  intro v
  have hc : ∃ low, ∀ n, (rash (F := F) g1 g2).choice v n = (rashOrder low).getD n 0 := by
    refine ⟨lowStart ((rash (F := F) g1 g2).history v 1), fun n => ?_⟩
    show (rashOrder (lowStart ((rash (F := F) g1 g2).history v n))).getD ((rash (F := F) g1 g2).history v n).length 0 = _
    rw [Play.history_length]
    cases n with
    | zero => cases lowStart ((rash (F := F) g1 g2).history v 1) <;> rfl
    | succ n => rw [lowStart, Play.history_head, ← lowStart]
  obtain ⟨low, hc⟩ := hc
  have fin : ∀ low, ∀ n < 12, (rashOrder low).getD n 0 < 12 ∧ (∀ m < n, (rashOrder low).getD m 0 ≠ (rashOrder low).getD n 0) ∧
      ∀ j < 12, roundOf j < roundOf ((rashOrder low).getD n 0) → ∃ m < n, (rashOrder low).getD m 0 = j := by decide
  intro n hn
  simp only [hc]
  obtain ⟨h1, h2, h3⟩ := fin low n hn
  refine ⟨h1, h2, fun j hj => h3 j ?_ hj⟩
  have e : roundOf j < 6 := lt_of_lt_of_le hj (by unfold roundOf; split_ifs <;> omega)
  unfold roundOf at e
  split_ifs at e <;> omega

/-- C113: servers 3 and 6 of a release build choose by the answers so far in which order they send and what they add. -/
example (rng : Nat → Nat → Nat → ZMod 17) : ∃ pk : ProvingKey (ZMod 17) (ZMod 17),
    prob (fun x => gained (N := 6) pp17 false 1 mats17 z17 pk 1 1 rng pair17 (rash 1 1).errors x = none) ≤ 8 / 17 ∧
    Close (8 / 17) (gained (N := 6) pp17 false 1 mats17 z17 pk 1 1 rng pair17 (rash 1 1).errors)
      (gained (N := 6) pp17 false 1 mats17 [1, 9, 14] pk 1 1 rng pair17 (rash 1 1).errors) := by
  obtain ⟨pa, pb, pc, pk, h1, h2⟩ := C35_key_exists circuit17 (⟨2, 3, 4, 5, 6⟩ : Toxic (ZMod 17)) (1 : ZMod 17) (1 : ZMod 17)
  have e : (4 * 2 ^ 1 / (Nat.card (ZMod 17) : ℚ)) = 8 / 17 := by
    rw [Nat.card_eq_fintype_card, ZMod.card]
    norm_num
  refine ⟨pk, ?_, ?_⟩
  · rw [← e]
    exact C113_ends (pp17_eq true) gen17 false 1 (by norm_num) circuit17 pk (KeyFits.of_key h2) (by simp) 1 1 rng pair17 pair17_lt (by decide)
      (by decide) (rash 1 1) (by simp) (rash_legal 1 1)
  · rw [← e]
    exact C113_session (pp17_eq true) gen17 false 1 (by norm_num) circuit17 circuit17' rfl pk (KeyFits.of_key h2) (by simp) 1 1
      (fun g => ⟨g, by simp⟩) (fun g => ⟨g, by simp⟩) rng pair17 pair17_inj pair17_lt (by decide) (by decide) (by decide) (rash 1 1) (by simp) (rash_legal 1 1)

/-- C113: eight servers prove the knowledge of a root over the curves, packed in pairs; servers 3 and 6 choose by the answers so
far in which order they send and what they add. In a
thousand sessions they do not learn whether the root is `x` or `-x`. -/
example (x : Bn254Fr) (rng : Nat → Nat → Nat → Bn254Fr) :
    ∃ (pp : PSS Bn254Fr) (pk : ProvingKey Bn254G1 Bn254G2) (g1 : Bn254G1) (g2 : Bn254G2), g1 ≠ 0 ∧
      prob (fun y => gained (N := 6) pp false 1 (squareMats Bn254Fr) [1, x * x, x] pk g1 g2 rng pair17 (rash g1 g2).errors y = none) ≤ 2 ^ 1 / 2 ^ 251 ∧
      Close (1000 * 2 ^ 1 / 2 ^ 251)
        (observed (fun _ => gained (N := 6) pp false 1 (squareMats Bn254Fr) [1, x * x, x] pk g1 g2 rng pair17 (rash g1 g2).errors) 1000 [])
        (observed (fun _ => gained (N := 6) pp false 1 (squareMats Bn254Fr) [1, x * x, -x] pk g1 g2 rng pair17 (rash g1 g2).errors) 1000 []) := by
  obtain ⟨pp, hpp⟩ := (C80_bn254_parameters.2.1 true 1).2 (by norm_num)
  obtain ⟨-, g1, -, ho1⟩ := C91_g1
  obtain ⟨-, -, -, g2, -, -, -, -, ho2⟩ := C91_g2
  have hg1 : g1 ≠ 0 := by
    rintro rfl
    rw [addOrderOf_zero] at ho1
    exact absurd ho1 (by decide +kernel)
  have hg2 : g2 ≠ 0 := by
    rintro rfl
    rw [addOrderOf_zero] at ho2
    exact absurd ho2 (by decide +kernel)
  obtain ⟨w, hm, hz, -, rfl, rfl⟩ := C103_instance 1 (squareMats Bn254Fr) [1, x * x, x] (square_r1cs x).1 (square_r1cs x).2
    (by show 1 + 2 ≤ 2 ^ 27; norm_num) (by show 2 ^ 1 < 2 * (1 + 2); norm_num) ⟨2, 3, 1, 1, 6⟩ one_ne_zero one_ne_zero g1 g2 6
    (by show 2 * (1 + 2) ≤ 6; norm_num) (by show 3 ≤ 6; norm_num)
  have hc := w.hcirc
  have hk := KeyFits.of_key w.hk
  rw [hz, hm] at hc hk
  have hc' : Circuit w.a 1 (squareMats Bn254Fr) [1, x * x, -x] w.dom w.dom2 :=
    ⟨hc.domain, hc.size, hc.double, hc.rowsA, hc.rowsB, hc.colsA, hc.colsB, hc.colsC, hc.inputs, hc.wires, rfl⟩
  refine ⟨pp, w.pk, w.g1, w.g2, hg1, ?_, ?_⟩
  · exact C113_bn254_ends hpp false w.ha w.hN hc w.pk hk (by simp) w.g1 w.g2 rng pair17 pair17_lt (by decide) _ (by simp) (rash_legal _ _)
  · exact_mod_cast C113_bn254 hpp false w.ha w.hN (fun _ => hc) (fun _ => hc') (fun _ => rfl) (fun _ => w.pk) (fun _ => hk) (by simp) hg1 hg2
      (fun _ => rng) (fun _ => pair17) (fun _ => pair17_inj) (fun _ => pair17_lt) (fun _ => by decide) (fun _ => by show 3 ≤ 6; norm_num) (fun _ => rash w.g1 w.g2)
      (by simp) (fun _ => rash_legal _ _) (fun _ o => o) 1000

end ZkSaas.Properties
