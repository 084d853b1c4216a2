import Verif.Properties.KingViewH
import Verif.Properties.FactorH
import Verif.Properties.Reuse

/-!
# C87: a mask hides one run only
-/

set_option linter.unusedSectionVars false

namespace ZkSaas.Properties

open Finset Polynomial Spec

variable {F : Type} [Field F] [FftField F] [DecidableEq F] [FixedWire F]

/-- A value that two transcripts determine can be computed from them. -/
theorem exists_recover {A B C : Type} [Inhabited C] (R : A → B → C → Prop) (h : ∀ a b c c', R a b c → R a b c' → c = c') :
    ∃ f : A → B → C, ∀ a b c, R a b c → f a b = c := by
  classical
  refine ⟨fun a b => if e : ∃ c, R a b c then e.choose else default, fun a b c hc => ?_⟩
  have e : ∃ c, R a b c := ⟨c, hc⟩
  simp only [dif_pos e]
  exact h a b _ _ e.choose_spec hc

theorem fft1Val_inj {a b : Nat} {gen : F} (hprim : IsPrimitiveRoot gen (2 ^ (a + b))) {x y : List F} (hx : x.length = 2 ^ a)
    (hy : y.length = 2 ^ a) (h : fft1Val a b gen x = fft1Val a b gen y) : x = y := by
  apply list_ext_getD 0 (by rw [hx, hy])
  intro j hj
  rw [← fft1Val_inv hprim x (by rw [← hx]; exact hj), ← fft1Val_inv hprim y (by rw [← hx]; exact hj), h]

theorem diff_swap {N : Nat} {x y z w : List F} (hx : x.length = N) (hy : y.length = N) (hz : z.length = N) (hw : w.length = N)
    (h : List.zipWith (· - ·) x y = List.zipWith (· - ·) z w) : List.zipWith (· - ·) x z = List.zipWith (· - ·) y w := by
  apply list_ext_getD 0 (by simp [hx, hy, hz, hw])
  intro j hj
  have hj : j < N := by simpa [hx, hz] using hj
  have := congrArg (fun v => v.getD j 0) h
  rw [getD_zipWith _ _ _ _ 0 0 _ (by omega) (by omega), getD_zipWith _ _ _ _ 0 0 _ (by omega) (by omega)] at this ⊢
  linear_combination this

/-- Messages under the same masks, seen twice, determine the differences of what is masked. -/
theorem gathered_twice {n N : Nat} (hN64 : N < 2 ^ 64) {x x' y y' m m' : Nat → List F} (hx : ∀ p < n, (x p).length = N)
    (hx' : ∀ p < n, (x' p).length = N) (hy : ∀ p < n, (y p).length = N) (hy' : ∀ p < n, (y' p).length = N)
    (hm : ∀ p < n, (m p).length = N) (hm' : ∀ p < n, (m' p).length = N)
    (h : gathered n (fun p => addMask (x p) (m p)) = gathered n fun p => addMask (y p) (m' p))
    (h' : gathered n (fun p => addMask (x' p) (m p)) = gathered n fun p => addMask (y' p) (m' p)) :
    ∀ p < n, List.zipWith (· - ·) (x p) (x' p) = List.zipWith (· - ·) (y p) (y' p) := by
  intro p hp
  have e := gathered_diff hN64 hx hy hm hm' h p hp
  have e' := gathered_diff hN64 hx' hy' hm hm' h' p hp
  exact diff_swap (hx p hp) (hy p hp) (hx' p hp) (hy' p hp) (e.trans e'.symm)

/-- The secrets of the differences of shares. -/
theorem secrets_diff {pp : PSS F} (hg : pp.Good) {N : Nat} {x x' y y' s s' r r' : Nat → List F}
    (hx : pp.SharedVec (4 * pp.l - 1) N x s) (hx' : pp.SharedVec (4 * pp.l - 1) N x' s') (hy : pp.SharedVec (4 * pp.l - 1) N y r)
    (hy' : pp.SharedVec (4 * pp.l - 1) N y' r')
    (h : ∀ p < 4 * pp.l, List.zipWith (· - ·) (x p) (x' p) = List.zipWith (· - ·) (y p) (y' p)) :
    ∀ c < N, List.zipWith (· - ·) (s c) (s' c) = List.zipWith (· - ·) (r c) (r' c) := fun c hc =>
  Shares.unique hg le_rfl ((SharedVec.congr (SharedVec.sub hx hx') (fun p hp => h p hp) fun _ _ => rfl).2 c hc)
    ((SharedVec.sub hy hy').2 c hc)

theorem packed_sub (re : Bool) (a b : Nat) (x y : Nat → F) (c : Nat) :
    List.zipWith (· - ·) (packed re a b x c) (packed re a b y c) = packed re a b (fun i => x i - y i) c := by
  unfold packed
  rw [List.zipWith_map_left, List.zipWith_map_right, List.zipWith_self]

theorem vectors_diff {pp : PSS F} (hg : pp.Good) {a b : Nat} {x x' y y' : Nat → List F} {v v' u u' : List F}
    (lv : v.length = 2 ^ (a + b)) (lv' : v'.length = 2 ^ (a + b)) (lu : u.length = 2 ^ (a + b)) (lu' : u'.length = 2 ^ (a + b))
    (hx : pp.SharedVec (4 * pp.l - 1) (2 ^ a) x (packed true a b fun i => v.getD i 0))
    (hx' : pp.SharedVec (4 * pp.l - 1) (2 ^ a) x' (packed true a b fun i => v'.getD i 0))
    (hy : pp.SharedVec (4 * pp.l - 1) (2 ^ a) y (packed true a b fun i => u.getD i 0))
    (hy' : pp.SharedVec (4 * pp.l - 1) (2 ^ a) y' (packed true a b fun i => u'.getD i 0))
    (h : ∀ p < 4 * pp.l, List.zipWith (· - ·) (x p) (x' p) = List.zipWith (· - ·) (y p) (y' p)) :
    List.zipWith (· - ·) v v' = List.zipWith (· - ·) u u' := by
  have e := secrets_diff hg hx hx' hy hy' h
  have e' := packed_inj (rev := true) (a := a) (b := b) (x := fun i => v.getD i 0 - v'.getD i 0) (y := fun i => u.getD i 0 - u'.getD i 0)
    fun c hc => by rw [← packed_sub, ← packed_sub]; exact e c hc
  apply list_ext_getD 0 (by simp [lv, lv', lu, lu'])
  intro j hj
  have hj : j < 2 ^ (a + b) := by simpa [lv, lv'] using hj
  rw [getD_zipWith _ _ _ _ 0 0 _ (by omega) (by omega), getD_zipWith _ _ _ _ 0 0 _ (by omega) (by omega)]
  exact e' j hj

/-- The differences of all the parties' shares. -/
def shareDiffs (n : Nat) (x x' : Nat → List F) : List (List F) := (List.range n).map fun p => List.zipWith (· - ·) (x p) (x' p)

/-- Transforms of two vectors under the same masks: the king can compute the difference of the vectors, shares and all. -/
theorem transform_reuse {pp : PSS F} (hg : pp.Good) {a b : Nat} (ha : a < 64) (hlb : pp.l = 2 ^ b) {gen : F}
    (hprim : IsPrimitiveRoot gen (2 ^ (a + b))) (rearrange : Bool) (g z : F) (hz : z ≠ 0) :
    ∃ recover : Transcript → Transcript → List (List F) × List F, ∀ (v v' : List F) (sh sh' : Nat → List F) (t : VecTape F),
      v.length = 2 ^ (a + b) → v'.length = 2 ^ (a + b) →
      pp.SharedVec (4 * pp.l - 1) (2 ^ a) sh (packed true a b fun i => v.getD i 0) →
      pp.SharedVec (4 * pp.l - 1) (2 ^ a) sh' (packed true a b fun i => v'.getD i 0) →
      recover (gathered (4 * pp.l) fun p => addMask (fft1Val a b gen ((sh p).map fun y => y * z)) (pp.fftDealt a b rearrange g gen t p).inMask)
        (gathered (4 * pp.l) fun p => addMask (fft1Val a b gen ((sh' p).map fun y => y * z)) (pp.fftDealt a b rearrange g gen t p).inMask) =
        (shareDiffs (4 * pp.l) sh sh', List.zipWith (· - ·) v v') := by
  have hin : ∀ t, ∀ p < 4 * pp.l, ((pp.fftDealt a b rearrange g gen t p).inMask).length = 2 ^ a := fun t =>
    (PSS.freshVec_shared hg (N := 2 ^ a) (sec := packed false a b t.vals) (fun c _ => by rw [packed_length, hlb]) t.rngIn).1
  obtain ⟨f, hf⟩ := exists_recover (fun (w w' : Transcript) (d : List (List F) × List F) => ∃ (v v' : List F) (sh sh' : Nat → List F)
      (t : VecTape F), v.length = 2 ^ (a + b) ∧ v'.length = 2 ^ (a + b) ∧
      pp.SharedVec (4 * pp.l - 1) (2 ^ a) sh (packed true a b fun i => v.getD i 0) ∧
      pp.SharedVec (4 * pp.l - 1) (2 ^ a) sh' (packed true a b fun i => v'.getD i 0) ∧
      w = gathered (4 * pp.l) (fun p => addMask (fft1Val a b gen ((sh p).map fun y => y * z)) (pp.fftDealt a b rearrange g gen t p).inMask) ∧
      w' = gathered (4 * pp.l) (fun p => addMask (fft1Val a b gen ((sh' p).map fun y => y * z)) (pp.fftDealt a b rearrange g gen t p).inMask) ∧
      d = (shareDiffs (4 * pp.l) sh sh', List.zipWith (· - ·) v v')) (by
    rintro w w' d d' ⟨v, v', sh, sh', t, lv, lv', hs, hs', rfl, rfl, rfl⟩ ⟨u, u', r, r', t', lu, lu', hr, hr', e, e', rfl⟩
    have key : ∀ p < 4 * pp.l, List.zipWith (· - ·) (sh p) (sh' p) = List.zipWith (· - ·) (r p) (r' p) := by
      intro p hp
      have h1 := gathered_twice (Nat.pow_lt_pow_right (by omega) ha) (fun p _ => fft1Val_length a b gen _) (fun p _ => fft1Val_length a b gen _)
        (fun p _ => fft1Val_length a b gen _) (fun p _ => fft1Val_length a b gen _) (hin t) (hin t') e e' p hp
      have l1 := hs.1 p hp
      have l2 := hs'.1 p hp
      have l3 := hr.1 p hp
      have l4 := hr'.1 p hp
      rw [← fft1Val_diff (by simpa using l1) (by simpa using l2), ← fft1Val_diff (by simpa using l3) (by simpa using l4)] at h1
      have h2 := fft1Val_inj hprim (by simp [l1, l2]) (by simp [l3, l4]) h1
      apply list_ext_getD 0 (by simp [l1, l2, l3, l4])
      intro j hj
      have hj : j < 2 ^ a := by simpa [l1, l2] using hj
      have h3 := congrArg (fun v => v.getD j 0) h2
      rw [List.zipWith_map, List.zipWith_map, getD_zipWith _ _ _ _ 0 0 _ (by omega) (by omega), getD_zipWith _ _ _ _ 0 0 _ (by omega) (by omega)] at h3
      rw [getD_zipWith _ _ _ _ 0 0 _ (by omega) (by omega), getD_zipWith _ _ _ _ 0 0 _ (by omega) (by omega)]
      refine mul_right_cancel₀ hz ?_
      linear_combination h3
    rw [Prod.mk.injEq]
    exact ⟨List.map_congr_left fun p hp => key p (List.mem_range.1 hp), vectors_diff hg lv lv' lu lu' hs hs' hr hr' key⟩)
  exact ⟨f, fun v v' sh sh' t lv lv' hs hs' => hf _ _ _ ⟨v, v', sh, sh', t, lv, lv', hs, hs', rfl, rfl, rfl⟩⟩

/-- What the king is sent in a run of `d_fft`. -/
theorem dFft_king {dbg₀ : Bool} {b : Nat} {pp : PSS F} (hpp : PSS.new dbg₀ (2 ^ b) = .ok pp) {dbg : Bool} {a : Nat} (ha : a < 64)
    {dom : Domain F} (hdom : Domain.new (2 ^ (a + b)) = some dom) {rearrange : Bool} {v : List F} {sh : Nat → List F}
    (hsh : HoldsInput pp a b sh v) {t : VecTape F} {masks : Nat → FftMask F}
    (hm : FftMask.sample pp dbg rearrange 1 dom.groupGen (2 ^ (a + b)) t.vals t.rngIn t.rngOut = .ok ((List.range (4 * 2 ^ b)).map masks))
    {sid : Sid} {rng : Nat → Nat → F} {outs : Nat → List F} {views : Fin (4 * 2 ^ b) → Transcript}
    (hr : AlwaysYields (Net.init fun i : Fin (4 * 2 ^ b) =>
      (pp.dFft dbg (4 * 2 ^ b) i (sh i) (masks i) rearrange dom sid rng).recorded) (fun i => (outs i, views i)))
    (i : Fin (4 * 2 ^ b)) (hi : i.val = 0) :
    views i = gathered (4 * 2 ^ b) fun p => addMask (fft1Val a b dom.groupGen ((sh p).map fun y => y * 1))
      (pp.fftDealt a b rearrange 1 dom.groupGen t p).inMask := by
  have hle := l_eq hpp
  have hg := PSS.good_of_new hpp
  obtain ⟨hwf, -, -, hsize⟩ := Domain.new_pow2 hdom
  have hprim : IsPrimitiveRoot dom.groupGen (2 ^ (a + b)) := by rw [← hsize]; exact hwf.prim
  have fm := FftMask.sample_dealt hg dbg hle hprim rearrange 1 t
  rw [hle] at fm
  have eqm : ∀ p < 4 * 2 ^ b, masks p = pp.fftDealt a b rearrange 1 dom.groupGen t p := fun p hp =>
    (List.map_inj_left.1 (Except.ok.inj (hm.symm.trans fm))) p (List.mem_range.2 hp)
  obtain ⟨o, ans, r, -⟩ := PSS.dFft_view (n := 4 * 2 ^ b) hg dbg (by rw [hle]) ha hle hsize hprim (fun i => v.getD i 0) rearrange
    (hsh.wide hpp) t sid rng
  have r' := (r.congr (ps' := fun i : Fin (4 * 2 ^ b) => pp.dFft dbg (4 * 2 ^ b) i (sh i) (masks i) rearrange dom sid rng)
    (fun i => by rw [eqm i i.2]) (fun _ => rfl) fun _ => rfl).alwaysYields fun i => PSS.dFft_wf _ (by positivity) _ _ _ _ _ _ _
  have := congrArg Prod.snd (congrFun (AlwaysYields.unique hr r') i)
  simpa [hi] using this

/-- What the king is sent in a run of `d_ifft`. -/
theorem dIfft_king {dbg₀ : Bool} {b : Nat} {pp : PSS F} (hpp : PSS.new dbg₀ (2 ^ b) = .ok pp) {dbg : Bool} {a : Nat} (ha : a < 64)
    {dom : Domain F} (hdom : Domain.new (2 ^ (a + b)) = some dom) {g : F} {rearrange : Bool} {v : List F} {sh : Nat → List F}
    (hsh : HoldsInput pp a b sh v) {t : VecTape F} {masks : Nat → FftMask F}
    (hm : FftMask.sample pp dbg rearrange g dom.groupGenInv (2 ^ (a + b)) t.vals t.rngIn t.rngOut = .ok ((List.range (4 * 2 ^ b)).map masks))
    {sid : Sid} {rng : Nat → Nat → F} {outs : Nat → List F} {views : Fin (4 * 2 ^ b) → Transcript}
    (hr : AlwaysYields (Net.init fun i : Fin (4 * 2 ^ b) =>
      (pp.dIfft dbg (4 * 2 ^ b) i (sh i) (masks i) rearrange dom g sid rng).recorded) (fun i => (outs i, views i)))
    (i : Fin (4 * 2 ^ b)) (hi : i.val = 0) :
    views i = gathered (4 * 2 ^ b) fun p => addMask (fft1Val a b dom.groupGenInv ((sh p).map fun y => y * dom.sizeInv))
      (pp.fftDealt a b rearrange g dom.groupGenInv t p).inMask := by
  have hle := l_eq hpp
  have hg := PSS.good_of_new hpp
  obtain ⟨hwf, -, -, hsize⟩ := Domain.new_pow2 hdom
  have hprim : IsPrimitiveRoot dom.groupGenInv (2 ^ (a + b)) := by rw [hwf.ginv, ← hsize]; exact hwf.prim.inv
  have fm := FftMask.sample_dealt hg dbg hle hprim rearrange g t
  rw [hle] at fm
  have eqm : ∀ p < 4 * 2 ^ b, masks p = pp.fftDealt a b rearrange g dom.groupGenInv t p := fun p hp =>
    (List.map_inj_left.1 (Except.ok.inj (hm.symm.trans fm))) p (List.mem_range.2 hp)
  obtain ⟨o, ans, r, -⟩ := PSS.dIfft_view (n := 4 * 2 ^ b) hg dbg (by rw [hle]) ha hle hsize hprim (fun i => v.getD i 0) g rearrange
    (hsh.wide hpp) t sid rng
  have r' := (r.congr (ps' := fun i : Fin (4 * 2 ^ b) => pp.dIfft dbg (4 * 2 ^ b) i (sh i) (masks i) rearrange dom g sid rng)
    (fun i => by rw [eqm i i.2]) (fun _ => rfl) fun _ => rfl).alwaysYields fun i => PSS.dIfft_wf _ (by positivity) _ _ _ _ _ _ _ _
  have := congrArg Prod.snd (congrFun (AlwaysYields.unique hr r') i)
  simpa [hi] using this

/-- **C87** `d_fft`: from what it is sent in two runs with the same masks the king computes the difference of the two vectors and of all
the parties' shares, whatever the masks. -/
theorem C87_d_fft {dbg₀ : Bool} {b : Nat} {pp : PSS F} (hpp : PSS.new dbg₀ (2 ^ b) = .ok pp) (dbg : Bool) (a : Nat) (ha : a < 64)
    {dom : Domain F} (hdom : Domain.new (2 ^ (a + b)) = some dom) (rearrange : Bool) :
    ∃ recover : Transcript → Transcript → List (List F) × List F, ∀ (v v' : List F) (sh sh' : Nat → List F), HoldsInput pp a b sh v →
      HoldsInput pp a b sh' v' → ∀ (t : VecTape F) (masks : Nat → FftMask F),
      FftMask.sample pp dbg rearrange 1 dom.groupGen (2 ^ (a + b)) t.vals t.rngIn t.rngOut = .ok ((List.range (4 * 2 ^ b)).map masks) →
      ∀ (sid sid' : Sid) (rng rng' : Nat → Nat → F) (outs outs' : Nat → List F) (views views' : Fin (4 * 2 ^ b) → Transcript),
      AlwaysYields (Net.init fun i : Fin (4 * 2 ^ b) =>
        (pp.dFft dbg (4 * 2 ^ b) i (sh i) (masks i) rearrange dom sid rng).recorded) (fun i => (outs i, views i)) →
      AlwaysYields (Net.init fun i : Fin (4 * 2 ^ b) =>
        (pp.dFft dbg (4 * 2 ^ b) i (sh' i) (masks i) rearrange dom sid' rng').recorded) (fun i => (outs' i, views' i)) →
      ∀ i, i.val = 0 → recover (views i) (views' i) =
        ((List.range (4 * 2 ^ b)).map fun p => List.zipWith (· - ·) (sh p) (sh' p), List.zipWith (· - ·) v v') := by
  have hle := l_eq hpp
  have hg := PSS.good_of_new hpp
  obtain ⟨hwf, -, -, hsize⟩ := Domain.new_pow2 hdom
  have hprim : IsPrimitiveRoot dom.groupGen (2 ^ (a + b)) := by rw [← hsize]; exact hwf.prim
  obtain ⟨f, hf⟩ := transform_reuse hg ha hle hprim rearrange 1 1 one_ne_zero
  refine ⟨f, fun v v' sh sh' hsh hsh' t masks hm sid sid' rng rng' outs outs' views views' hr hr' i hi => ?_⟩
  rw [dFft_king hpp ha hdom hsh hm hr i hi, dFft_king hpp ha hdom hsh' hm hr' i hi]
  have := hf v v' sh sh' t hsh.1 hsh'.1 (hsh.wide hpp) (hsh'.wide hpp)
  rw [hle] at this
  exact this

/-- **C87** `d_ifft`: the same. -/
theorem C87_d_ifft {dbg₀ : Bool} {b : Nat} {pp : PSS F} (hpp : PSS.new dbg₀ (2 ^ b) = .ok pp) (dbg : Bool) (a : Nat) (ha : a < 64)
    {dom : Domain F} (hdom : Domain.new (2 ^ (a + b)) = some dom) (g : F) (rearrange : Bool) :
    ∃ recover : Transcript → Transcript → List (List F) × List F, ∀ (v v' : List F) (sh sh' : Nat → List F), HoldsInput pp a b sh v →
      HoldsInput pp a b sh' v' → ∀ (t : VecTape F) (masks : Nat → FftMask F),
      FftMask.sample pp dbg rearrange g dom.groupGenInv (2 ^ (a + b)) t.vals t.rngIn t.rngOut = .ok ((List.range (4 * 2 ^ b)).map masks) →
      ∀ (sid sid' : Sid) (rng rng' : Nat → Nat → F) (outs outs' : Nat → List F) (views views' : Fin (4 * 2 ^ b) → Transcript),
      AlwaysYields (Net.init fun i : Fin (4 * 2 ^ b) =>
        (pp.dIfft dbg (4 * 2 ^ b) i (sh i) (masks i) rearrange dom g sid rng).recorded) (fun i => (outs i, views i)) →
      AlwaysYields (Net.init fun i : Fin (4 * 2 ^ b) =>
        (pp.dIfft dbg (4 * 2 ^ b) i (sh' i) (masks i) rearrange dom g sid' rng').recorded) (fun i => (outs' i, views' i)) →
      ∀ i, i.val = 0 → recover (views i) (views' i) =
        ((List.range (4 * 2 ^ b)).map fun p => List.zipWith (· - ·) (sh p) (sh' p), List.zipWith (· - ·) v v') := by
  have hle := l_eq hpp
  have hg := PSS.good_of_new hpp
  obtain ⟨hwf, -, -, hsize⟩ := Domain.new_pow2 hdom
  have hprim : IsPrimitiveRoot dom.groupGenInv (2 ^ (a + b)) := by rw [hwf.ginv, ← hsize]; exact hwf.prim.inv
  obtain ⟨f, hf⟩ := transform_reuse hg ha hle hprim rearrange g dom.sizeInv (by rw [hwf.sinv]; exact inv_ne_zero hwf.szne)
  refine ⟨f, fun v v' sh sh' hsh hsh' t masks hm sid sid' rng rng' outs outs' views views' hr hr' i hi => ?_⟩
  rw [dIfft_king hpp ha hdom hsh hm hr i hi, dIfft_king hpp ha hdom hsh' hm hr' i hi]
  have := hf v v' sh sh' t hsh.1 hsh'.1 (hsh.wide hpp) (hsh'.wide hpp)
  rw [hle] at this
  exact this

/-- **C87** `deg_red`: the same, for shares with up to `4l - 1` coefficients. -/
theorem C87_deg_red {dbg₀ : Bool} {b : Nat} {pp : PSS F} (hpp : PSS.new dbg₀ (2 ^ b) = .ok pp) (dbg : Bool) {N : Nat} (hN : 0 < N)
    (hN64 : N < 2 ^ 64) :
    ∃ recover : Transcript → Transcript → List (List F) × List (List F), ∀ sec sec' sh sh' : Nat → List F,
      Spec.SharedVec pp.share.groupGen pp.secret.offset (2 ^ b) (4 * 2 ^ b - 1) N sh sec →
      Spec.SharedVec pp.share.groupGen pp.secret.offset (2 ^ b) (4 * 2 ^ b - 1) N sh' sec' → ∀ (t : VecTape F) (masks : Nat → DegRedMask F),
      DegRedMask.sample pp dbg (1 : F) N t.vals t.rngIn t.rngOut = .ok ((List.range (4 * 2 ^ b)).map masks) →
      ∀ (sid sid' : Sid) (rng rng' : Nat → Nat → F) (outs outs' : Nat → List F) (views views' : Fin (4 * 2 ^ b) → Transcript),
      AlwaysYields (Net.init fun i : Fin (4 * 2 ^ b) => (pp.degRed dbg (4 * 2 ^ b) i (sh i) (masks i) sid rng).recorded)
        (fun i => (outs i, views i)) →
      AlwaysYields (Net.init fun i : Fin (4 * 2 ^ b) => (pp.degRed dbg (4 * 2 ^ b) i (sh' i) (masks i) sid' rng').recorded)
        (fun i => (outs' i, views' i)) →
      ∀ i, i.val = 0 → recover (views i) (views' i) =
        ((List.range (4 * 2 ^ b)).map fun p => List.zipWith (· - ·) (sh p) (sh' p),
          (List.range N).map fun c => List.zipWith (· - ·) (sec c) (sec' c)) := by
  have hle := l_eq hpp
  have hg := PSS.good_of_new hpp
  have hl := hg.lpos
  have dm := fun t => DegRedMask.sample_dealt hg dbg hN t
  rw [hle] at dm
  rw [← hle]
  have hlen : ∀ t p, (pp.degDealt N t p).inMask.length = N := fun t p => pp.freshVec_length _ _ _ _
  obtain ⟨f, hf⟩ := exists_recover (fun (w w' : Transcript) (d : List (List F) × List (List F)) => ∃ (sec sec' sh sh' : Nat → List F)
      (t : VecTape F), pp.SharedVec (4 * pp.l - 1) N sh sec ∧ pp.SharedVec (4 * pp.l - 1) N sh' sec' ∧
      w = gathered (4 * pp.l) (fun p => addMask (sh p) (pp.degDealt N t p).inMask) ∧
      w' = gathered (4 * pp.l) (fun p => addMask (sh' p) (pp.degDealt N t p).inMask) ∧
      d = ((List.range (4 * pp.l)).map fun p => List.zipWith (· - ·) (sh p) (sh' p),
          (List.range N).map fun c => List.zipWith (· - ·) (sec c) (sec' c))) (by
    rintro w w' d d' ⟨s, s', sh, sh', t, hs, hs', rfl, rfl, rfl⟩ ⟨u, u', r, r', t', hr, hr', e, e', rfl⟩
    have key := gathered_twice hN64 hs.1 hs'.1 hr.1 hr'.1 (fun p _ => hlen t p) (fun p _ => hlen t' p) e e'
    rw [Prod.mk.injEq]
    exact ⟨List.map_congr_left fun p hp => key p (List.mem_range.1 hp), List.map_congr_left fun c hc =>
      secrets_diff hg hs hs' hr hr' key c (List.mem_range.1 hc)⟩)
  have view : ∀ {sec sh : Nat → List F} {t : VecTape F} {masks : Nat → DegRedMask F} {sid : Sid} {rng : Nat → Nat → F} {outs : Nat → List F}
      {views : Fin (4 * pp.l) → Transcript}, pp.SharedVec (4 * pp.l - 1) N sh sec →
      DegRedMask.sample pp dbg (1 : F) N t.vals t.rngIn t.rngOut = .ok ((List.range (4 * pp.l)).map masks) →
      AlwaysYields (Net.init fun i : Fin (4 * pp.l) => (pp.degRed dbg (4 * pp.l) i (sh i) (masks i) sid rng).recorded)
      (fun i => (outs i, views i)) → ∀ i, i.val = 0 → views i = gathered (4 * pp.l) fun p => addMask (sh p) (pp.degDealt N t p).inMask := by
    intro sec sh t masks sid rng outs views hsh hm hr i hi
    have eqm : ∀ p < 4 * pp.l, masks p = pp.degDealt N t p := by
      intro p hp
      have := dm t
      rw [← hle] at this
      exact (List.map_inj_left.1 (Except.ok.inj (hm.symm.trans this))) p (List.mem_range.2 hp)
    obtain ⟨r, -⟩ := PSS.degRed_view (n := 4 * pp.l) hg dbg rfl hN hN64 (by omega) le_rfl hsh t sid rng
    have r' := (r.congr (ps' := fun i : Fin (4 * pp.l) => pp.degRed dbg (4 * pp.l) i (sh i) (masks i) sid rng)
      (fun i => by rw [eqm i i.2]) (fun _ => rfl) fun _ => rfl).alwaysYields fun i => PSS.degRed_wf _ (by positivity) _ _ _ _ _
    have := congrArg Prod.snd (congrFun (AlwaysYields.unique hr r') i)
    simpa [hi] using this
  refine ⟨f, fun sec sec' sh sh' hs hs' t masks hm sid sid' rng rng' outs outs' views views' hr hr' i hi => ?_⟩
  rw [view hs hm hr i hi, view hs' hm hr' i hi]
  exact hf _ _ _ ⟨sec, sec', sh, sh', t, hs, hs', rfl, rfl, rfl⟩

section msm
variable {G : Type} [AddCommGroup G] [Module F G] [DecidableEq G] [FixedWire G]

/-- **C87** `d_msm`: from two runs with the same masks the king computes the difference of the two products and of the parties' local
sums. -/
theorem C87_d_msm {dbg₀ : Bool} {b : Nat} {pp : PSS F} (hpp : PSS.new dbg₀ (2 ^ b) = .ok pp) (dbg : Bool) (gen : G) :
    ∃ recover : Transcript → Transcript → List G × G, ∀ (y y' : List G) (x x' : List F), x.length = y.length → x'.length = y'.length →
      ∀ (bs bs' : Nat → List G) (ss ss' : Nat → List F), HoldsChunks pp b bs y → HoldsChunks pp b ss x → HoldsChunks pp b bs' y' →
      HoldsChunks pp b ss' x' → ∀ (t : MsmTape F G) (masks : Nat → MsmMask G),
      MsmMask.sample pp dbg gen t.vals t.rngIn t.rngOut = .ok ((List.range (4 * 2 ^ b)).map masks) →
      ∀ (sid sid' : Sid) (outs outs' : Nat → G) (views views' : Fin (4 * 2 ^ b) → Transcript),
      AlwaysYields (Net.init fun i : Fin (4 * 2 ^ b) => (pp.dMsm dbg (4 * 2 ^ b) i (bs i) (ss i) (masks i) sid).recorded)
        (fun i => (outs i, views i)) →
      AlwaysYields (Net.init fun i : Fin (4 * 2 ^ b) => (pp.dMsm dbg (4 * 2 ^ b) i (bs' i) (ss' i) (masks i) sid').recorded)
        (fun i => (outs' i, views' i)) →
      ∀ i, i.val = 0 → recover (views i) (views' i) =
        ((List.range (4 * 2 ^ b)).map fun p => msmOf ((y.length + 2 ^ b - 1) / 2 ^ b) (bs p) (ss p) -
            msmOf ((y'.length + 2 ^ b - 1) / 2 ^ b) (bs' p) (ss' p),
          (∑ j ∈ range y.length, x.getD j 0 • y.getD j 0) - ∑ j ∈ range y'.length, x'.getD j 0 • y'.getD j 0) := by
  have hle := l_eq hpp
  have hg := PSS.good_of_new hpp
  have hl := hg.lpos
  have mm := fun t => MsmMask.sample_dealt hg dbg gen t
  rw [← hle]
  have : Inhabited G := ⟨0⟩
  -- what the king is sent and what it says
  let Says (w : Transcript) (t : MsmTape F G) (loc : Nat → G) (tot : G) : Prop :=
    w = gathered (4 * pp.l) (fun p => loc p + (pp.msmDealt gen t p).inMask) ∧
      ∃ s : List G, pp.Shares (4 * pp.l - 1) ((List.range (4 * pp.l)).map loc) s ∧ s.sum = tot
  obtain ⟨f, hf⟩ := exists_recover (fun (w w' : Transcript) (d : List G × G) => ∃ (t : MsmTape F G) (loc loc' : Nat → G) (tot tot' : G),
      Says w t loc tot ∧ Says w' t loc' tot' ∧ d = ((List.range (4 * pp.l)).map fun p => loc p - loc' p, tot - tot')) (by
    rintro w w' d d' ⟨t, x, x', tx, tx', ⟨rfl, s, hs, rfl⟩, ⟨rfl, s', hs', rfl⟩, rfl⟩
      ⟨t', y, y', ty, ty', ⟨e, r, hr, rfl⟩, ⟨e', r', hr', rfl⟩, rfl⟩
    have key : ∀ p < 4 * pp.l, x p - x' p = y p - y' p := by
      intro p hp
      have h1 := Wire.Ok.enc_inj (Wire.ok_fixed _) (Wire.ok_fixed _) (congrArg Prod.snd ((List.map_inj_left.1 e) p (List.mem_range.2 hp)))
      have h2 := Wire.Ok.enc_inj (Wire.ok_fixed _) (Wire.ok_fixed _) (congrArg Prod.snd ((List.map_inj_left.1 e') p (List.mem_range.2 hp)))
      dsimp only at h1 h2
      have h3 : x p + (pp.msmDealt gen t p).inMask - (x' p + (pp.msmDealt gen t p).inMask) =
        y p + (pp.msmDealt gen t' p).inMask - (y' p + (pp.msmDealt gen t' p).inMask) := by rw [h1, h2]
      rwa [add_sub_add_right_eq_sub, add_sub_add_right_eq_sub] at h3
    have hd := Shares.sub hs hs'
    have hd' := Shares.sub hr hr'
    rw [List.zipWith_map_left, List.zipWith_map_right, List.zipWith_self] at hd hd'
    rw [List.map_congr_left fun p hp => key p (List.mem_range.1 hp)] at hd
    have hu := Shares.unique hg le_rfl hd hd'
    have lens := hs.2.1
    have lens' := hs'.2.1
    have lenr := hr.2.1
    have lenr' := hr'.2.1
    have sumsub : ∀ u u' : List G, u.length = u'.length → (List.zipWith (· - ·) u u').sum = u.sum - u'.sum := by
      intro u
      induction u with
      | nil => intro u' h; cases u' with | nil => simp | cons => simp at h
      | cons a u ih =>
        intro u' h
        cases u' with
        | nil => simp at h
        | cons a' u' =>
          rw [List.zipWith_cons_cons, List.sum_cons, List.sum_cons, List.sum_cons, ih u' (by simpa using h)]
          abel
    rw [Prod.mk.injEq]
    refine ⟨List.map_congr_left fun p hp => key p (List.mem_range.1 hp), ?_⟩
    rw [← sumsub _ _ (lens.trans lens'.symm), ← sumsub _ _ (lenr.trans lenr'.symm), hu])
  have told : ∀ {y : List G} {x : List F} {bs : Nat → List G} {ss : Nat → List F} {t : MsmTape F G} {masks : Nat → MsmMask G} {sid : Sid}
      {outs : Nat → G} {views : Fin (4 * pp.l) → Transcript}, x.length = y.length → HoldsChunks pp b bs y → HoldsChunks pp b ss x →
      MsmMask.sample pp dbg gen t.vals t.rngIn t.rngOut = .ok ((List.range (4 * pp.l)).map masks) →
      AlwaysYields (Net.init fun i : Fin (4 * pp.l) => (pp.dMsm dbg (4 * pp.l) i (bs i) (ss i) (masks i) sid).recorded)
        (fun i => (outs i, views i)) → ∀ i, i.val = 0 →
      Says (views i) t (fun p => msmOf ((y.length + pp.l - 1) / pp.l) (bs p) (ss p)) (∑ j ∈ range y.length, x.getD j 0 • y.getD j 0) := by
    intro y x bs ss t masks sid outs views hlen hb hs hm hr i hi
    rw [HoldsChunks, ← hle] at hb hs
    rw [hlen] at hs
    have eqm : ∀ p < 4 * pp.l, masks p = pp.msmDealt gen t p := fun p hp =>
      (List.map_inj_left.1 (Except.ok.inj (hm.symm.trans (mm t)))) p (List.mem_range.2 hp)
    refine ⟨?_, ?_⟩
    · obtain ⟨r, -⟩ := PSS.dMsm_view (n := 4 * pp.l) hg dbg rfl (by omega) (by omega) hb hs gen t sid rfl
      have r' := (r.congr (ps' := fun i : Fin (4 * pp.l) => pp.dMsm dbg (4 * pp.l) i (bs i) (ss i) (masks i) sid)
        (fun i => by rw [eqm i i.2]) (fun _ => rfl) fun _ => rfl).alwaysYields fun i => PSS.dMsm_wf _ (by positivity) _ _ _ _ _
      have := congrArg Prod.snd (congrFun (AlwaysYields.unique hr r') i)
      simpa [hi, msmOf] using this
    · obtain ⟨c, e1, hc⟩ := msm_shared hb hs
      have ec : ∀ p < 4 * pp.l, c p = msmOf ((y.length + pp.l - 1) / pp.l) (bs p) (ss p) := fun p hp =>
        Except.ok.inj ((e1 p hp).symm.trans (msm_eq (hb.1 p hp) (hs.1 p hp)))
      rw [List.map_congr_left fun p hp => ec p (List.mem_range.1 hp)] at hc
      refine ⟨_, Shares.mono (by omega) hc, ?_⟩
      rw [← sum_padded (N := (y.length + pp.l - 1) / pp.l * pp.l) _ _ rfl (numChunks_mul y hl), ← sum_chunks]
      simp [Finset.sum, Finset.range, Multiset.range]
  refine ⟨f, fun y y' x x' hlen hlen' bs bs' ss ss' hb hs hb' hs' t masks hm sid sid' outs outs' views views' hr hr' i hi => ?_⟩
  exact hf _ _ _ ⟨t, _, _, _, _, told hlen hb hs hm hr i hi, told hlen' hb' hs' hm hr' i hi, rfl⟩

end msm

/-- The difference of two programs, from the king's messages of the first inverse transforms. -/
def ProgDiff (n : Nat) (q q' : Nat → PackedQAPShare F) (va vb vc va' vb' vc' : List F) :
    (List (List F) × List F) × (List (List F) × List F) × List (List F) × List F :=
  (((List.range n).map fun p => List.zipWith (· - ·) (q p).a (q' p).a, List.zipWith (· - ·) va va'),
    ((List.range n).map fun p => List.zipWith (· - ·) (q p).b (q' p).b, List.zipWith (· - ·) vb vb'),
    ((List.range n).map fun p => List.zipWith (· - ·) (q p).c (q' p).c, List.zipWith (· - ·) vc vc'))

theorem first_reuse {dbg₀ : Bool} {b : Nat} {pp : PSS F} (hpp : PSS.new dbg₀ (2 ^ b) = .ok pp) {a : Nat} (ha : a < 64)
    {dom : Domain F} (hdom : Domain.new (2 ^ (a + b)) = some dom) (g : F) :
    ∃ recover : Transcript → Transcript → (List (List F) × List F) × (List (List F) × List F) × List (List F) × List F,
      ∀ (va vb vc va' vb' vc' : List F) (q q' : Nat → PackedQAPShare F), HoldsProgram pp a b dom q va vb vc →
      HoldsProgram pp a b dom q' va' vb' vc' → ∀ (t : Nat → VecTape F) (rest rest' : Transcript),
      recover (sentFirst pp a b g dom (fun p => (q p).a) (t 0) ++ (sentFirst pp a b g dom (fun p => (q p).b) (t 1) ++
        (sentFirst pp a b g dom (fun p => (q p).c) (t 2) ++ rest)))
        (sentFirst pp a b g dom (fun p => (q' p).a) (t 0) ++ (sentFirst pp a b g dom (fun p => (q' p).b) (t 1) ++
        (sentFirst pp a b g dom (fun p => (q' p).c) (t 2) ++ rest'))) = ProgDiff (4 * 2 ^ b) q q' va vb vc va' vb' vc' := by
  have hle := l_eq hpp
  have hg := PSS.good_of_new hpp
  obtain ⟨hwf, -, -, hsize⟩ := Domain.new_pow2 hdom
  have hprim : IsPrimitiveRoot dom.groupGenInv (2 ^ (a + b)) := by rw [hwf.ginv, ← hsize]; exact hwf.prim.inv
  obtain ⟨f, hf⟩ := transform_reuse hg ha hle hprim true g dom.sizeInv (by rw [hwf.sinv]; exact inv_ne_zero hwf.szne)
  rw [hle] at hf
  have hlen : ∀ (sh : Nat → List F) t, (sentFirst pp a b g dom sh t).length = 4 * 2 ^ b := fun sh t => gathered_length _ _
  have one : ∀ (v v' : List F) (sh sh' : Nat → List F) (t : VecTape F), HoldsOutput pp true a b sh v → HoldsOutput pp true a b sh' v' →
      f (sentFirst pp a b g dom sh t) (sentFirst pp a b g dom sh' t) =
        ((List.range (4 * 2 ^ b)).map fun p => List.zipWith (· - ·) (sh p) (sh' p), List.zipWith (· - ·) v v') := by
    intro v v' sh sh' t h h'
    have k := h.input.wide hpp
    have k' := h'.input.wide hpp
    rw [hle] at k k'
    exact hf v v' sh sh' t h.1 h'.1 k k'
  refine ⟨fun u u' => (f (u.take (4 * 2 ^ b)) (u'.take (4 * 2 ^ b)),
    f ((u.drop (4 * 2 ^ b)).take (4 * 2 ^ b)) ((u'.drop (4 * 2 ^ b)).take (4 * 2 ^ b)),
    f (((u.drop (4 * 2 ^ b)).drop (4 * 2 ^ b)).take (4 * 2 ^ b)) (((u'.drop (4 * 2 ^ b)).drop (4 * 2 ^ b)).take (4 * 2 ^ b))),
    fun va vb vc va' vb' vc' q q' hq hq' t rest rest' => ?_⟩
  simp only [List.take_left' (hlen _ _), List.drop_left' (hlen _ _)]
  rw [one _ _ _ _ _ hq.vecA hq'.vecA, one _ _ _ _ _ hq.vecB hq'.vecB, one _ _ _ _ _ hq.vecC hq'.vecC]
  rfl

/-- **C87** `circom_h`: the king of two runs with the same masks, on the shares of two programs, computes the differences of the
`A`, `B` and `C` vectors and of every party's shares of them. -/
theorem C87_circom_h {dbg₀ : Bool} {b : Nat} {pp : PSS F} (hpp : PSS.new dbg₀ (2 ^ b) = .ok pp) (dbg : Bool) (a : Nat) (ha : a < 64)
    {dom dom2 : Domain F} (hdom : Domain.new (2 ^ (a + b)) = some dom) (hdom2 : Domain.new (2 ^ (a + b + 1)) = some dom2) :
    ∃ recover : Transcript → Transcript → (List (List F) × List F) × (List (List F) × List F) × List (List F) × List F,
      ∀ (va vb vc va' vb' vc' : List F) (q q' : Nat → PackedQAPShare F), HoldsProgram pp a b dom q va vb vc →
      HoldsProgram pp a b dom q' va' vb' vc' → ∀ (t : Nat → VecTape F) (td : VecTape F) (masks : Nat → Nat → FftMask F)
      (dm : Nat → DegRedMask F), CircomSampled pp dbg dom2.groupGen dom t masks →
      DegRedMask.sample pp dbg (1 : F) (2 ^ a) td.vals td.rngIn td.rngOut = .ok ((List.range (4 * 2 ^ b)).map dm) →
      ∀ (rng rng' : Nat → Nat → Nat → F) (outs outs' : Nat → List F) (views views' : Fin (4 * 2 ^ b) → Transcript),
      AlwaysYields (Net.init fun i : Fin (4 * 2 ^ b) => (pp.circomH dbg (4 * 2 ^ b) i (q i) (masks i) (dm i) rng).recorded)
        (fun i => (outs i, views i)) →
      AlwaysYields (Net.init fun i : Fin (4 * 2 ^ b) => (pp.circomH dbg (4 * 2 ^ b) i (q' i) (masks i) (dm i) rng').recorded)
        (fun i => (outs' i, views' i)) →
      ∀ i, i.val = 0 → recover (views i) (views' i) = ProgDiff (4 * 2 ^ b) q q' va vb vc va' vb' vc' := by
  have hle := l_eq hpp
  have hg := PSS.good_of_new hpp
  have hl := hg.lpos
  have hN64 : 2 ^ a < 2 ^ 64 := Nat.pow_lt_pow_right (by omega) ha
  obtain ⟨f, hf⟩ := first_reuse hpp ha hdom dom2.groupGen
  have view : ∀ {va vb vc : List F} {q : Nat → PackedQAPShare F} {t : Nat → VecTape F} {td : VecTape F} {masks : Nat → Nat → FftMask F}
      {dm : Nat → DegRedMask F} {rng : Nat → Nat → Nat → F} {outs : Nat → List F} {views : Fin (4 * 2 ^ b) → Transcript},
      HoldsProgram pp a b dom q va vb vc → CircomSampled pp dbg dom2.groupGen dom t masks →
      DegRedMask.sample pp dbg (1 : F) (2 ^ a) td.vals td.rngIn td.rngOut = .ok ((List.range (4 * 2 ^ b)).map dm) →
      AlwaysYields (Net.init fun i : Fin (4 * 2 ^ b) => (pp.circomH dbg (4 * 2 ^ b) i (q i) (masks i) (dm i) rng).recorded)
        (fun i => (outs i, views i)) → ∀ i, i.val = 0 → ∃ rest, views i =
        sentFirst pp a b dom2.groupGen dom (fun p => (q p).a) (t 0) ++ (sentFirst pp a b dom2.groupGen dom (fun p => (q p).b) (t 1) ++
        (sentFirst pp a b dom2.groupGen dom (fun p => (q p).c) (t 2) ++ rest)) := by
    intro va vb vc q t td masks dm rng outs views hq hm hd hr i hi
    have hmasks := hm.eq hpp hdom
    obtain ⟨ea, eb, ec, w, k, -, hw⟩ := stages_view hpp dbg a ha hdom _ _ _ dom2.groupGen false q (hq.shares hpp) rng t
    obtain ⟨e, hee⟩ : ∃ e : Nat → List F, ∀ p, e p = List.zipWith (fun ab c => ab.1 * ab.2 - c) (List.zip (ea p) (eb p)) (ec p) :=
      ⟨_, fun _ => rfl⟩
    have s2 : pp.SharedVec (4 * pp.l - 1) (2 ^ a) e _ :=
      SharedVec.congr (SharedVec.mulSub hg hle false rfl k.sharesA k.sharesB k.sharesC) (fun p _ => (hee p).symm) fun _ _ => rfl
    have dms := DegRedMask.sample_dealt hg dbg (N := 2 ^ a) (by positivity) td
    rw [hle] at dms
    have hdm := sampled_eq hd dms
    obtain ⟨r, -⟩ := PSS.degRed_view (n := 4 * 2 ^ b) hg dbg (by rw [hle]) (by positivity) hN64 (by omega) le_rfl s2 td .zero (rng 6)
    have r1 := r.congr (ps' := fun i : Fin (4 * 2 ^ b) => pp.degRed dbg (4 * 2 ^ b) i (e i) (dm i) .zero (rng 6))
      (fun i => by rw [hdm i i.2]) (fun _ => rfl) fun _ => rfl
    have f := k.run (fun i x y z => pp.degRed dbg (4 * 2 ^ b) i (List.zipWith (fun ab c => ab.1 * ab.2 - c) (List.zip x y) z)
      (dm i) .zero (rng 6)) _ _ ((r1.congr (fun i => by rw [hee i]) (fun _ => rfl) fun _ => rfl).mono fun _ _ => trivial)
    have f' := (f.congr (ps' := fun i : Fin (4 * 2 ^ b) => pp.circomH dbg (4 * 2 ^ b) i (q i) (masks i) (dm i) rng) (fun i => by
      rw [circomH_stages dbg hdom hdom2 (hq.domain i i.2)]
      exact stages_congr (hmasks i i.2)) (fun _ => rfl) fun _ => rfl).alwaysYields fun i => circomH_wf _ (by positivity) _ _ _ _ _
    have hv : views i = w i ++ _ := congrArg Prod.snd (congrFun (AlwaysYields.unique hr f') i)
    obtain ⟨rest, hw⟩ := hw i hi
    exact ⟨_, by rw [hv, hw, List.append_assoc, List.append_assoc, List.append_assoc]⟩
  refine ⟨f, fun va vb vc va' vb' vc' q q' hq hq' t td masks dm hm hd rng rng' outs outs' views views' hr hr' i hi => ?_⟩
  obtain ⟨rest, h⟩ := view hq hm hd hr i hi
  obtain ⟨rest', h'⟩ := view hq' hm hd hr' i hi
  rw [h, h']
  exact hf _ _ _ _ _ _ q q' hq hq' t rest rest'

/-- **C87** `libsnark_h`: the same as `C87_circom_h`. -/
theorem C87_libsnark_h {dbg₀ : Bool} {b : Nat} {pp : PSS F} (hpp : PSS.new dbg₀ (2 ^ b) = .ok pp) (dbg : Bool) (a : Nat) (ha : a < 64)
    {dom : Domain F} (hdom : Domain.new (2 ^ (a + b)) = some dom) (hcos : ∃ x : F, x ≠ 0 ∧ x ^ 2 ^ (a + b) ≠ 1) :
    ∃ recover : Transcript → Transcript → (List (List F) × List F) × (List (List F) × List F) × List (List F) × List F,
      ∀ (va vb vc va' vb' vc' : List F) (q q' : Nat → PackedQAPShare F), HoldsProgram pp a b dom q va vb vc →
      HoldsProgram pp a b dom q' va' vb' vc' → ∀ (t : Nat → VecTape F) (masks : Nat → Nat → FftMask F),
      LibsnarkSampled pp dbg dom t masks →
      ∀ (rng rng' : Nat → Nat → Nat → F) (outs outs' : Nat → List F) (views views' : Fin (4 * 2 ^ b) → Transcript),
      AlwaysYields (Net.init fun i : Fin (4 * 2 ^ b) => (pp.libsnarkH dbg (4 * 2 ^ b) i (q i) (masks i) rng).recorded)
        (fun i => (outs i, views i)) →
      AlwaysYields (Net.init fun i : Fin (4 * 2 ^ b) => (pp.libsnarkH dbg (4 * 2 ^ b) i (q' i) (masks i) rng').recorded)
        (fun i => (outs' i, views' i)) →
      ∀ i, i.val = 0 → recover (views i) (views' i) = ProgDiff (4 * 2 ^ b) q q' va vb vc va' vb' vc' := by
  have hle := l_eq hpp
  have hg := PSS.good_of_new hpp
  have hl := hg.lpos
  have hz := generator_pow_ne_one hcos
  obtain ⟨hwf, -, -, hsize⟩ := Domain.new_pow2 hdom
  have hprim : IsPrimitiveRoot dom.groupGenInv (2 ^ (a + b)) := by rw [hwf.ginv, ← hsize]; exact hwf.prim.inv
  set zi : F := (FftField.GENERATOR ^ 2 ^ (a + b) - 1)⁻¹ with hzi
  obtain ⟨f, hf⟩ := first_reuse hpp ha hdom FftField.GENERATOR
  have view : ∀ {va vb vc : List F} {q : Nat → PackedQAPShare F} {t : Nat → VecTape F} {masks : Nat → Nat → FftMask F}
      {rng : Nat → Nat → Nat → F} {outs : Nat → List F} {views : Fin (4 * 2 ^ b) → Transcript},
      HoldsProgram pp a b dom q va vb vc → LibsnarkSampled pp dbg dom t masks →
      AlwaysYields (Net.init fun i : Fin (4 * 2 ^ b) => (pp.libsnarkH dbg (4 * 2 ^ b) i (q i) (masks i) rng).recorded)
        (fun i => (outs i, views i)) → ∀ i, i.val = 0 → ∃ rest, views i =
        sentFirst pp a b FftField.GENERATOR dom (fun p => (q p).a) (t 0) ++ (sentFirst pp a b FftField.GENERATOR dom (fun p => (q p).b) (t 1) ++
        (sentFirst pp a b FftField.GENERATOR dom (fun p => (q p).c) (t 2) ++ rest)) := by
    intro va vb vc q t masks rng outs views hq hm hr i hi
    have hmasks := hm.eq hpp hdom
    have hmasks6 : ∀ p < 4 * 2 ^ b, ∀ k < 6, masks p k = stageMasks pp a b FftField.GENERATOR true dom t p k := fun p hp k hk => by
      rw [hmasks p hp k (by omega), stageMasks_libsnark _ _ _ _ _ _ _ hk]
    have hlast : ∀ p < 4 * 2 ^ b, masks p 6 = pp.fftDealt a b false FftField.GENERATOR⁻¹ dom.groupGenInv (t 6) p := fun p hp => by
      rw [hmasks p hp 6 (by omega), libsnarkMasks, if_neg (by omega), if_neg (by omega)]
    obtain ⟨ea, eb, ec, w, k, -, hw⟩ := stages_view hpp dbg a ha hdom _ _ _ FftField.GENERATOR true q (hq.shares hpp) rng t
    obtain ⟨e, hee⟩ : ∃ e : Nat → List F, ∀ p, e p = List.zipWith (fun ab c => ab.1 * ab.2 - c) (List.zip (ea p) (eb p)) (ec p) :=
      ⟨_, fun _ => rfl⟩
    have s2 : pp.SharedVec (4 * pp.l - 1) (2 ^ a) (fun p => (e p).map fun u => u * zi) _ :=
      SharedVec.congr (SharedVec.scale (SharedVec.mulSub hg hle true rfl k.sharesA k.sharesB k.sharesC) zi) (fun p _ => by rw [hee p])
      fun c _ => packed_smul _ _ _ _ _ _
    obtain ⟨o, ans, r, -⟩ := PSS.dIfft_view (n := 4 * 2 ^ b) hg dbg (by rw [hle]) ha hle hsize hprim _ FftField.GENERATOR⁻¹ false s2 (t 6)
      .zero (rng 6)
    have r1 := r.congr (ps' := fun i : Fin (4 * 2 ^ b) => pp.dIfft dbg (4 * 2 ^ b) i ((e i).map fun u => u * zi) (masks i 6) false dom
      FftField.GENERATOR⁻¹ .zero (rng 6)) (fun i => by rw [hlast i i.2]) (fun _ => rfl) fun _ => rfl
    have f := k.run (fun i x y z => pp.dIfft dbg (4 * 2 ^ b) i ((List.zipWith (fun ab c => ab.1 * ab.2 - c) (List.zip x y) z).map
      fun u => u * zi) (masks i 6) false dom FftField.GENERATOR⁻¹ .zero (rng 6)) _ _
      ((r1.congr (fun i => by rw [hee i]) (fun _ => rfl) fun _ => rfl).mono fun _ _ => trivial)
    have f' := (f.congr (ps' := fun i : Fin (4 * 2 ^ b) => pp.libsnarkH dbg (4 * 2 ^ b) i (q i) (masks i) rng) (fun i => by
      rw [libsnarkH_stages dbg hdom hz (hq.domain i i.2)]
      exact stages_congr (hmasks6 i i.2)) (fun _ => rfl) fun _ => rfl).alwaysYields fun i => libsnarkH_wf _ (by positivity) _ _ _ _
    have hv : views i = w i ++ _ := congrArg Prod.snd (congrFun (AlwaysYields.unique hr f') i)
    obtain ⟨rest, hw⟩ := hw i hi
    exact ⟨_, by rw [hv, hw, List.append_assoc, List.append_assoc, List.append_assoc]⟩
  refine ⟨f, fun va vb vc va' vb' vc' q q' hq hq' t masks hm rng rng' outs outs' views views' hr hr' i hi => ?_⟩
  obtain ⟨rest, h⟩ := view hq hm hr i hi
  obtain ⟨rest', h'⟩ := view hq' hm hr' i hi
  rw [h, h']
  exact hf _ _ _ _ _ _ q q' hq hq' t rest rest'

/-! ### Masks of one's own for every run -/

section turns
variable {n : Nat} {α : Type}

theorem leavesNothing_recorded {ps : Fin n → Proc α} (h : LeavesNothing (Net.init ps)) :
    LeavesNothing (Net.init fun i => (ps i).recorded) := by
  intro k c' hk hd i j x
  obtain ⟨d, h1, h2, h3⟩ := Rec.steps' hk (Net.init ps) (fun i => Rec.recorded (ps i)) rfl
  rw [h3]
  refine h k d h1 (fun i => ?_) i j x
  obtain ⟨v, hv⟩ := hd i
  have := h2 i
  rw [hv] at this
  exact ⟨_, this.of_done_ok⟩

/-- **C87** What a party is sent when protocols run one after the other on the same streams is what it is sent in each of them, one
after the other. -/
theorem C87_views (K : Nat) (ps : Nat → Fin n → Proc α) (rs : Nat → Fin n → α) (vs : Nat → Fin n → Transcript)
    (hw : ∀ j < K, ∀ i, (ps j i).WF fun _ => True)
    (h : ∀ j < K, AlwaysYields (Net.init fun i => (ps j i).recorded) fun i => (rs j i, vs j i))
    (he : ∀ j < K, LeavesNothing (Net.init (ps j))) :
    AlwaysYields (Net.init fun i => (inTurn ((List.range K).map fun j => ps j i)).recorded)
      (fun i => ((List.range K).map fun j => rs j i, ((List.range K).map fun j => vs j i).flatten)) := by
  have key : ∀ L : List Nat, (∀ j ∈ L, j < K) → Reach All (Net.init fun i => (inTurn (L.map fun j => ps j i)).recorded)
      ⟨fun i => .done (.ok (L.map fun j => rs j i, (L.map fun j => vs j i).flatten)), fun _ => []⟩ := by
    intro L
    induction L with
    | nil => intro _; exact .refl _
    | cons j L ih =>
      intro hL
      have h1 := (clean_run (h j (hL j (by simp))) (leavesNothing_recorded (he j (hL j (by simp))))).bind fun i x =>
        ((inTurn (L.map fun j => ps j i)).bind fun l => Proc.done (.ok (x.1 :: l))).recorded.bind (after x.2)
      have h2 := ((ih fun x hx => hL x (by simp [hx])).bind fun i x => (Proc.done (.ok (rs j i :: x.1))).recorded.bind (after x.2)).bind
        fun i x => after (vs j i) x
      have e : ∀ i, (inTurn ((j :: L).map fun j => ps j i)).recorded = (ps j i).recorded.bind fun x =>
          ((inTurn (L.map fun j => ps j i)).bind fun l => Proc.done (.ok (x.1 :: l))).recorded.bind (after x.2) := fun i => by
        rw [List.map_cons, inTurn, Proc.recorded_bind]
      have e2 : ∀ i, ((inTurn (L.map fun j => ps j i)).bind fun l => Proc.done (.ok (rs j i :: l))).recorded.bind (after (vs j i)) =
          ((inTurn (L.map fun j => ps j i)).recorded.bind fun x => (Proc.done (.ok (rs j i :: x.1))).recorded.bind (after x.2)).bind
            (after (vs j i)) := fun i => by
        rw [Proc.recorded_bind]
      have e3 : (fun i => (inTurn ((j :: L).map fun j => ps j i)).recorded) = _ := funext e
      unfold Net.init at h1 h2 ⊢
      rw [e3]
      refine h1.trans ?_
      have e4 := funext e2
      show Reach All ⟨fun i => ((inTurn (L.map fun j => ps j i)).bind fun l => Proc.done (.ok (rs j i :: l))).recorded.bind
        (after (vs j i)), _⟩ _
      rw [e4]
      convert h2 using 2
      funext i
      simp [Proc.bind, Proc.recorded, Except.map, after]
  obtain ⟨m, hm⟩ := key (List.range K) fun j hj => List.mem_range.1 hj
  have hwf : ∀ i, (inTurn ((List.range K).map fun j => ps j i)).recorded.WF fun _ => True := fun i =>
    Proc.WF.recorded (inTurn_wf fun p hp => by
      obtain ⟨j, hj, rfl⟩ := List.mem_map.1 hp
      exact hw j (List.mem_range.1 hj) i)
  exact alwaysYields_of_run (fun i => ⟨_, hwf i⟩) hm

end turns

/-- **C87** With masks of their own any number of transforms hide as one does. The transforms may be of different sizes. For any two
vectors for each of them, shared so that `l` parties hold the same, there are values for each, that do not depend on the tapes, such
that adding them to the tapes turns a run of all transforms, one after the other, on the first vectors into a run on the second ones in
which every party, the king included, is sent the same bytes, and the `l` parties hold the same masks and end with the same outputs. -/
theorem C87_fresh_d_fft {dbg₀ : Bool} {b : Nat} {pp : PSS F} (hpp : PSS.new dbg₀ (2 ^ b) = .ok pp)
    (hgen : (FftField.GENERATOR : F) ^ (4 * 2 ^ b) ≠ 1) (dbg : Bool) (K : Nat) (a : Nat → Nat) (ha : ∀ j < K, a j < 64)
    (dom : Nat → Domain F) (hdom : ∀ j < K, Domain.new (2 ^ (a j + b)) = some (dom j)) (v v' : Nat → List F) (rearrange : Nat → Bool)
    (P : Fin (2 ^ b) → Nat) (hinj : Function.Injective P) (hlt : ∀ i, P i < 4 * 2 ^ b) (sh sh' : Nat → Nat → List F)
    (hsh : ∀ j < K, HoldsOutput pp true (a j) b (sh j) (v j)) (hsh' : ∀ j < K, HoldsOutput pp true (a j) b (sh' j) (v' j))
    (hP : ∀ j < K, ∀ i, sh j (P i) = sh' j (P i)) :
    ∃ δ : Nat → VecTape F, ∀ t : Nat → VecTape F, ∃ masks masks' : Nat → Nat → FftMask F,
      (∀ j < K, FftMask.sample pp dbg (rearrange j) 1 (dom j).groupGen (2 ^ (a j + b)) (t j).vals (t j).rngIn (t j).rngOut =
        .ok ((List.range (4 * 2 ^ b)).map (masks j))) ∧
      (∀ j < K, FftMask.sample pp dbg (rearrange j) 1 (dom j).groupGen (2 ^ (a j + b)) ((t j).add (δ j)).vals ((t j).add (δ j)).rngIn
        ((t j).add (δ j)).rngOut = .ok ((List.range (4 * 2 ^ b)).map (masks' j))) ∧
      (∀ j < K, ∀ i, masks j (P i) = masks' j (P i)) ∧
      ∀ (sid : Nat → Sid) (rng : Nat → Nat → Nat → F), ∃ (outs outs' : Nat → Nat → List F) (views : Fin (4 * 2 ^ b) → Transcript),
        AlwaysYields (Net.init fun i : Fin (4 * 2 ^ b) => (inTurn ((List.range K).map fun j =>
          pp.dFft dbg (4 * 2 ^ b) i (sh j i) (masks j i) (rearrange j) (dom j) (sid j) (rng j))).recorded)
          (fun i => ((List.range K).map fun j => outs j i, views i)) ∧
        AlwaysYields (Net.init fun i : Fin (4 * 2 ^ b) => (inTurn ((List.range K).map fun j =>
          pp.dFft dbg (4 * 2 ^ b) i (sh' j i) (masks' j i) (rearrange j) (dom j) (sid j) (rng j))).recorded)
          (fun i => ((List.range K).map fun j => outs' j i, views i)) ∧
        ∀ j < K, ∀ i, outs j (P i) = outs' j (P i) := by
  have one : ∀ j, ∃ δ : VecTape F, j < K → ∀ t : VecTape F, ∃ masks masks' : Nat → FftMask F,
      FftMask.sample pp dbg (rearrange j) 1 (dom j).groupGen (2 ^ (a j + b)) t.vals t.rngIn t.rngOut =
        .ok ((List.range (4 * 2 ^ b)).map masks) ∧
      FftMask.sample pp dbg (rearrange j) 1 (dom j).groupGen (2 ^ (a j + b)) (t.add δ).vals (t.add δ).rngIn (t.add δ).rngOut =
        .ok ((List.range (4 * 2 ^ b)).map masks') ∧
      (∀ i, masks (P i) = masks' (P i)) ∧
      ∀ (sid : Sid) (rng : Nat → Nat → F), ∃ (outs outs' : Nat → List F) (views : Fin (4 * 2 ^ b) → Transcript),
          AlwaysYields (Net.init fun i : Fin (4 * 2 ^ b) =>
            (pp.dFft dbg (4 * 2 ^ b) i (sh j i) (masks i) (rearrange j) (dom j) sid rng).recorded) (fun i => (outs i, views i)) ∧
          AlwaysYields (Net.init fun i : Fin (4 * 2 ^ b) =>
            (pp.dFft dbg (4 * 2 ^ b) i (sh' j i) (masks' i) (rearrange j) (dom j) sid rng).recorded) (fun i => (outs' i, views i)) ∧
          ∀ i, outs (P i) = outs' (P i) := by
    intro j
    by_cases hj : j < K
    · obtain ⟨δ, h⟩ := C61_d_fft hpp hgen dbg (a j) (ha j hj) (hdom j hj) _ _ (rearrange j) P hinj hlt _ _ (hsh j hj) (hsh' j hj) (hP j hj)
      exact ⟨δ, fun _ => h⟩
    · exact ⟨⟨fun _ => 0, fun _ _ => 0, fun _ _ => 0⟩, fun h => absurd h hj⟩
  choose δ hδ using one
  refine ⟨δ, fun t => ?_⟩
  have two : ∀ j, ∃ masks masks' : Nat → FftMask F, j < K →
      FftMask.sample pp dbg (rearrange j) 1 (dom j).groupGen (2 ^ (a j + b)) (t j).vals (t j).rngIn (t j).rngOut =
        .ok ((List.range (4 * 2 ^ b)).map masks) ∧
      FftMask.sample pp dbg (rearrange j) 1 (dom j).groupGen (2 ^ (a j + b)) ((t j).add (δ j)).vals ((t j).add (δ j)).rngIn
        ((t j).add (δ j)).rngOut = .ok ((List.range (4 * 2 ^ b)).map masks') ∧
      (∀ i, masks (P i) = masks' (P i)) ∧
      ∀ (sid : Sid) (rng : Nat → Nat → F), ∃ (outs outs' : Nat → List F) (views : Fin (4 * 2 ^ b) → Transcript),
          AlwaysYields (Net.init fun i : Fin (4 * 2 ^ b) =>
            (pp.dFft dbg (4 * 2 ^ b) i (sh j i) (masks i) (rearrange j) (dom j) sid rng).recorded) (fun i => (outs i, views i)) ∧
          AlwaysYields (Net.init fun i : Fin (4 * 2 ^ b) =>
            (pp.dFft dbg (4 * 2 ^ b) i (sh' j i) (masks' i) (rearrange j) (dom j) sid rng).recorded) (fun i => (outs' i, views i)) ∧
          ∀ i, outs (P i) = outs' (P i) := by
    intro j
    by_cases hj : j < K
    · obtain ⟨m, m', h⟩ := hδ j hj (t j)
      exact ⟨m, m', fun _ => h⟩
    · exact ⟨fun _ => ⟨[], []⟩, fun _ => ⟨[], []⟩, fun h => absurd h hj⟩
  choose masks masks' hm using two
  refine ⟨masks, masks', fun j hj => (hm j hj).1, fun j hj => (hm j hj).2.1, fun j hj => (hm j hj).2.2.1, fun sid rng => ?_⟩
  have three : ∀ j, ∃ (outs outs' : Nat → List F) (views : Fin (4 * 2 ^ b) → Transcript), j < K →
      AlwaysYields (Net.init fun i : Fin (4 * 2 ^ b) =>
        (pp.dFft dbg (4 * 2 ^ b) i (sh j i) (masks j i) (rearrange j) (dom j) (sid j) (rng j)).recorded) (fun i => (outs i, views i)) ∧
      AlwaysYields (Net.init fun i : Fin (4 * 2 ^ b) =>
        (pp.dFft dbg (4 * 2 ^ b) i (sh' j i) (masks' j i) (rearrange j) (dom j) (sid j) (rng j)).recorded) (fun i => (outs' i, views i)) ∧
      ∀ i, outs (P i) = outs' (P i) := by
    intro j
    by_cases hj : j < K
    · obtain ⟨o, o', w, h⟩ := (hm j hj).2.2.2 (sid j) (rng j)
      exact ⟨o, o', w, fun _ => h⟩
    · exact ⟨fun _ => [], fun _ => [], fun _ => [], fun h => absurd h hj⟩
  choose outs outs' views ho using three
  refine ⟨outs, outs', fun i => ((List.range K).map fun j => views j i).flatten, ?_, ?_, fun j hj => (ho j hj).2.2⟩
  · exact C87_views K (fun j (i : Fin (4 * 2 ^ b)) => pp.dFft dbg (4 * 2 ^ b) i (sh j i) (masks j i) (rearrange j) (dom j) (sid j) (rng j))
      (fun j i => outs j i) views (fun _ _ i => (PSS.dFft_wf _ (by positivity) _ _ _ _ _ _ _).mono fun _ _ => trivial)
      (fun j hj => (ho j hj).1) fun j _ => (C86_leave_nothing (G1 := F) (G2 := F) pp dbg (rng j) (rng j) fun _ => rng j).1 (sh j) (masks j) _ _ _
  · exact C87_views K (fun j (i : Fin (4 * 2 ^ b)) => pp.dFft dbg (4 * 2 ^ b) i (sh' j i) (masks' j i) (rearrange j) (dom j) (sid j) (rng j))
      (fun j i => outs' j i) views (fun _ _ i => (PSS.dFft_wf _ (by positivity) _ _ _ _ _ _ _).mono fun _ _ => trivial)
      (fun j hj => (ho j hj).2.1) fun j _ => (C86_leave_nothing (G1 := F) (G2 := F) pp dbg (rng j) (rng j) fun _ => rng j).1 (sh' j) (masks' j) _ _ _

/-! ### Examples -/

/-- For any tape: the king of a transform of `[3, 5, 7, 11]` and of one of `[0, 0, 0, 1]`, with the same masks, learns `[3, 5, 7, 10]`. -/
example (t : VecTape (ZMod 17)) : ∃ (recover : Transcript → Transcript → List (List (ZMod 17)) × List (ZMod 17)) (sh sh' : Nat → List (ZMod 17))
    (masks : Nat → FftMask (ZMod 17)) (outs outs' : Nat → List (ZMod 17)) (views views' : Fin (4 * 2 ^ 1) → Transcript),
    HoldsInput pp17 1 1 sh [3, 5, 7, 11] ∧ HoldsInput pp17 1 1 sh' [0, 0, 0, 1] ∧
    AlwaysYields (Net.init fun i : Fin (4 * 2 ^ 1) =>
      (pp17.dFft true (4 * 2 ^ 1) i (sh i) (masks i) false dom17 .zero fun i j => i + j).recorded) (fun i => (outs i, views i)) ∧
    AlwaysYields (Net.init fun i : Fin (4 * 2 ^ 1) =>
      (pp17.dFft true (4 * 2 ^ 1) i (sh' i) (masks i) false dom17 .zero fun i j => i + j).recorded) (fun i => (outs' i, views' i)) ∧
    (recover (views 0) (views' 0)).2 = [3, 5, 7, 10] := by
  obtain ⟨sh, -, h⟩ := C27_fresh_input (pp17_eq true) true 1 [3, 5, 7, 11] rfl fun _ _ => 1
  obtain ⟨sh', -, h'⟩ := C27_fresh_input (pp17_eq true) true 1 [0, 0, 0, 1] rfl fun _ _ => 1
  obtain ⟨δ, hδ⟩ := C61_d_fft (pp17_eq true) gen17 true 1 (by norm_num) dom17_eq _ _ false king17 king17_inj king17_lt _ _ h h fun _ => rfl
  obtain ⟨δ', hδ'⟩ := C61_d_fft (pp17_eq true) gen17 true 1 (by norm_num) dom17_eq _ _ false king17 king17_inj king17_lt _ _ h' h' fun _ => rfl
  obtain ⟨masks, _, hm, -, -, hr⟩ := hδ t
  obtain ⟨masks', _, hm', -, -, hr'⟩ := hδ' t
  obtain ⟨outs, _, views, h1, -, -⟩ := hr .zero fun i j => i + j
  obtain ⟨outs', _, views', h1', -, -⟩ := hr' .zero fun i j => i + j
  have e : ∀ i : Fin (4 * 2 ^ 1), masks' i = masks i := fun i => sampled_eq hm' hm i i.2
  simp only [e] at h1'
  obtain ⟨f, hf⟩ := C87_d_fft (pp17_eq true) true 1 (by norm_num) dom17_eq false
  refine ⟨f, _, _, masks, outs, outs', views, views', h.input, h'.input, h1, h1', ?_⟩
  rw [hf _ _ _ _ h.input h'.input t masks hm _ _ _ _ _ _ _ _ h1 h1' 0 rfl]
  dsimp only
  decide

/-- The same for the inverse transform. -/
example (t : VecTape (ZMod 17)) : ∃ (recover : Transcript → Transcript → List (List (ZMod 17)) × List (ZMod 17)) (sh sh' : Nat → List (ZMod 17))
    (masks : Nat → FftMask (ZMod 17)) (outs outs' : Nat → List (ZMod 17)) (views views' : Fin (4 * 2 ^ 1) → Transcript),
    HoldsInput pp17 1 1 sh [3, 5, 7, 11] ∧ HoldsInput pp17 1 1 sh' [0, 0, 0, 1] ∧
    AlwaysYields (Net.init fun i : Fin (4 * 2 ^ 1) =>
      (pp17.dIfft true (4 * 2 ^ 1) i (sh i) (masks i) true dom17 3 .zero fun i j => i + j).recorded) (fun i => (outs i, views i)) ∧
    AlwaysYields (Net.init fun i : Fin (4 * 2 ^ 1) =>
      (pp17.dIfft true (4 * 2 ^ 1) i (sh' i) (masks i) true dom17 3 .zero fun i j => i + j).recorded) (fun i => (outs' i, views' i)) ∧
    (recover (views 0) (views' 0)).2 = [3, 5, 7, 10] := by
  obtain ⟨sh, -, h⟩ := C27_fresh_input (pp17_eq true) true 1 [3, 5, 7, 11] rfl fun _ _ => 1
  obtain ⟨sh', -, h'⟩ := C27_fresh_input (pp17_eq true) true 1 [0, 0, 0, 1] rfl fun _ _ => 1
  obtain ⟨δ, hδ⟩ := C61_d_ifft (pp17_eq true) gen17 true 1 (by norm_num) dom17_eq _ _ 3 true king17 king17_inj king17_lt _ _ h h fun _ => rfl
  obtain ⟨δ', hδ'⟩ := C61_d_ifft (pp17_eq true) gen17 true 1 (by norm_num) dom17_eq _ _ 3 true king17 king17_inj king17_lt _ _ h' h' fun _ => rfl
  obtain ⟨masks, _, hm, -, -, hr⟩ := hδ t
  obtain ⟨masks', _, hm', -, -, hr'⟩ := hδ' t
  obtain ⟨outs, _, views, h1, -, -⟩ := hr .zero fun i j => i + j
  obtain ⟨outs', _, views', h1', -, -⟩ := hr' .zero fun i j => i + j
  have e : ∀ i : Fin (4 * 2 ^ 1), masks' i = masks i := fun i => sampled_eq hm' hm i i.2
  simp only [e] at h1'
  obtain ⟨f, hf⟩ := C87_d_ifft (pp17_eq true) true 1 (by norm_num) dom17_eq 3 true
  refine ⟨f, _, _, masks, outs, outs', views, views', h.input, h'.input, h1, h1', ?_⟩
  rw [hf _ _ _ _ h.input h'.input t masks hm _ _ _ _ _ _ _ _ h1 h1' 0 rfl]
  dsimp only
  decide

/-- The king of two degree reductions, of `[3, 5]` and of `[0, 1]`, learns `[3, 4]`. -/
example (t : VecTape (ZMod 17)) : ∃ (recover : Transcript → Transcript → List (List (ZMod 17)) × List (List (ZMod 17)))
    (sh sh' : Nat → List (ZMod 17)) (masks : Nat → DegRedMask (ZMod 17)) (outs outs' : Nat → List (ZMod 17))
    (views views' : Fin (4 * 2 ^ 1) → Transcript), HoldsChunks pp17 1 sh [3, 5] ∧ HoldsChunks pp17 1 sh' [0, 1] ∧
    AlwaysYields (Net.init fun i : Fin (4 * 2 ^ 1) =>
      (pp17.degRed true (4 * 2 ^ 1) i (sh i) (masks i) .zero fun i j => i + j).recorded) (fun i => (outs i, views i)) ∧
    AlwaysYields (Net.init fun i : Fin (4 * 2 ^ 1) =>
      (pp17.degRed true (4 * 2 ^ 1) i (sh' i) (masks i) .zero fun i j => i + j).recorded) (fun i => (outs' i, views' i)) ∧
    (recover (views 0) (views' 0)).2 = [[3, 4]] := by
  obtain ⟨sh, -, h⟩ := packFromWitness_holds (b := 1) (pp17_eq true) true ([3, 5] : List (ZMod 17)) fun _ _ => 1
  obtain ⟨sh', -, h'⟩ := packFromWitness_holds (b := 1) (pp17_eq true) true ([0, 1] : List (ZMod 17)) fun _ _ => 1
  have k := SharedVec.mono (pp := pp17) (d' := 4 * 2 ^ 1 - 1) (by decide) h
  have k' := SharedVec.mono (pp := pp17) (d' := 4 * 2 ^ 1 - 1) (by decide) h'
  obtain ⟨δ, hδ⟩ := C61_deg_red (pp17_eq true) gen17 true (N := 1) one_pos (by norm_num) king17 king17_inj king17_lt k k (fun _ => rfl)
    (SharedVec.sub (pp := pp17) h h)
  obtain ⟨δ', hδ'⟩ := C61_deg_red (pp17_eq true) gen17 true (N := 1) one_pos (by norm_num) king17 king17_inj king17_lt k' k' (fun _ => rfl)
    (SharedVec.sub (pp := pp17) h' h')
  obtain ⟨masks, _, hm, -, -, hr⟩ := hδ t
  obtain ⟨masks', _, hm', -, -, hr'⟩ := hδ' t
  obtain ⟨outs, _, views, h1, -, -⟩ := hr .zero fun i j => i + j
  obtain ⟨outs', _, views', h1', -, -⟩ := hr' .zero fun i j => i + j
  have e : ∀ i : Fin (4 * 2 ^ 1), masks' i = masks i := fun i => sampled_eq hm' hm i i.2
  simp only [e] at h1'
  obtain ⟨f, hf⟩ := C87_deg_red (pp17_eq true) true (N := 1) one_pos (by norm_num)
  refine ⟨f, _, _, masks, outs, outs', views, views', h, h', h1, h1', ?_⟩
  rw [hf _ _ _ _ k k' t masks hm _ _ _ _ _ _ _ _ h1 h1' 0 rfl]
  dsimp only
  decide +kernel

/-- The sums `3·1 + 5·1` and `0·1 + 1·1`: the king learns that they differ by 7. -/
example (t : MsmTape (ZMod 17) (ZMod 17)) : ∃ (recover : Transcript → Transcript → List (ZMod 17) × ZMod 17) (ss ss' : Nat → List (ZMod 17))
    (masks : Nat → MsmMask (ZMod 17)) (outs outs' : Nat → ZMod 17) (views views' : Fin (4 * 2 ^ 1) → Transcript),
    HoldsChunks pp17 1 ss [3, 5] ∧ HoldsChunks pp17 1 ss' [0, 1] ∧
    AlwaysYields (Net.init fun i : Fin (4 * 2 ^ 1) => (pp17.dMsm true (4 * 2 ^ 1) i [1] (ss i) (masks i) .zero).recorded)
      (fun i => (outs i, views i)) ∧
    AlwaysYields (Net.init fun i : Fin (4 * 2 ^ 1) => (pp17.dMsm true (4 * 2 ^ 1) i [1] (ss' i) (masks i) .zero).recorded)
      (fun i => (outs' i, views' i)) ∧
    (recover (views 0) (views' 0)).2 = 7 := by
  obtain ⟨sh, -, h⟩ := packFromWitness_holds (b := 1) (pp17_eq true) true ([3, 5] : List (ZMod 17)) fun _ _ => 1
  obtain ⟨sh', -, h'⟩ := packFromWitness_holds (b := 1) (pp17_eq true) true ([0, 1] : List (ZMod 17)) fun _ _ => 1
  have hb : HoldsChunks pp17 1 (fun _ => [1]) ([1, 1] : List (ZMod 17)) := by
    refine ⟨fun _ _ => rfl, fun c hc => ⟨by simp, by simp [chunks], fun j => if j = 0 then 1 else 0, ?_, ?_⟩⟩
    · obtain rfl : c = 0 := by have : c < 1 := hc; omega
      decide +kernel
    · obtain rfl : c = 0 := by have : c < 1 := hc; omega
      decide +kernel
  have zero : ∀ s : Nat → List (ZMod 17), Sharing pp17.share.groupGen pp17.secret.offset (2 ^ 1) (2 * 2 ^ 1) ((List.range (4 * 2 ^ 1)).map fun p =>
      msmOf ((([1, 1] : List (ZMod 17)).length + 2 ^ 1 - 1) / 2 ^ 1) ((fun _ => [1] : Nat → List (ZMod 17)) p) (s p) -
        msmOf ((([1, 1] : List (ZMod 17)).length + 2 ^ 1 - 1) / 2 ^ 1) ((fun _ => [1] : Nat → List (ZMod 17)) p) (s p))
      (List.replicate 2 0) := fun s => by
    simp only [sub_self]
    exact ⟨by simp, rfl, fun _ => 0, by decide +kernel, by decide +kernel⟩
  obtain ⟨δ, hδ⟩ := C61_d_msm (pp17_eq true) gen17 true (1 : ZMod 17) (fun g => ⟨g, by simp⟩) (y := [1, 1]) (x := [3, 5]) (x' := [3, 5]) rfl rfl king17 king17_inj
    king17_lt hb h h (fun _ => rfl) (zero _)
  obtain ⟨δ', hδ'⟩ := C61_d_msm (pp17_eq true) gen17 true (1 : ZMod 17) (fun g => ⟨g, by simp⟩) (y := [1, 1]) (x := [0, 1]) (x' := [0, 1]) rfl rfl king17 king17_inj
    king17_lt hb h' h' (fun _ => rfl) (zero _)
  obtain ⟨masks, _, hm, -, -, hr⟩ := hδ t
  obtain ⟨masks', _, hm', -, -, hr'⟩ := hδ' t
  obtain ⟨outs, _, views, h1, -, -⟩ := hr .zero
  obtain ⟨outs', _, views', h1', -, -⟩ := hr' .zero
  have e : ∀ i : Fin (4 * 2 ^ 1), masks' i = masks i := fun i => sampled_eq hm' hm i i.2
  simp only [e] at h1'
  obtain ⟨f, hf⟩ := C87_d_msm (F := ZMod 17) (pp17_eq true) true (1 : ZMod 17)
  refine ⟨f, _, _, masks, outs, outs', views, views', h, h', h1, h1', ?_⟩
  rw [hf [1, 1] [1, 1] [3, 5] [0, 1] rfl rfl _ _ _ _ hb h hb h' t masks hm _ _ _ _ _ _ h1 h1' 0 rfl]
  dsimp only
  decide +kernel

/-- The king of two proofs of `x^4 = y` with the same masks, for `x = 3` and for `x = 1`, learns the difference of the `A` vectors. -/
example (t : Nat → VecTape (ZMod 17)) (td : VecTape (ZMod 17)) :
    ∃ (recover : Transcript → Transcript → (List (List (ZMod 17)) × List (ZMod 17)) × (List (List (ZMod 17)) × List (ZMod 17)) ×
      List (List (ZMod 17)) × List (ZMod 17)) (q q' : Nat → PackedQAPShare (ZMod 17))
    (masks : Nat → Nat → FftMask (ZMod 17)) (dm : Nat → DegRedMask (ZMod 17)) (outs outs' : Nat → List (ZMod 17))
    (views views' : Fin (4 * 2 ^ 1) → Transcript), HoldsProgram pp17 1 1 dom17 q [3, 9, 1, 9] [3, 1, 0, 0] [9, 9, 0, 0] ∧
    HoldsProgram pp17 1 1 dom17 q' [1, 1, 1, 1] [1, 1, 0, 0] [1, 1, 0, 0] ∧
    AlwaysYields (Net.init fun i : Fin (4 * 2 ^ 1) =>
      (pp17.circomH true (4 * 2 ^ 1) i (q i) (masks i) (dm i) fun _ i j => i + j).recorded) (fun i => (outs i, views i)) ∧
    AlwaysYields (Net.init fun i : Fin (4 * 2 ^ 1) =>
      (pp17.circomH true (4 * 2 ^ 1) i (q' i) (masks i) (dm i) fun _ i j => i + j).recorded) (fun i => (outs' i, views' i)) ∧
    (recover (views 0) (views' 0)).1.2 = [2, 8, 0, 8] := by
  have hdom2 : Domain.new (2 ^ (1 + 1 + 1)) = some dom17b := dom17b_eq
  obtain ⟨q, hq⟩ := program17 [3, 9, 1, 9] [3, 1, 0, 0] [9, 9, 0, 0] rfl rfl rfl
  obtain ⟨q', hq'⟩ := program17 [1, 1, 1, 1] [1, 1, 0, 0] [1, 1, 0, 0] rfl rfl rfl
  obtain ⟨δ, -, h⟩ := C62_circom_h (pp17_eq true) gen17 true 1 (by norm_num) dom17_eq dom17b_eq _ _ _ _ _ _ king17 king17_inj king17_lt
    q q hq hq (fun _ => rfl) fun _ i j => i + j
  obtain ⟨δ', -, h'⟩ := C62_circom_h (pp17_eq true) gen17 true 1 (by norm_num) dom17_eq dom17b_eq _ _ _ _ _ _ king17 king17_inj king17_lt
    q' q' hq' hq' (fun _ => rfl) fun _ i j => i + j
  obtain ⟨masks, _, e, _, hm, -, -, -, -, hs, hr⟩ := h t
  obtain ⟨masks', _, e', _, hm', -, -, -, -, hs', hr'⟩ := h' t
  obtain ⟨D, hD⟩ := hs rfl rfl
  obtain ⟨D', hD'⟩ := hs' rfl rfl
  obtain ⟨ε, hε⟩ := hr D hD
  obtain ⟨ε', hε'⟩ := hr' D' hD'
  obtain ⟨dm, _, d1, -, -, outs, _, views, r1, -, -⟩ := hε td
  obtain ⟨dm', _, d1', -, -, outs', _, views', r1', -, -⟩ := hε' td
  have e1 : ∀ i : Fin (4 * 2 ^ 1), dm' i = dm i := fun i => sampled_eq d1' d1 i i.2
  have e2 : ∀ i : Fin (4 * 2 ^ 1), pp17.circomH true (4 * 2 ^ 1) i (q' i) (masks' i) (dm i) (fun _ i j => i + j) =
      pp17.circomH true (4 * 2 ^ 1) i (q' i) (masks i) (dm i) fun _ i j => i + j := fun i => by
    rw [circomH_stages true dom17_eq hdom2 (hq'.domain i i.2), circomH_stages true dom17_eq hdom2 (hq'.domain i i.2)]
    exact stages_congr fun k hk => (hm'.eq (pp17_eq true) dom17_eq i i.2 k hk).trans (hm.eq (pp17_eq true) dom17_eq i i.2 k hk).symm
  simp only [e1, e2] at r1'
  obtain ⟨f, hf⟩ := C87_circom_h (pp17_eq true) true 1 (by norm_num) dom17_eq hdom2
  refine ⟨f, q, q', masks, dm, outs, outs', views, views', hq, hq', r1, r1', ?_⟩
  rw [hf _ _ _ _ _ _ _ _ hq hq' t td masks dm hm d1 _ _ _ _ _ _ r1 r1' 0 rfl]
  exact (by decide : List.zipWith (· - ·) [3, 9, 1, 9] [1, 1, 1, 1] = ([2, 8, 0, 8] : List (ZMod 17)))

/-- Two proofs with `libsnark_h`. -/
example (t : Nat → VecTape (ZMod 17)) (td : VecTape (ZMod 17)) :
    ∃ (recover : Transcript → Transcript → (List (List (ZMod 17)) × List (ZMod 17)) × (List (List (ZMod 17)) × List (ZMod 17)) ×
      List (List (ZMod 17)) × List (ZMod 17)) (q q' : Nat → PackedQAPShare (ZMod 17))
    (masks : Nat → Nat → FftMask (ZMod 17)) (outs outs' : Nat → List (ZMod 17))
    (views views' : Fin (4 * 2 ^ 1) → Transcript), HoldsProgram pp17 1 1 dom17 q [3, 9, 1, 9] [3, 1, 0, 0] [9, 9, 0, 0] ∧
    HoldsProgram pp17 1 1 dom17 q' [1, 1, 1, 1] [1, 1, 0, 0] [1, 1, 0, 0] ∧
    AlwaysYields (Net.init fun i : Fin (4 * 2 ^ 1) =>
      (pp17.libsnarkH true (4 * 2 ^ 1) i (q i) (masks i) fun _ i j => i + j).recorded) (fun i => (outs i, views i)) ∧
    AlwaysYields (Net.init fun i : Fin (4 * 2 ^ 1) =>
      (pp17.libsnarkH true (4 * 2 ^ 1) i (q' i) (masks i) fun _ i j => i + j).recorded) (fun i => (outs' i, views' i)) ∧
    (recover (views 0) (views' 0)).1.2 = [2, 8, 0, 8] := by
  have hcos : ∃ x : ZMod 17, x ≠ 0 ∧ x ^ 2 ^ (1 + 1) ≠ 1 := ⟨3, by decide, by decide⟩
  obtain ⟨q, hq⟩ := program17 [3, 9, 1, 9] [3, 1, 0, 0] [9, 9, 0, 0] rfl rfl rfl
  obtain ⟨q', hq'⟩ := program17 [1, 1, 1, 1] [1, 1, 0, 0] [1, 1, 0, 0] rfl rfl rfl
  obtain ⟨δ, -, h⟩ := C62_libsnark_h (pp17_eq true) gen17 true 1 (by norm_num) dom17_eq hcos _ _ _ _ _ _ king17 king17_inj king17_lt
    q q hq hq (fun _ => rfl) fun _ i j => i + j
  obtain ⟨δ', -, h'⟩ := C62_libsnark_h (pp17_eq true) gen17 true 1 (by norm_num) dom17_eq hcos _ _ _ _ _ _ king17 king17_inj king17_lt
    q' q' hq' hq' (fun _ => rfl) fun _ i j => i + j
  obtain ⟨m, _, e, _, -, -, hs, hr⟩ := h t
  obtain ⟨m', _, e', _, -, -, hs', hr'⟩ := h' t
  obtain ⟨D, hD⟩ := hs rfl rfl
  obtain ⟨D', hD'⟩ := hs' rfl rfl
  obtain ⟨ε, hε⟩ := hr D hD
  obtain ⟨ε', hε'⟩ := hr' D' hD'
  obtain ⟨masks, _, hm, -, -, -, outs, _, views, r1, -, -⟩ := hε td
  obtain ⟨masks', _, hm', -, -, -, outs', _, views', r1', -, -⟩ := hε' td
  have e1 : ∀ i : Fin (4 * 2 ^ 1), ∀ k < 7, masks' i k = masks i k := fun i k hk =>
    (hm'.eq (pp17_eq true) dom17_eq i i.2 k hk).trans (hm.eq (pp17_eq true) dom17_eq i i.2 k hk).symm
  have e2 : ∀ i : Fin (4 * 2 ^ 1), pp17.libsnarkH true (4 * 2 ^ 1) i (q' i) (masks' i) (fun _ i j => i + j) =
      pp17.libsnarkH true (4 * 2 ^ 1) i (q' i) (masks i) fun _ i j => i + j := fun i => by
    rw [libsnarkH_stages true dom17_eq (generator_pow_ne_one hcos) (hq'.domain i i.2),
      libsnarkH_stages true dom17_eq (generator_pow_ne_one hcos) (hq'.domain i i.2), e1 i 6 (by omega)]
    exact stages_congr fun k hk => e1 i k (by omega)
  simp only [e2] at r1'
  obtain ⟨f, hf⟩ := C87_libsnark_h (pp17_eq true) true 1 (by norm_num) dom17_eq hcos
  refine ⟨f, q, q', masks, outs, outs', views, views', hq, hq', r1, r1', ?_⟩
  rw [hf _ _ _ _ _ _ _ _ hq hq' _ masks hm _ _ _ _ _ _ r1 r1' 0 rfl]
  exact (by decide : List.zipWith (· - ·) [3, 9, 1, 9] [1, 1, 1, 1] = ([2, 8, 0, 8] : List (ZMod 17)))

/-- A transform of four coefficients followed by one of eight, with masks of their own. -/
example (t : Nat → VecTape (ZMod 17)) : ∃ (sh sh' : Nat → Nat → List (ZMod 17)) (masks masks' : Nat → Nat → FftMask (ZMod 17))
    (outs outs' : Nat → Nat → List (ZMod 17)) (views : Fin (4 * 2 ^ 1) → Transcript),
    HoldsOutput pp17 true 1 1 (sh 0) [3, 5, 7, 11] ∧ HoldsOutput pp17 true 2 1 (sh 1) [1, 2, 3, 4, 5, 6, 7, 8] ∧
    HoldsOutput pp17 true 1 1 (sh' 0) [0, 0, 0, 1] ∧ HoldsOutput pp17 true 2 1 (sh' 1) [0, 0, 0, 0, 0, 0, 0, 1] ∧
    AlwaysYields (Net.init fun i : Fin (4 * 2 ^ 1) => (inTurn ((List.range 2).map fun j => pp17.dFft true (4 * 2 ^ 1) i (sh j i) (masks j i) false
      (if j = 0 then dom17 else dom17b) .zero fun i j => i + j)).recorded) (fun i => ((List.range 2).map fun j => outs j i, views i)) ∧
    AlwaysYields (Net.init fun i : Fin (4 * 2 ^ 1) => (inTurn ((List.range 2).map fun j => pp17.dFft true (4 * 2 ^ 1) i (sh' j i) (masks' j i) false
      (if j = 0 then dom17 else dom17b) .zero fun i j => i + j)).recorded) (fun i => ((List.range 2).map fun j => outs' j i, views i)) := by
  obtain ⟨s0, -, h0⟩ := C27_fresh_input (pp17_eq true) true 1 [3, 5, 7, 11] rfl fun _ _ => 1
  obtain ⟨s0', h0', p0⟩ := C61_inputs_exist (pp17_eq true) gen17 1 _ [0, 0, 0, 1] rfl king17 king17_inj king17_lt _ h0
  obtain ⟨s1, -, h1⟩ := C27_fresh_input (pp17_eq true) true 2 [1, 2, 3, 4, 5, 6, 7, 8] rfl fun _ _ => 1
  obtain ⟨s1', h1', p1⟩ := C61_inputs_exist (pp17_eq true) gen17 2 _ [0, 0, 0, 0, 0, 0, 0, 1] rfl king17 king17_inj king17_lt _ h1
  have two : ∀ {Q : Nat → Prop}, Q 0 → Q 1 → ∀ j < 2, Q j := fun a b j hj => by
    obtain rfl | rfl : j = 0 ∨ j = 1 := by omega
    exacts [a, b]
  obtain ⟨δ, h⟩ := C87_fresh_d_fft (pp17_eq true) gen17 true 2 (fun j => if j = 0 then 1 else 2) (two (by simp) (by simp))
    (fun j => if j = 0 then dom17 else dom17b) (two dom17_eq dom17b_eq) (fun j => if j = 0 then [3, 5, 7, 11] else [1, 2, 3, 4, 5, 6, 7, 8])
    (fun j => if j = 0 then [0, 0, 0, 1] else [0, 0, 0, 0, 0, 0, 0, 1]) (fun _ => false) king17 king17_inj king17_lt
    (fun j => if j = 0 then fun p => s0.getD p [] else fun p => s1.getD p []) (fun j => if j = 0 then s0' else s1') (two h0 h1) (two h0' h1') (two p0 p1)
  obtain ⟨masks, masks', -, -, -, hr⟩ := h t
  obtain ⟨outs, outs', views, r1, r2, -⟩ := hr (fun _ => .zero) fun _ i j => i + j
  exact ⟨_, _, masks, masks', outs, outs', views, h0, h1, h0', h1', r1, r2⟩

/-- The same transform twice, with the same masks, shows every party the same bytes twice. -/
example (t : VecTape (ZMod 17)) : ∃ (sh : Nat → List (ZMod 17)) (masks : Nat → FftMask (ZMod 17)) (outs : Nat → List (ZMod 17))
    (views : Fin (4 * 2 ^ 1) → Transcript), HoldsOutput pp17 true 1 1 sh [3, 5, 7, 11] ∧
    AlwaysYields (Net.init fun i : Fin (4 * 2 ^ 1) => (inTurn ((List.range 2).map fun _ => pp17.dFft true (4 * 2 ^ 1) i (sh i) (masks i) false
      dom17 .zero fun i j => i + j)).recorded) (fun i => ([outs i, outs i], views i ++ views i)) := by
  obtain ⟨sh, -, h⟩ := C27_fresh_input (pp17_eq true) true 1 [3, 5, 7, 11] rfl fun _ _ => 1
  obtain ⟨δ, hδ⟩ := C61_d_fft (pp17_eq true) gen17 true 1 (by norm_num) dom17_eq _ _ false king17 king17_inj king17_lt _ _ h h fun _ => rfl
  obtain ⟨masks, _, hm, -, -, hr⟩ := hδ t
  obtain ⟨outs, _, views, h1, -, -⟩ := hr .zero fun i j => i + j
  have := C87_views 2 (fun _ (i : Fin (4 * 2 ^ 1)) => pp17.dFft true (4 * 2 ^ 1) i (sh.getD i []) (masks i) false dom17 .zero fun i j => i + j)
    (fun _ i => outs i) (fun _ => views) (fun _ _ i => (PSS.dFft_wf _ (by positivity) _ _ _ _ _ _ _).mono fun _ _ => trivial)
    (fun _ _ => h1) fun _ _ => (C86_leave_nothing (G1 := ZMod 17) (G2 := ZMod 17) pp17 true (fun i j => i + j) (fun i j => i + j)
      fun _ i j => i + j).1 (fun p => sh.getD p []) masks _ _ _
  refine ⟨_, masks, outs, views, h, ?_⟩
  simpa [List.range_succ] using this

end ZkSaas.Properties
