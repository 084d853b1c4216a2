import Verif.Model.Machine
import Verif.Lemmas.Robust
import Verif.Lemmas.Frame

/-!
# Machine arithmetic that does not overflow
-/

namespace ZkSaas

theorem usize_ok {dbg : Bool} {x : Nat} (h : x < USIZE) : usize dbg x = .ok x := if_pos h
theorem uadd_ok {dbg : Bool} {x y : Nat} (h : x + y < USIZE) : uadd dbg x y = .ok (x + y) := usize_ok h
theorem umul_ok {dbg : Bool} {x y : Nat} (h : x * y < USIZE) : umul dbg x y = .ok (x * y) := usize_ok h
theorem usub_ok {dbg : Bool} {x y : Nat} (h : y ≤ x) : usub dbg x y = .ok (x - y) := if_pos h
theorem upow2_ok {dbg : Bool} {i : Nat} (h : 2 ^ i < USIZE) : upow2 dbg i = .ok (2 ^ i) := usize_ok h
theorem udiv_ok {x y : Nat} (h : 0 < y) : udiv x y = .ok (x / y) := if_neg (by omega)

theorem forDown_congr {σ : Type} {m : Nat} {body body' : Nat → σ → Res σ} (h : ∀ i < m, body i = body' i) (s : σ) :
    forDown m body s = forDown m body' s := by
  induction m generalizing s with
  | zero => rfl
  | succ m ih =>
    rw [forDown_succ, forDown_succ, h m (by omega)]
    cases body' m s with
    | error e => rfl
    | ok s' => exact ih (fun i hi => h i (by omega)) s'

variable {F : Type} [Field F] [DecidableEq F]

/-- The parameters of the sharing scheme are small enough for machine integers. -/
structure PSS.Small (pp : PSS F) : Prop where
  pos : 0 < pp.l
  t_eq : pp.t = pp.l
  lt : 4 * pp.l < USIZE

theorem PSS.newM_eq [FftField F] (dbg : Bool) {l : Nat} (h : 4 * l < USIZE) : PSS.newM (F := F) dbg l = PSS.new dbg l := by
  unfold PSS.newM PSS.new
  dsimp only
  rw [umul_ok (by omega), ok_bind, uadd_ok (by omega), ok_bind, umul_ok (by omega), ok_bind]
  simp only [ok_bind, umul_ok (dbg := dbg) (show 2 * (l + l) < USIZE by omega)]

theorem synDivInPlaceM_eq (dbg : Bool) {p : List F} (hp : p.length < USIZE) (a : Nat) (b : F) :
    synDivInPlaceM dbg p a b = synDivInPlace p a b := by
  unfold synDivInPlaceM synDivInPlace
  cases h1 : assert (a != 0) with
  | error e => rfl
  | ok _ =>
  cases h2 : assert (b != 0) with
  | error e => rfl
  | ok _ =>
  cases h3 : assert (decide (p.length > a)) with
  | error e => rfl
  | ok _ =>
  have h3 : a < p.length := by
    by_contra hc
    rw [decide_eq_false hc] at h3
    cases h3
  simp only [ok_bind]
  split
  · rfl
  · rw [usub_ok (by omega), ok_bind]
    split <;>
    · congr 1
      refine forDown_congr (fun i hi => ?_) p
      funext p
      rw [uadd_ok (by omega)]
      rfl

theorem getZeroRootsM_eq (dbg : Bool) {xs : List F} (h : xs.length + 1 < USIZE) : getZeroRootsM dbg xs = getZeroRoots xs := by
  unfold getZeroRootsM getZeroRoots
  rw [uadd_ok h, ok_bind]
  dsimp only
  rw [List.length_replicate, usub_ok (by omega), ok_bind, Nat.add_sub_cancel]
  congr 1
  funext result
  have key : ∀ m ≤ xs.length, ∀ result : List F, forUp m (fun i (st : List F × Nat) => (do
      let n ← usub dbg st.2 1
      let result ← wr st.1 n 0
      let result ← forUp (xs.length - n) (fun d result => do
        let j := n + d
        wr result j ((← rd result j) - (← rd result (← uadd dbg j 1)) * (← rd xs i))) result
      pure (result, n) : Res (List F × Nat))) (result, xs.length) =
      (forUp m (fun i result => (do
        let n := xs.length - 1 - i
        let result ← wr result n 0
        forUp (xs.length - n) (fun d result => do
          let j := n + d
          wr result j ((← rd result j) - (← rd result (j + 1)) * (← rd xs i))) result : Res (List F))) result).map
        fun r => (r, xs.length - m) := by
    intro m hm result
    induction m with
    | zero => rfl
    | succ m ih =>
      rw [forUp_succ, forUp_succ, ih (by omega)]
      cases forUp m (fun i result => (do
        let n := xs.length - 1 - i
        let result ← wr result n 0
        forUp (xs.length - n) (fun d result => do
          let j := n + d
          wr result j ((← rd result j) - (← rd result (j + 1)) * (← rd xs i))) result : Res (List F))) result with
      | error e => rfl
      | ok r =>
        show (do
          let n ← usub dbg (xs.length - m) 1
          let result ← wr r n 0
          let result ← forUp (xs.length - n) (fun d result => do
            let j := n + d
            wr result j ((← rd result j) - (← rd result (← uadd dbg j 1)) * (← rd xs m))) result
          pure (result, n) : Res (List F × Nat)) = Except.map (fun r => (r, xs.length - (m + 1))) (do
          let n := xs.length - 1 - m
          let result ← wr r n 0
          forUp (xs.length - n) (fun d result => do
            let j := n + d
            wr result j ((← rd result j) - (← rd result (j + 1)) * (← rd xs m))) result)
        rw [usub_ok (by omega), ok_bind]
        dsimp only
        rw [show xs.length - m - 1 = xs.length - 1 - m by omega]
        cases wr r (xs.length - 1 - m) 0 with
        | error e => rfl
        | ok r' =>
          rw [ok_bind, ok_bind]
          rw [forUp_congr (body' := fun d result => do
            let j := xs.length - 1 - m + d
            wr result j ((← rd result j) - (← rd result (j + 1)) * (← rd xs m)))]
          · cases forUp (xs.length - (xs.length - 1 - m)) (fun d result => (do
              let j := xs.length - 1 - m + d
              wr result j ((← rd result j) - (← rd result (j + 1)) * (← rd xs m)) : Res (List F))) r' with
            | error e => rfl
            | ok r'' => 
              show Except.ok _ = Except.ok _
              rw [show xs.length - 1 - m = xs.length - (m + 1) by omega]
          · intro d hd
            funext r
            dsimp only
            rw [uadd_ok (by omega)]
            rfl
  rw [key _ le_rfl]
  cases forUp xs.length (fun i result => (do
        let n := xs.length - 1 - i
        let result ← wr result n 0
        forUp (xs.length - n) (fun d result => do
          let j := n + d
          wr result j ((← rd result j) - (← rd result (j + 1)) * (← rd xs i))) result : Res (List F))) result <;> rfl

theorem getZeroRoots_length {xs w : List F} (h : getZeroRoots xs = .ok w) : w.length = xs.length + 1 := by
  unfold getZeroRoots at h
  obtain ⟨r, hr, h⟩ := bind_eq_ok h
  have hr := wr_length hr
  rw [List.length_replicate] at hr
  refine forUp_preserves (fun s => s.length = xs.length + 1) (fun i s s' hs hl => ?_) h hr
  obtain ⟨s1, h1, hs⟩ := bind_eq_ok hs
  refine forUp_preserves (fun s => s.length = xs.length + 1) (fun i s s' hs hl => ?_) hs ((wr_length h1).trans hl)
  obtain ⟨_, -, hs⟩ := bind_eq_ok hs
  obtain ⟨_, -, hs⟩ := bind_eq_ok hs
  obtain ⟨_, -, hs⟩ := bind_eq_ok hs
  exact (wr_length hs).trans hl

section
variable {T : Type} [AddCommGroup T] [Module F T] [DecidableEq T]

theorem lagrangeInterpolateM_eq (dbg : Bool) {xs : List F} (h : xs.length + 1 < USIZE) (ys : List T) :
    lagrangeInterpolateM dbg xs ys = lagrangeInterpolate xs ys := by
  unfold lagrangeInterpolateM lagrangeInterpolate
  rw [getZeroRootsM_eq dbg h]
  cases hr : getZeroRoots xs with
  | error e => rfl
  | ok roots =>
    rw [ok_bind, ok_bind]
    rw [mapM_congr_ok (f' := fun x => synDiv roots 1 x) fun x _ =>
      synDivInPlaceM_eq dbg (by rw [getZeroRoots_length hr]; exact h) 1 x]

theorem PSS.packM_eq {pp : PSS F} (hs : pp.Small) (dbg : Bool) (secrets : List T) (rng : Nat → T) :
    pp.packM dbg secrets rng = pp.pack dbg secrets rng := by
  have := hs.lt; have := hs.t_eq
  unfold PSS.packM PSS.pack
  rw [uadd_ok (by omega)]
  rfl

theorem everyOtherM_eq (dbg : Bool) (v : List T) {l : Nat} (h : 2 * l < USIZE) : everyOtherM dbg v l = everyOther v l := by
  unfold everyOtherM everyOther
  rw [umul_ok h, ok_bind]

theorem PSS.unpack2M_eq {pp : PSS F} (hs : pp.Small) (dbg : Bool) (shares : List T) : pp.unpack2M dbg shares = pp.unpack2 dbg shares := by
  have := hs.lt; have := hs.t_eq; have := hs.pos
  unfold PSS.unpack2M PSS.unpack2
  rw [uadd_ok (by omega), ok_bind, umul_ok (by omega), ok_bind, usub_ok (by omega), ok_bind, everyOtherM_eq dbg _ (by omega)]

theorem mapM_length {α β : Type} {f : α → Res β} {xs : List α} {ys : List β} (h : xs.mapM f = .ok ys) : ys.length = xs.length := by
  induction xs generalizing ys with
  | nil => cases h; rfl
  | cons x xs ih =>
    rw [List.mapM_cons] at h
    obtain ⟨y, -, h⟩ := bind_eq_ok h
    obtain ⟨ys', h', h⟩ := bind_eq_ok h
    cases h
    simp [ih h']

theorem PSS.lagrangeUnpackM_eq {pp : PSS F} (hs : pp.Small) (dbg : Bool) (shares : List T) {parties : List Nat}
    (hp : parties.length + 1 < USIZE) : pp.lagrangeUnpackM dbg shares parties = pp.lagrangeUnpack dbg shares parties := by
  have := hs.lt; have := hs.t_eq; have := hs.pos
  unfold PSS.lagrangeUnpackM PSS.lagrangeUnpack
  rw [uadd_ok (by omega), ok_bind, usub_ok (by omega), ok_bind, umul_ok (by omega)]
  simp only [ok_bind]
  congr 1; funext _
  congr 1; funext _
  cases hx : parties.mapM fun p => rd pp.share.elements p with
  | error e => rfl
  | ok xs =>
    rw [ok_bind, ok_bind, lagrangeInterpolateM_eq dbg (by rw [mapM_length hx]; exact hp)]
    congr 1; funext r
    exact everyOtherM_eq dbg _ (by omega)

theorem PSS.unpackMissingSharesM_eq {pp : PSS F} (hs : pp.Small) (dbg : Bool) (shares : List T) {parties : List Nat}
    (hp : parties.length + 1 < USIZE) : pp.unpackMissingSharesM dbg shares parties = pp.unpackMissingShares dbg shares parties := by
  unfold PSS.unpackMissingSharesM PSS.unpackMissingShares
  rw [PSS.unpack2M_eq hs, PSS.lagrangeUnpackM_eq hs dbg shares hp]

theorem PSS.packVecM_eq {pp : PSS F} (hs : pp.Small) (dbg : Bool) (secrets : List T) (rng : Nat → Nat → T) :
    pp.packVecM dbg secrets rng = pp.packVec dbg secrets rng := by
  unfold PSS.packVecM PSS.packVec
  simp only [PSS.packM_eq hs]

theorem PSS.packStridedM_eq {pp : PSS F} (hs : pp.Small) (dbg : Bool) (v : List T) (rng : Nat → Nat → T) :
    pp.packStridedM dbg v rng = pp.packStrided dbg v rng := by
  unfold PSS.packStridedM PSS.packStrided
  simp only [PSS.packM_eq hs]

theorem DegRedMask.sampleM_eq {pp : PSS F} (hs : pp.Small) (dbg : Bool) (gen : T) {num : Nat} (hnum : num * pp.l < USIZE) (vals : Nat → F)
    (rngIn rngOut : Nat → Nat → T) : DegRedMask.sampleM pp dbg gen num vals rngIn rngOut = DegRedMask.sample pp dbg gen num vals rngIn rngOut := by
  unfold DegRedMask.sampleM DegRedMask.sample
  rw [umul_ok hnum, ok_bind]
  simp only [PSS.packVecM_eq hs]

theorem PSS.degRedKingM_eq {pp : PSS F} (hs : pp.Small) (dbg : Bool) (shares : List (List T)) {parties : List Nat}
    (hp : parties.length + 1 < USIZE) (rng : Nat → Nat → T) : pp.degRedKingM dbg shares parties rng = pp.degRedKing dbg shares parties rng := by
  unfold PSS.degRedKingM PSS.degRedKing
  simp only [PSS.packM_eq hs, PSS.unpackMissingSharesM_eq hs dbg _ hp]

theorem MsmMask.sampleM_eq {pp : PSS F} (hs : pp.Small) (dbg : Bool) (gen : T) (vals : Nat → F) (rngIn rngOut : Nat → T) :
    MsmMask.sampleM pp dbg gen vals rngIn rngOut = MsmMask.sample pp dbg gen vals rngIn rngOut := by
  unfold MsmMask.sampleM MsmMask.sample
  simp only [PSS.packM_eq hs]

theorem PSS.msmKingM_eq {pp : PSS F} (hs : pp.Small) (dbg : Bool) (n : Nat) (shares : List T) {parties : List Nat}
    (hp : parties.length + 1 < USIZE) : pp.msmKingM dbg n shares parties = pp.msmKing dbg n shares parties := by
  unfold PSS.msmKingM PSS.msmKing
  simp only [PSS.unpackMissingSharesM_eq hs dbg _ hp]

end

theorem log2_le {x : Nat} {e : Nat} (h : x ≤ 2 ^ e) : log2 x ≤ e := Nat.clog_le_of_le_pow h

theorem PSS.fft1InPlaceM_eq {pp : PSS F} (hs : pp.Small) (dbg : Bool) {px : List F} (h : px.length * pp.l ≤ 2 ^ 63) (gen : F) :
    pp.fft1InPlaceM dbg px gen = pp.fft1InPlace px gen := by
  have hl := hs.pos
  have hU : (2 : Nat) ^ 63 < USIZE := by norm_num
  unfold PSS.fft1InPlaceM PSS.fft1InPlace
  rw [umul_ok (by omega), ok_bind]
  dsimp only
  refine forDown_congr (fun i' hi' => ?_) px
  funext px'
  have hi : log2 pp.l + 1 + i' ≤ 63 := by have := log2_le h; omega
  have hi0 : 1 ≤ log2 pp.l + 1 + i' := by omega
  generalize log2 pp.l + 1 + i' = i at hi hi0 ⊢
  have hi2 : 2 ^ i < USIZE := lt_of_le_of_lt (Nat.pow_le_pow_right (by norm_num) hi) hU
  have hi1 : 2 ^ (i - 1) < USIZE := lt_of_le_of_lt (Nat.pow_le_pow_right (by norm_num) (Nat.sub_le _ _)) hi2
  rw [upow2_ok hi2, ok_bind, udiv_ok (by positivity), ok_bind, upow2_ok hi1, ok_bind]
  congr 1
  refine forUp_congr (fun k hk => ?_) _
  funext st
  rw [ok_bind, udiv_ok hl, ok_bind]
  congr 1
  refine forUp_congr (fun j hj => ?_) _
  funext px''
  have hjk : (2 * j + 2) * (px.length * pp.l / 2 ^ i) ≤ 2 ^ 63 := by
    have h1 : j + 1 ≤ 2 ^ (i - 1) := le_trans hj (Nat.div_le_self _ _)
    have h2 : 2 * 2 ^ (i - 1) = 2 ^ i := by rw [← pow_succ', Nat.sub_add_cancel hi0]
    exact le_trans (Nat.mul_le_mul_right _ (by omega)) (le_trans (Nat.mul_div_le _ _) h)
  generalize px.length * pp.l / 2 ^ i = m at hk hjk ⊢
  have e1 : (2 * j + 1) * m = 2 * j * m + m := by ring
  have e2 : (2 * j + 2) * m = 2 * j * m + 2 * m := by ring
  have e3 : j * (2 * m) = 2 * j * m := by ring
  have e4 : 2 * j < USIZE := by
    rcases Nat.eq_zero_or_pos m with rfl | hm
    · omega
    · have : 2 * j + 2 ≤ (2 * j + 2) * m := Nat.le_mul_of_pos_right _ hm
      omega
  rw [umul_ok e4, ok_bind, umul_ok (by omega), ok_bind, uadd_ok (by omega), ok_bind]
  congr 1; funext x
  rw [ok_bind, uadd_ok (by
    have : 2 * j + 2 ≤ (2 * j + 2) * m := Nat.le_mul_of_pos_right _ (by omega)
    omega), ok_bind, umul_ok (by omega), ok_bind, uadd_ok (by omega), ok_bind]
  congr 1; funext y
  rw [umul_ok (by omega), ok_bind, umul_ok (by omega), ok_bind, uadd_ok (by omega), ok_bind]
  congr 1; funext z
  rw [ok_bind, umul_ok (by omega), ok_bind, uadd_ok (by omega), ok_bind, uadd_ok (by omega), ok_bind]

theorem PSS.fft2InPlaceM_eq {pp : PSS F} (hs : pp.Small) (dbg : Bool) {s1 : List F} (h : s1.length ≤ 2 ^ 63) (gen : F) :
    pp.fft2InPlaceM dbg s1 gen = pp.fft2InPlace s1 gen := by
  have hU : (2 : Nat) ^ 63 < USIZE := by norm_num
  unfold PSS.fft2InPlaceM PSS.fft2InPlace
  dsimp only
  congr 1
  refine forDown_congr (fun i' hi' => ?_) _
  funext st
  have hi : i' + 1 ≤ 62 := by
    have : log2 pp.l ≤ 62 := log2_le (by have := hs.lt; norm_num [USIZE] at this ⊢; omega)
    omega
  have hi2 : 2 ^ (i' + 1) < USIZE := lt_of_le_of_lt (Nat.pow_le_pow_right (by norm_num) hi) (by norm_num)
  have hi1 : 2 ^ i' < USIZE := lt_of_le_of_lt (Nat.pow_le_pow_right (by norm_num) (Nat.le_succ _)) hi2
  rw [upow2_ok hi2, ok_bind, udiv_ok (by positivity), ok_bind, Nat.add_sub_cancel, upow2_ok hi1, ok_bind]
  congr 1
  refine forUp_congr (fun k hk => ?_) _
  funext st'
  rw [ok_bind]
  congr 1
  refine forUp_congr (fun j hj => ?_) _
  funext s2
  have hm : 2 ^ (i' + 1) * (s1.length / 2 ^ (i' + 1)) ≤ 2 ^ 63 := le_trans (Nat.mul_div_le _ _) h
  generalize s1.length / 2 ^ (i' + 1) = m at hk hm ⊢
  have e0 : 2 ^ (i' + 1) = 2 * 2 ^ i' := by rw [pow_succ]; ring
  rw [e0] at hi2 hm
  simp only [e0, ok_bind]
  generalize 2 ^ i' = w at hj hm hi1 hi2 ⊢
  obtain ⟨d, rfl⟩ : ∃ d, m = k + 1 + d := ⟨m - (k + 1), by omega⟩
  have e1 : 2 * w * (k + 1 + d) = k * (2 * w) + 2 * w + 2 * (d * w) := by ring
  have e2 : k * (2 * w) = 2 * (k * w) := by ring
  have e3 : (k + (k + 1 + d)) * w = 2 * (k * w) + w + d * w := by ring
  have e4 : k + (k + 1 + d) ≤ (k + (k + 1 + d)) * w := Nat.le_mul_of_pos_right _ (by omega)
  have a1 : umul dbg k (2 * w) = .ok (k * (2 * w)) := umul_ok (by omega)
  have a2 : umul dbg 2 j = .ok (2 * j) := umul_ok (by omega)
  have a3 : uadd dbg (k * (2 * w)) (2 * j) = .ok (k * (2 * w) + 2 * j) := uadd_ok (by omega)
  have a4 : uadd dbg (k * (2 * w) + 2 * j) 1 = .ok (k * (2 * w) + 2 * j + 1) := uadd_ok (by omega)
  have a5 : umul dbg k w = .ok (k * w) := umul_ok (by omega)
  have a6 : uadd dbg (k * w) j = .ok (k * w + j) := uadd_ok (by omega)
  have a7 : uadd dbg k (k + 1 + d) = .ok (k + (k + 1 + d)) := uadd_ok (by omega)
  have a8 : umul dbg (k + (k + 1 + d)) w = .ok ((k + (k + 1 + d)) * w) := umul_ok (by omega)
  have a9 : uadd dbg ((k + (k + 1 + d)) * w) j = .ok ((k + (k + 1 + d)) * w + j) := uadd_ok (by omega)
  simp only [a1, a2, a3, a4, a5, a6, a7, a8, a9, ok_bind]

theorem PSS.fft2FinishM_eq {pp : PSS F} (hs : pp.Small) (dbg : Bool) {s1 : List F} (h : s1.length ≤ 2 ^ 63) (g gen : F) (rearrange : Bool)
    (post : F → F) (rng : Nat → Nat → F) :
    pp.fft2FinishM dbg s1 g gen rearrange post rng = pp.fft2Finish dbg s1 g gen rearrange post rng := by
  unfold PSS.fft2FinishM PSS.fft2Finish
  simp only [PSS.fft2InPlaceM_eq hs dbg h, PSS.packStridedM_eq hs, PSS.packVecM_eq hs]

theorem FftMask.sampleM_eq {pp : PSS F} (hs : pp.Small) (dbg rearrange : Bool) (g gen : F) {m : Nat} (h : m ≤ 2 ^ 63)
    (vals : Nat → F) (rngIn rngOut : Nat → Nat → F) :
    FftMask.sampleM pp dbg rearrange g gen m vals rngIn rngOut = FftMask.sample pp dbg rearrange g gen m vals rngIn rngOut := by
  unfold FftMask.sampleM FftMask.sample
  simp only [PSS.packVecM_eq hs, PSS.fft2FinishM_eq hs dbg (show ((List.range m).map vals).length ≤ 2 ^ 63 by simpa using h)]

theorem PSS.fft2KingM_eq {pp : PSS F} (hs : pp.Small) (dbg : Bool) {outLen mbyl : Nat} (h1 : outLen * pp.l ≤ 2 ^ 63) (h2 : mbyl * pp.l ≤ 2 ^ 63)
    (g gen : F) (rearrange : Bool) (shares : List (List F)) {parties : List Nat} (hp : parties.length + 1 < USIZE) (rng : Nat → Nat → F) :
    pp.fft2KingM dbg outLen mbyl g gen rearrange shares parties rng = pp.fft2King dbg outLen mbyl g gen rearrange shares parties rng := by
  have hU : (2 : Nat) ^ 63 < USIZE := by norm_num
  unfold PSS.fft2KingM PSS.fft2King
  congr 1
  funext allShares
  rw [umul_ok (by omega), ok_bind]
  dsimp only
  have e : forUp (min mbyl allShares.length) (fun i s1 => (do
      let share ← rd allShares i
      let tmp ← pp.unpackMissingSharesM dbg share parties
      forUp pp.l (fun j s1 => do
        let x ← rd tmp j
        wr s1 (← uadd dbg (← umul dbg i pp.l) j) x) s1 : Res (List F))) (List.replicate (outLen * pp.l) 0) =
      forUp (min mbyl allShares.length) (fun i s1 => (do
      let share ← rd allShares i
      let tmp ← pp.unpackMissingShares dbg share parties
      forUp pp.l (fun j s1 => do
        let x ← rd tmp j
        wr s1 (i * pp.l + j) x) s1 : Res (List F))) (List.replicate (outLen * pp.l) 0) := by
    refine forUp_congr (fun i hi => ?_) _
    funext s
    simp only [PSS.unpackMissingSharesM_eq hs dbg _ hp]
    congr 1; funext share
    congr 1; funext tmp
    refine forUp_congr (fun j hj => ?_) _
    funext s'
    have : (i + 1) * pp.l ≤ mbyl * pp.l := Nat.mul_le_mul_right _ (by omega)
    have : (i + 1) * pp.l = i * pp.l + pp.l := by ring
    rw [umul_ok (by omega)]
    simp only [ok_bind]
    rw [uadd_ok (by omega)]
    simp only [ok_bind]
  rw [e]
  cases hf : forUp (min mbyl allShares.length) (fun i s1 => (do
      let share ← rd allShares i
      let tmp ← pp.unpackMissingShares dbg share parties
      forUp pp.l (fun j s1 => do
        let x ← rd tmp j
        wr s1 (i * pp.l + j) x) s1 : Res (List F))) (List.replicate (outLen * pp.l) 0) with
  | error e => rfl
  | ok s =>
    have hl : s.length = outLen * pp.l := by
      refine forUp_preserves (fun s => s.length = outLen * pp.l) (fun i s s' hs hl => ?_) hf (by simp)
      obtain ⟨_, -, hs⟩ := bind_eq_ok hs
      obtain ⟨_, -, hs⟩ := bind_eq_ok hs
      refine forUp_preserves (fun s => s.length = outLen * pp.l) (fun i s s' hs hl => ?_) hs hl
      obtain ⟨_, -, hs⟩ := bind_eq_ok hs
      exact (wr_length hs).trans hl
    rw [ok_bind, ok_bind, PSS.fft2FinishM_eq hs dbg (by omega)]

theorem ppProductsM_eq (dbg : Bool) {numden : List F} (h : numden.length < USIZE) : ppProductsM dbg numden = ppProducts numden := by
  unfold ppProductsM ppProducts
  dsimp only
  have e : ∀ v : List F, forUp (numden.length / 2) (fun i (numden' : List F) => (do
      let d ← rd numden' (← uadd dbg i (numden.length / 2))
      let d ← unwrap (fieldInverse d)
      let x ← rd numden' i
      wr numden' i (x * d) : Res (List F))) v = forUp (numden.length / 2) (fun i (numden' : List F) => (do
      let d ← rd numden' (i + numden.length / 2)
      let d ← unwrap (fieldInverse d)
      let x ← rd numden' i
      wr numden' i (x * d) : Res (List F))) v := fun v => by
    refine forUp_congr (fun i hi => ?_) _
    funext v
    rw [uadd_ok (by omega), ok_bind]
  rw [e]
  rfl

theorem Domain.le_size [FftField F] {n : Nat} {d : Domain F} (h : Domain.new n = some d) : n ≤ d.size := by
  unfold Domain.new at h
  dsimp only at h
  split at h
  · cases h
  · cases h
    exact Nat.le_pow_clog (by norm_num) n

theorem qapM_eq [FftField F] (dbg : Bool) (mats : ConstraintMatrices F) (z : List F)
    (h : mats.numConstraints + mats.numInstanceVariables < USIZE) : qapM dbg mats z = qap mats z := by
  unfold qapM qap
  dsimp only
  rw [uadd_ok h]
  simp only [ok_bind]
  cases hd : Domain.new (F := F) (mats.numConstraints + mats.numInstanceVariables) with
  | none => rfl
  | some d =>
    have hle := Domain.le_size hd
    dsimp only
    rw [show assert (decide (mats.numConstraints ≤ d.size)) = .ok () from if_pos (by simp; omega), ok_bind]
    congr 1; funext ab
    rw [show assert (decide (mats.numConstraints ≤ mats.numConstraints + mats.numInstanceVariables ∧
      mats.numConstraints + mats.numInstanceVariables ≤ d.size)) = .ok () from if_pos (by simp; omega), ok_bind, Nat.add_sub_cancel_left]

theorem QAP.pssM_eq {pp : PSS F} (hs : pp.Small) (q : QAP F) (dbg : Bool) (rngA rngB rngC : Nat → Nat → F) :
    q.pssM pp dbg rngA rngB rngC = q.pss pp dbg rngA rngB rngC := by
  unfold QAP.pssM QAP.pss PSS.packQapVecM PSS.packQapVec
  simp only [PSS.packStridedM_eq hs]

theorem PSS.packFromWitnessM_eq {pp : PSS F} (hs : pp.Small) (dbg : Bool) (v : List F) (rng : Nat → Nat → F) :
    pp.packFromWitnessM dbg v rng = pp.packFromWitness dbg v rng := by
  unfold PSS.packFromWitnessM PSS.packFromWitness
  simp only [PSS.packM_eq hs]

section groth16
variable {G1 G2 : Type} [AddCommGroup G1] [Module F G1] [DecidableEq G1] [FixedWire G1]
  [AddCommGroup G2] [Module F G2] [DecidableEq G2] [FixedWire G2]

theorem PSS.openProofM_eq {pp : PSS F} (hs : pp.Small) (dbg : Bool) (result : List (G1 × G2 × G1)) :
    pp.openProofM dbg result = pp.openProof dbg result := by
  unfold PSS.openProofM PSS.openProof
  simp only [PSS.unpack2M_eq hs]

end groth16

end ZkSaas
