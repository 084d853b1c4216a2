import Verif.Lemmas.Coalition

/-! Two runs of the protocols with different inputs that look the same to the king and `l` parties. -/

set_option linter.unusedSectionVars false

namespace ZkSaas

open Finset Spec

variable {F : Type} [Field F] [DecidableEq F] {T : Type} [AddCommGroup T] [Module F T] [DecidableEq T]

/-! ### Shares with `2l` coefficients -/

/-- Every sharing with `2l` coefficients is a packing with some random values. -/
theorem PSS.tape_of_shares {pp : PSS F} (hg : pp.Good) {N : Nat} {Δ D : Nat → List T} (h : pp.SharedVec (2 * pp.l) N Δ D) :
    ∃ rng : Nat → Nat → T, ∀ p < 4 * pp.l, pp.freshVec N D rng p = Δ p := by
  have hex : ∀ c, ∃ r : Nat → T, c < N → ∀ p < 4 * pp.l, (pp.share.fft (pp.packCoeffs (D c) r)).getD p 0 = (Δ p).getD c 0 := by
    intro c
    by_cases hc : c < N
    swap
    · exact ⟨fun _ => 0, fun h => absurd h hc⟩
    obtain ⟨h1, h2, e, h3, h4⟩ := h.2 c hc
    refine ⟨fun i => pval e (2 * pp.l) (pp.secret.element (pp.l + i)), fun _ p hp => ?_⟩
    have hcoef : pp.packCoeffs (D c) (fun i => pval e (2 * pp.l) (pp.secret.element (pp.l + i))) = (List.range (2 * pp.l)).map e := by
      rw [PSS.packCoeffs_eq hg h2, ← hg.secret_size]
      refine Domain.ifft_evals hg.secret_wf fun i hi => ?_
      rw [getD_map_range, if_pos hi]
      rw [hg.secret_size] at hi ⊢
      split
      · next hil => rw [h4 i hil, ← hg.secret_element]; rfl
      · next hil => rw [show pp.l + (i - pp.l) = i by omega]; rfl
    rw [hcoef, PSS.fft_share hg (d := 2 * pp.l) (by simp) (by omega) hp]
    have := h3 p hp
    rw [getD_map_range, if_pos hp] at this
    rw [this]
    refine pval_congr (fun j hj => ?_) _
    rw [getD_map_range, if_pos hj]
  choose r hr using hex
  refine ⟨r, fun p hp => ?_⟩
  apply list_ext_getD 0 (by rw [PSS.freshVec_length, h.1 p hp])
  intro c hc
  rw [PSS.freshVec_length] at hc
  rw [PSS.freshVec_getD hg _ _ _ hp hc, hr c hc p hp]

theorem PSS.freshVec_add {pp : PSS F} (hg : pp.Good) {N : Nat} {sec D sec' : Nat → List T} (hs : ∀ c < N, (sec c).length = pp.l)
    (hD : ∀ c < N, (D c).length = pp.l) (hs' : ∀ c < N, sec' c = List.zipWith (· + ·) (sec c) (D c)) (rng δ : Nat → Nat → T) {p : Nat}
    (hp : p < 4 * pp.l) : pp.freshVec N sec' (fun c j => rng c j + δ c j) p =
      List.zipWith (· + ·) (pp.freshVec N sec rng p) (pp.freshVec N D δ p) := by
  apply list_ext_getD 0 (by simp [PSS.freshVec_length])
  intro c hc
  rw [PSS.freshVec_length] at hc
  rw [getD_zipWith _ _ _ _ 0 0 _ (by rw [PSS.freshVec_length]; exact hc) (by rw [PSS.freshVec_length]; exact hc),
    PSS.freshVec_getD hg _ _ _ hp hc, PSS.freshVec_getD hg _ _ _ hp hc, PSS.freshVec_getD hg _ _ _ hp hc, hs' c hc,
    PSS.share_add hg (hs c hc) (hD c hc) _ _ hp]

/-- The difference of two vectors of shares, party by party. -/
def diff (x y : Nat → List T) (p : Nat) : List T := List.zipWith (· - ·) (x p) (y p)

theorem Shares.sub {pp : PSS F} {d : Nat} {x y sx sy : List T} (hx : pp.Shares d x sx) (hy : pp.Shares d y sy) :
    pp.Shares d (List.zipWith (· - ·) x y) (List.zipWith (· - ·) sx sy) := by
  have h := Shares.add hx (Shares.smul (-1 : F) hy)
  simpa [List.zipWith_map_right, sub_eq_add_neg] using h

theorem SharedVec.sub {pp : PSS F} {d N : Nat} {x y sx sy : Nat → List T} (hx : pp.SharedVec d N x sx) (hy : pp.SharedVec d N y sy) :
    pp.SharedVec d N (diff x y) (diff sx sy) := by
  refine ⟨fun p hp => by simp [diff, hx.1 p hp, hy.1 p hp], fun c hc => ?_⟩
  have h := Shares.sub (hx.2 c hc) (hy.2 c hc)
  rw [List.zipWith_map_left, List.zipWith_map_right, List.zipWith_self] at h
  refine cast ?_ h
  congr 1
  apply List.map_congr_left
  intro p hp
  have hp := List.mem_range.1 hp
  rw [diff, getD_zipWith _ _ _ _ 0 0 _ (by rw [hx.1 p hp]; exact hc) (by rw [hy.1 p hp]; exact hc)]

theorem Shares.unique {pp : PSS F} (hg : pp.Good) {d : Nat} (hd : d ≤ 4 * pp.l - 1) {x s s' : List T} (h : pp.Shares d x s)
    (h' : pp.Shares d x s') : s = s' :=
  Except.ok.inj ((PSS.unpack2_of_shares hg false hd h).symm.trans (PSS.unpack2_of_shares hg false hd h'))

/-- Masks that differ by the difference of the inputs hide which input was sent. -/
theorem addMask_diff {x y m m' : List F} {N : Nat} (hx : x.length = N) (hy : y.length = N) (hm : m.length = N)
    (h : m' = List.zipWith (· + ·) m (List.zipWith (· - ·) x y)) : addMask y m' = addMask x m := by
  subst h
  apply list_ext_getD 0 (by simp [addMask, hx, hy, hm])
  intro c hc
  have hc : c < N := by simpa [addMask, hx, hy, hm] using hc
  unfold addMask
  rw [getD_zipWith _ _ _ _ 0 0 _ (by omega) (by simp [hx, hy, hm, hc]), getD_zipWith _ _ _ _ 0 0 _ (by omega) (by simp [hx, hy, hc]),
    getD_zipWith _ _ _ _ 0 0 _ (by omega) (by omega), getD_zipWith _ _ _ _ 0 0 _ (by omega) (by omega)]
  abel

theorem diff_self_add {x y m : List T} {N : Nat} (hxy : x = y) (hx : x.length = N) (hm : m.length = N) :
    List.zipWith (· + ·) m (List.zipWith (· - ·) x y) = m := by
  subst hxy
  apply list_ext_getD 0 (by simp [hx, hm])
  intro c hc
  have hc : c < N := by simpa [hx, hm] using hc
  rw [getD_zipWith _ _ _ _ 0 0 _ (by omega) (by simp [hx, hc]), getD_zipWith _ _ _ _ 0 0 _ (by omega) (by omega)]
  abel

/-! ### The masks of the transforms -/

/-- Masks may be changed so that every input mask changes by `Δ`, which is zero for the parties `P`, and nothing changes for `P`. -/
theorem PSS.fftDealt_king {pp : PSS F} (hg : pp.Good) {a b : Nat} (hlb : pp.l = 2 ^ b)
    (hgen : pp.secret.offset ^ (4 * 2 ^ b) ≠ 1) {gen : F} (hprim : IsPrimitiveRoot gen (2 ^ (a + b))) (rearrange : Bool) (g : F)
    (P : Fin (2 ^ b) → Nat) (hinj : Function.Injective P) (hlt : ∀ i, P i < 4 * 2 ^ b) (D : Nat → F) {x y : Nat → List F}
    (hxy : pp.SharedVec (2 * pp.l) (2 ^ a) (diff x y) (packed false a b D)) (hx : ∀ p < 4 * pp.l, (x p).length = 2 ^ a)
    (hP : ∀ i, x (P i) = y (P i)) :
    ∃ δ : VecTape F, δ.vals = D ∧
      (∀ t, ∀ p < 4 * pp.l, (pp.fftDealt a b rearrange g gen (t.add δ) p).inMask =
        List.zipWith (· + ·) (pp.fftDealt a b rearrange g gen t p).inMask (diff x y p)) ∧
      ∀ t i, pp.fftDealt a b rearrange g gen (t.add δ) (P i) = pp.fftDealt a b rearrange g gen t (P i) := by
  obtain ⟨δi, hi⟩ := PSS.tape_of_shares hg hxy
  obtain ⟨δ0, e0, h0⟩ := PSS.fftDealt_shift hg hlb hgen hprim rearrange g P hinj hlt D
  have key : ∀ t : VecTape F, ∀ p < 4 * pp.l, (pp.fftDealt a b rearrange g gen (t.add ⟨D, δi, δ0.rngOut⟩) p).inMask =
      List.zipWith (· + ·) (pp.fftDealt a b rearrange g gen t p).inMask (diff x y p) := by
    intro t p hp
    rw [← hi p hp]
    exact PSS.freshVec_add hg (fun c _ => by rw [packed_length, hlb]) (fun c _ => by rw [packed_length, hlb])
      (fun c _ => by rw [packed_zipWith]; rfl) _ _ hp
  refine ⟨⟨D, δi, δ0.rngOut⟩, rfl, key, fun t i => ?_⟩
  have hp : P i < 4 * pp.l := by rw [hlb]; exact hlt i
  have : ∀ m m' : FftMask F, m.inMask = m'.inMask → m.outMask = m'.outMask → m = m' := by
    rintro ⟨_, _⟩ ⟨_, _⟩ rfl rfl; rfl
  refine this _ _ ?_ ?_
  · rw [key t _ hp]
    exact diff_self_add (hP i) (hx _ hp) (pp.freshVec_length _ _ _ _)
  · have := congrArg FftMask.outMask (h0 t i)
    rw [← this]
    subst e0
    rfl

theorem PSS.degDealt_king {pp : PSS F} (hg : pp.Good) {l : Nat} (hle : pp.l = l) (hgen : pp.secret.offset ^ (4 * l) ≠ 1) (N : Nat)
    (P : Fin l → Nat) (hinj : Function.Injective P) (hlt : ∀ i, P i < 4 * l) (D : Nat → F) {x y : Nat → List F}
    (hxy : pp.SharedVec (2 * pp.l) N (diff x y) (chunks pp.l D)) (hx : ∀ p < 4 * pp.l, (x p).length = N)
    (hP : ∀ i, x (P i) = y (P i)) :
    ∃ δ : VecTape F, δ.vals = D ∧
      (∀ t, ∀ p < 4 * pp.l, (pp.degDealt N (t.add δ) p).inMask = List.zipWith (· + ·) (pp.degDealt N t p).inMask (diff x y p)) ∧
      ∀ t i, pp.degDealt N (t.add δ) (P i) = pp.degDealt N t (P i) := by
  obtain ⟨δi, hi⟩ := PSS.tape_of_shares hg hxy
  obtain ⟨δ0, e0, h0⟩ := PSS.degDealt_shift hg hle hgen N P hinj hlt D
  have key : ∀ t : VecTape F, ∀ p < 4 * pp.l, (pp.degDealt N (t.add ⟨D, δi, δ0.rngOut⟩) p).inMask =
      List.zipWith (· + ·) (pp.degDealt N t p).inMask (diff x y p) := by
    intro t p hp
    rw [← hi p hp]
    exact PSS.freshVec_add hg (fun c _ => chunks_length _ _ _) (fun c _ => chunks_length _ _ _)
      (fun c _ => by rw [chunks_zipWith]; rfl) _ _ hp
  refine ⟨⟨D, δi, δ0.rngOut⟩, rfl, key, fun t i => ?_⟩
  have hp : P i < 4 * pp.l := by rw [hle]; exact hlt i
  have : ∀ m m' : DegRedMask F, m.inMask = m'.inMask → m.outMask = m'.outMask → m = m' := by
    rintro ⟨_, _⟩ ⟨_, _⟩ rfl rfl; rfl
  refine this _ _ ?_ ?_
  · rw [key t _ hp]
    exact diff_self_add (hP i) (hx _ hp) (pp.freshVec_length _ _ _ _)
  · have := congrArg DegRedMask.outMask (h0 t i)
    rw [← this]
    subst e0
    rfl

/-- Every vector with a fixed number of positions is the chunks of a function. -/
theorem eq_chunks {l N : Nat} (hl : 0 < l) {D : Nat → List T} (hD : ∀ c < N, (D c).length = l) {c : Nat} (hc : c < N) :
    D c = chunks l (fun i => (D (i / l)).getD (i % l) 0) c := by
  apply list_ext_getD 0 (by rw [chunks_length, hD c hc])
  intro j hj
  rw [hD c hc] at hj
  rw [chunks, getD_map_range, if_pos hj]
  rw [show (c * l + j) / l = c by rw [Nat.mul_comm, Nat.mul_add_div hl, Nat.div_eq_of_lt hj, Nat.add_zero],
    show (c * l + j) % l = j by rw [Nat.mul_comm, Nat.mul_add_mod, Nat.mod_eq_of_lt hj]]

theorem PSS.msmDealt_king {pp : PSS F} (hg : pp.Good) {l : Nat} (hle : pp.l = l) (hgen : pp.secret.offset ^ (4 * l) ≠ 1) (gen : T)
    (P : Fin l → Nat) (hinj : Function.Injective P) (hlt : ∀ i, P i < 4 * l) {x y : Nat → T} {D : List T}
    (hD : ∀ k < pp.l, ∃ c : F, c • gen = D.getD k 0)
    (hxy : pp.Shares (2 * pp.l) ((List.range (4 * pp.l)).map fun p => x p - y p) D) (hP : ∀ i, x (P i) = y (P i)) :
    ∃ δ : MsmTape F T, (∀ t : MsmTape F T, ((List.range pp.l).map fun i => (t.add δ).vals i • gen).sum =
        ((List.range pp.l).map fun i => t.vals i • gen).sum + D.sum) ∧
      (∀ t, ∀ p < 4 * pp.l, (pp.msmDealt gen (t.add δ) p).inMask = (pp.msmDealt gen t p).inMask + (x p - y p)) ∧
      ∀ t i, pp.msmDealt gen (t.add δ) (P i) = pp.msmDealt gen t (P i) := by
  have hl := hg.lpos
  have hDl : D.length = pp.l := hxy.2.1
  have hex : ∀ k, ∃ c : F, k < pp.l → c • gen = D.getD k 0 := by
    intro k
    by_cases hk : k < pp.l
    · obtain ⟨c, hc⟩ := hD k hk; exact ⟨c, fun _ => hc⟩
    · exact ⟨0, fun h => absurd h hk⟩
  choose d hd using hex
  have hDd : D = (List.range pp.l).map fun i => d i • gen := by
    apply list_ext_getD 0 (by simp [hDl])
    intro k hk
    rw [hDl] at hk
    rw [getD_map_range, if_pos hk, hd k hk]
  have hsv : pp.SharedVec (2 * pp.l) 1 (fun p => [x p - y p]) (fun _ => D) := by
    refine ⟨fun p _ => rfl, fun c hc => ?_⟩
    obtain rfl : c = 0 := by omega
    simpa using hxy
  obtain ⟨δi, hi⟩ := PSS.tape_of_shares hg hsv
  have hsum : ∀ t : MsmTape F T, ((List.range pp.l).map fun i => (t.vals i + d i) • gen).sum =
      ((List.range pp.l).map fun i => t.vals i • gen).sum + D.sum := by
    intro t
    rw [hDd, sum_map_range, sum_map_range, sum_map_range]
    simp only [add_smul, sum_add_distrib]
  obtain ⟨δo, ho⟩ := PSS.freshVec_shift_add hg hle hgen (N := 1) (D := fun _ => List.replicate pp.l (-D.sum))
    (fun c _ => by simp [hle]) P hinj hlt
  have tail : ∀ p < 4 * pp.l, ∀ (v : List T) (rng : Nat → T) (δ : Nat → Nat → T),
      (pp.freshVec 1 (fun _ => v) (fun _ j => rng j + δ 0 j) p).getD 0 0 =
        (pp.freshVec 1 (fun _ => v) (fun c j => rng j + δ c j) p).getD 0 0 := by
    intro p hp v rng δ
    rw [PSS.freshVec_getD hg _ _ _ hp one_pos, PSS.freshVec_getD hg _ _ _ hp one_pos]
  have key : ∀ t : MsmTape F T, ∀ p < 4 * pp.l, (pp.msmDealt gen (t.add ⟨d, δi 0, δo 0⟩) p).inMask =
      (pp.msmDealt gen t p).inMask + (x p - y p) := by
    intro t p hp
    have h := PSS.freshVec_add hg (N := 1) (sec := fun _ => (List.range pp.l).map fun i => t.vals i • gen) (D := fun _ => D)
      (sec' := fun _ => (List.range pp.l).map fun i => (t.vals i + d i) • gen) (fun c _ => by simp) (fun c _ => hDl)
      (fun c _ => by
        rw [hDd, List.zipWith_map_left, List.zipWith_map_right, List.zipWith_self]
        simp only [add_smul]) (fun _ => t.rngIn) δi hp
    rw [hi p hp] at h
    have h' : (pp.freshVec 1 (fun _ => (List.range pp.l).map fun i => (t.vals i + d i) • gen) (fun c j => t.rngIn j + δi c j) p).getD 0 0 =
        (pp.freshVec 1 (fun _ => (List.range pp.l).map fun i => t.vals i • gen) (fun _ => t.rngIn) p).getD 0 0 + (x p - y p) := by
      rw [h, getD_zipWith _ _ _ _ 0 0 _ (by rw [PSS.freshVec_length]; omega) (by simp)]
      rfl
    exact (tail p hp _ _ _).trans h'
  refine ⟨⟨d, δi 0, δo 0⟩, hsum, key, fun t i => ?_⟩
  have hp : P i < 4 * pp.l := by rw [hle]; exact hlt i
  have h2 := ho (fun _ => List.replicate pp.l (-((List.range pp.l).map fun i => t.vals i • gen).sum))
    (fun _ => List.replicate pp.l (-((List.range pp.l).map fun i => (t.vals i + d i) • gen).sum))
    (fun _ => t.rngOut) i (fun c _ => by simp [hle]) fun c _ => by
      rw [hsum, List.zipWith_replicate, Nat.min_self, neg_add]
  have : ∀ m m' : MsmMask T, m.inMask = m'.inMask → m.outMask = m'.outMask → m = m' := by
    rintro ⟨_, _⟩ ⟨_, _⟩ rfl rfl; rfl
  refine this _ _ ?_ ?_
  · rw [key t _ hp, hP i, sub_self, add_zero]
  · exact (tail _ hp (List.replicate pp.l (-((List.range pp.l).map fun i => (t.vals i + d i) • gen).sum)) t.rngOut δo).trans
      (congrArg (fun v => v.getD 0 0) h2)

/-! ### The first part of the transform is linear and invertible -/

/-- What `fft1InPlace` computes from `2^a` values. -/
def fft1Val (a b : Nat) (gen : F) (v : List F) : List F :=
  (List.range (2 ^ a)).map fun k => ∑ u ∈ range (2 ^ a), (gen ^ (2 ^ b * (k + 1))) ^ u • v.getD (bitRev a u) 0

theorem fft1Val_length (a b : Nat) (gen : F) (v : List F) : (fft1Val a b gen v).length = 2 ^ a := by simp [fft1Val]

theorem fft1Val_diff {a b : Nat} {gen : F} {x y : List F} (hx : x.length = 2 ^ a) (hy : y.length = 2 ^ a) :
    fft1Val a b gen (List.zipWith (· - ·) x y) = List.zipWith (· - ·) (fft1Val a b gen x) (fft1Val a b gen y) := by
  unfold fft1Val
  rw [List.zipWith_map_left, List.zipWith_map_right, List.zipWith_self]
  apply List.map_congr_left
  intro k _
  rw [← sum_sub_distrib]
  apply sum_congr rfl
  intro u hu
  have := bitRev_lt a u
  rw [getD_zipWith _ _ _ _ 0 0 _ (by omega) (by omega), smul_sub]

theorem PSS.fft1InPlace_val {pp : PSS F} {a b : Nat} (hlb : pp.l = 2 ^ b) {gen : F} (hprim : IsPrimitiveRoot gen (2 ^ (a + b))) (v : List F)
    (hv : v.length = 2 ^ a) : pp.fft1InPlace v gen = .ok (fft1Val a b gen v) := by
  rw [PSS.fft1InPlace_eq hlb hprim v hv]
  congr 1
  apply List.map_congr_left
  intro k _
  rw [bp_eq]
  apply sum_congr rfl
  intro u _
  simp

theorem fft1Val_shared {pp : PSS F} {d a b : Nat} {gen : F} {sh sec : Nat → List F} (h : pp.SharedVec d (2 ^ a) sh sec) :
    ∃ sec', pp.SharedVec d (2 ^ a) (fun p => fft1Val a b gen (sh p)) sec' :=
  ⟨_, SharedVec.linear h (fun k u => (gen ^ (2 ^ b * (k + 1))) ^ u) (bitRev a) fun u hu => bitRev_lt a u⟩

theorem fft1Val_inv {a b : Nat} {gen : F} (hprim : IsPrimitiveRoot gen (2 ^ (a + b))) (v : List F) {j : Nat} (hj : j < 2 ^ a) :
    ∑ k ∈ range (2 ^ a), ((2 ^ a : Nat) : F)⁻¹ * (((gen ^ 2 ^ b)⁻¹) ^ bitRev a j) ^ (k + 1) • (fft1Val a b gen v).getD k 0 = v.getD j 0 := by
  have hz : IsPrimitiveRoot (gen ^ 2 ^ b) (2 ^ a) := hprim.pow (by positivity) (by rw [pow_add, mul_comm])
  have hne : gen ^ 2 ^ b ≠ 0 := hz.ne_zero (by positivity)
  haveI : NeZero (2 ^ a) := ⟨by positivity⟩
  have hn0 : ((2 ^ a : Nat) : F) ≠ 0 := (hz.neZero').out
  have hr := bitRev_lt a j
  have e1 : ∀ k ∈ range (2 ^ a), ((2 ^ a : Nat) : F)⁻¹ * (((gen ^ 2 ^ b)⁻¹) ^ bitRev a j) ^ (k + 1) • (fft1Val a b gen v).getD k 0 =
      ∑ u ∈ range (2 ^ a), ((2 ^ a : Nat) : F)⁻¹ * ((gen ^ 2 ^ b) ^ u * ((gen ^ 2 ^ b)⁻¹) ^ bitRev a j) *
        (((gen ^ 2 ^ b) ^ u) ^ k * (((gen ^ 2 ^ b)⁻¹) ^ bitRev a j) ^ k) * v.getD (bitRev a u) 0 := by
    intro k hk
    rw [fft1Val, getD_map_range, if_pos (mem_range.1 hk), smul_eq_mul, mul_sum, mul_sum]
    apply sum_congr rfl
    intro u _
    rw [smul_eq_mul, pow_mul, ← pow_mul (gen ^ 2 ^ b) (k + 1) u, mul_comm (k + 1) u, pow_mul (gen ^ 2 ^ b) u (k + 1), pow_succ, pow_succ]
    ring
  rw [sum_congr rfl e1, sum_comm]
  have e2 : ∀ u ∈ range (2 ^ a), ∑ k ∈ range (2 ^ a), ((2 ^ a : Nat) : F)⁻¹ * ((gen ^ 2 ^ b) ^ u * ((gen ^ 2 ^ b)⁻¹) ^ bitRev a j) *
        (((gen ^ 2 ^ b) ^ u) ^ k * (((gen ^ 2 ^ b)⁻¹) ^ bitRev a j) ^ k) * v.getD (bitRev a u) 0 =
      if u = bitRev a j then v.getD j 0 else 0 := by
    intro u hu
    rw [← sum_mul, ← mul_sum, orthogonality hz (mem_range.1 hu) hr]
    split
    · next h =>
      subst h
      rw [← mul_pow, mul_inv_cancel₀ hne, one_pow, mul_one, inv_mul_cancel₀ hn0, one_mul, bitRev_bitRev a j hj]
    · simp
  rw [sum_congr rfl e2, sum_ite_eq' (range (2 ^ a)) (bitRev a j), if_pos (mem_range.2 hr)]

/-- When the transformed vectors of shares have `d` coefficients, so had the vectors. -/
theorem fft1Val_shared_inv {pp : PSS F} {d a b : Nat} {gen : F} (hprim : IsPrimitiveRoot gen (2 ^ (a + b))) {Δ D : Nat → List F}
    (hΔ : ∀ p < 4 * pp.l, (Δ p).length = 2 ^ a) (h : pp.SharedVec d (2 ^ a) (fun p => fft1Val a b gen (Δ p)) D) :
    ∃ D', pp.SharedVec d (2 ^ a) Δ D' := by
  refine ⟨_, SharedVec.congr (SharedVec.linear (N' := 2 ^ a) (U := 2 ^ a) h
    (fun j k => ((2 ^ a : Nat) : F)⁻¹ * (((gen ^ 2 ^ b)⁻¹) ^ bitRev a j) ^ (k + 1)) id fun u hu => hu) (fun p hp => ?_) fun _ _ => rfl⟩
  apply list_ext_getD 0 (by simp [hΔ p hp])
  intro j hj
  rw [List.length_map, List.length_range] at hj
  rw [getD_map_range, if_pos hj]
  refine Eq.trans (sum_congr rfl fun k _ => ?_) (fft1Val_inv hprim (Δ p) hj)
  simp only [smul_eq_mul, id_eq, mul_assoc]

/-! ### Two runs with the same views of all parties -/

section couple
variable {n m : Nat} {α : Type}

/-- Two runs in which every party, the king included, receives the same messages and the parties `P` end with the same results. -/
def KCouple (S : Sid → Prop) (P : Fin m → Nat) (ps ps' : Fin n → Proc α) (R R' : (Nat → α) → Prop) : Prop :=
  ∃ (outs outs' : Nat → α) (vs : Fin n → Transcript), RunsV All S ps (fun i => outs i) vs ∧
    RunsV All S ps' (fun i => outs' i) vs ∧ R outs ∧ R' outs' ∧ ∀ i, outs (P i) = outs' (P i)

end couple

theorem gathered_congr {α : Type} {n : Nat} [Wire α] {x y : Nat → α} (h : ∀ p < n, x p = y p) : gathered n x = gathered n y := by
  unfold gathered
  apply List.map_congr_left
  intro p hp
  rw [h p (List.mem_range.1 hp)]

section net
variable [FixedWire F] {n : Nat}

theorem PSS.fft2_kcouple_wide {pp : PSS F} (hg : pp.Good) (dbg : Bool) (hn : n = 4 * pp.l) {a b : Nat}
    (ha : a < 64) (hlb : pp.l = 2 ^ b) (hgen : pp.secret.offset ^ (4 * 2 ^ b) ≠ 1) {gen : F}
    (hprim : IsPrimitiveRoot gen (2 ^ (a + b))) (φ φ' : Nat → Nat → F → F)
    (hφ : ∀ s ≥ a, ∀ j x, φ (s + 1) j x = φ s (2 * j) (x ^ 2) + x * φ s (2 * j + 1) (x ^ 2))
    (hφ' : ∀ s ≥ a, ∀ j x, φ' (s + 1) j x = φ' s (2 * j) (x ^ 2) + x * φ' s (2 * j + 1) (x ^ 2))
    (g : F) (rearrange : Bool) (P : Fin (2 ^ b) → Nat) (hinj : Function.Injective P) (hlt : ∀ i, P i < 4 * 2 ^ b)
    (px px' : Nat → List F)
    (hpx : pp.SharedVec (4 * pp.l - 1) (2 ^ a) px (fun c => (List.range (2 ^ b)).map fun j => φ a j (gen ^ (2 ^ b * (c + 1)))))
    (hpx' : pp.SharedVec (4 * pp.l - 1) (2 ^ a) px' (fun c => (List.range (2 ^ b)).map fun j => φ' a j (gen ^ (2 ^ b * (c + 1)))))
    (hP : ∀ i, px (P i) = px' (P i)) {D : Nat → List F} (hD : pp.SharedVec (2 * pp.l) (2 ^ a) (diff px px') D) :
    ∃ δ : VecTape F, (∀ t i, pp.fftDealt a b rearrange g gen (t.add δ) (P i) = pp.fftDealt a b rearrange g gen t (P i)) ∧
      ∀ (t : VecTape F) (sid : Sid) (rng : Nat → Nat → F),
        KCouple (only sid) P
          (fun i : Fin n => pp.fft2WithRearrange dbg n i (px i) (pp.fftDealt a b rearrange g gen t i) rearrange g gen sid rng)
          (fun i : Fin n => pp.fft2WithRearrange dbg n i (px' i) (pp.fftDealt a b rearrange g gen (t.add δ) i) rearrange g gen sid rng)
          (fun o => pp.SharedVec (2 * pp.l) (2 ^ a) o (packed rearrange a b fun k => g ^ k * φ (a + b) 0 (gen ^ k)))
          (fun o => pp.SharedVec (2 * pp.l) (2 ^ a) o (packed rearrange a b fun k => g ^ k * φ' (a + b) 0 (gen ^ k))) := by
  have hl := hg.lpos
  have hb0 : 0 < 2 ^ b := by positivity
  have hd : 2 * pp.l ≤ 4 * pp.l - 1 := by omega
  obtain ⟨δ, hδ, hin, hm⟩ := PSS.fftDealt_king hg hlb hgen hprim rearrange g P hinj hlt (fun i =>
    φ a (i % 2 ^ b) (gen ^ (2 ^ b * (i / 2 ^ b + 1))) - φ' a (i % 2 ^ b) (gen ^ (2 ^ b * (i / 2 ^ b + 1)))) (x := px) (y := px') (by
      refine SharedVec.congr hD (fun _ _ => rfl) fun c hc => ?_
      rw [Shares.unique hg le_rfl ((SharedVec.mono hd hD).2 c hc) ((SharedVec.sub hpx hpx').2 c hc)]
      unfold diff packed
      rw [List.zipWith_map_left, List.zipWith_map_right, List.zipWith_self]
      apply List.map_congr_left
      intro j hj
      have hj := List.mem_range.1 hj
      rw [slot, if_neg (by simp)]
      dsimp only
      rw [show (c * 2 ^ b + j) / 2 ^ b = c by rw [Nat.mul_comm, Nat.mul_add_div hb0, Nat.div_eq_of_lt hj, Nat.add_zero],
        show (c * 2 ^ b + j) % 2 ^ b = j by rw [Nat.mul_comm, Nat.mul_add_mod, Nat.mod_eq_of_lt hj]]) hpx.1 hP
  refine ⟨δ, hm, fun t sid rng => ?_⟩
  obtain ⟨r, h⟩ := PSS.fft2_view hg dbg hn ha hlb hprim φ hφ hd le_rfl hpx g rearrange t sid rng
  obtain ⟨r', h'⟩ := PSS.fft2_view hg dbg hn ha hlb hprim φ' hφ' hd le_rfl hpx' g rearrange (t.add δ) sid rng
  have e : kingVec a b gen φ' (t.add δ).vals = kingVec a b gen φ t.vals := by
    unfold kingVec
    apply List.map_congr_left
    intro i _
    show _ + (t.vals i + δ.vals i) = _
    rw [hδ]
    ring
  rw [e] at r' h'
  rw [gathered_congr (x := fun p => addMask (px' p) _) (y := fun p => addMask (px p) (pp.fftDealt a b rearrange g gen t p).inMask)
    fun p hp => addMask_diff (hpx.1 p (by omega)) (hpx'.1 p (by omega)) (pp.freshVec_length _ _ _ _) (hin t p (by omega))] at r'
  exact ⟨_, _, _, r, r', h, h', fun i => by rw [hm]⟩

theorem PSS.dFft_kcouple_wide {pp : PSS F} (hg : pp.Good) (dbg : Bool) (hn : n = 4 * pp.l) {a b : Nat}
    (ha : a < 64) (hlb : pp.l = 2 ^ b) (hgen : pp.secret.offset ^ (4 * 2 ^ b) ≠ 1) {dom : Domain F} (hsize : dom.size = 2 ^ (a + b))
    (hprim : IsPrimitiveRoot dom.groupGen (2 ^ (a + b))) (x x' : Nat → F) (rearrange : Bool)
    (P : Fin (2 ^ b) → Nat) (hinj : Function.Injective P) (hlt : ∀ i, P i < 4 * 2 ^ b) (sh sh' : Nat → List F)
    (hsh : pp.SharedVec (4 * pp.l - 1) (2 ^ a) sh (packed true a b x)) (hsh' : pp.SharedVec (4 * pp.l - 1) (2 ^ a) sh' (packed true a b x'))
    (hP : ∀ i, sh (P i) = sh' (P i)) {D : Nat → List F} (hD : pp.SharedVec (2 * pp.l) (2 ^ a) (diff sh sh') D) :
    ∃ δ : VecTape F, (∀ t i, pp.fftDealt a b rearrange 1 dom.groupGen (t.add δ) (P i) = pp.fftDealt a b rearrange 1 dom.groupGen t (P i)) ∧
      ∀ (t : VecTape F) (sid : Sid) (rng : Nat → Nat → F),
        KCouple (only sid) P
          (fun i : Fin n => pp.dFft dbg n i (sh i) (pp.fftDealt a b rearrange 1 dom.groupGen t i) rearrange dom sid rng)
          (fun i : Fin n => pp.dFft dbg n i (sh' i) (pp.fftDealt a b rearrange 1 dom.groupGen (t.add δ) i) rearrange dom sid rng)
          (fun o => pp.SharedVec (2 * pp.l) (2 ^ a) o
            (packed rearrange a b fun k => ∑ u ∈ range (2 ^ (a + b)), (dom.groupGen ^ k) ^ u * x u))
          (fun o => pp.SharedVec (2 * pp.l) (2 ^ a) o
            (packed rearrange a b fun k => ∑ u ∈ range (2 ^ (a + b)), (dom.groupGen ^ k) ^ u * x' u)) := by
  obtain ⟨px, e1, hpx⟩ := PSS.fft1_shared hlb hprim x hsh
  obtain ⟨px', e1', hpx'⟩ := PSS.fft1_shared hlb hprim x' hsh'
  have hpP : ∀ i, px (P i) = px' (P i) := fun i => by
    have hp : P i < 4 * pp.l := by rw [hlb]; exact hlt i
    have h1 := e1 _ hp
    rw [hP i, e1' _ hp] at h1
    exact (Except.ok.inj h1).symm
  obtain ⟨D', hlin⟩ := fft1Val_shared (b := b) (gen := dom.groupGen) hD
  have hpD : pp.SharedVec (2 * pp.l) (2 ^ a) (diff px px') D' := by
    refine SharedVec.congr hlin (fun p hp => ?_) fun _ _ => rfl
    have h1 := (e1 p hp).symm.trans (PSS.fft1InPlace_val hlb hprim (sh p) (hsh.1 p hp))
    have h2 := (e1' p hp).symm.trans (PSS.fft1InPlace_val hlb hprim (sh' p) (hsh'.1 p hp))
    rw [diff, diff, Except.ok.inj h1, Except.ok.inj h2, fft1Val_diff (hsh.1 p hp) (hsh'.1 p hp)]
  obtain ⟨δ, hm, h⟩ := PSS.fft2_kcouple_wide (n := n) hg dbg hn ha hlb hgen hprim (bp (fun i => x (bitRev (a + b) i)))
    (bp (fun i => x' (bitRev (a + b) i))) (fun _ _ _ _ => rfl) (fun _ _ _ _ => rfl) 1 rearrange P hinj hlt px px' hpx hpx' hpP hpD
  refine ⟨δ, hm, fun t sid rng => ?_⟩
  obtain ⟨o, o', vs, r, r', ho, ho', he⟩ := h t sid rng
  refine ⟨o, o', vs, r.congr (fun i => ?_) (fun _ => rfl) (fun _ => rfl), r'.congr (fun i => ?_) (fun _ => rfl) (fun _ => rfl), ?_, ?_, he⟩
  · have hi : i.val < 4 * pp.l := by omega
    unfold PSS.dFft
    rw [debugAssert_of (by rw [hsh.1 i hi, hlb, hsize, pow_add]; simp), e1 i hi]
    rfl
  · have hi : i.val < 4 * pp.l := by omega
    unfold PSS.dFft
    rw [debugAssert_of (by rw [hsh'.1 i hi, hlb, hsize, pow_add]; simp), e1' i hi]
    rfl
  · refine SharedVec.congr ho (fun _ _ => rfl) fun c hc => ?_
    congr 1
    funext k
    rw [bp_top, one_pow, one_mul]
  · refine SharedVec.congr ho' (fun _ _ => rfl) fun c hc => ?_
    congr 1
    funext k
    rw [bp_top, one_pow, one_mul]

theorem PSS.dIfft_kcouple_wide {pp : PSS F} (hg : pp.Good) (dbg : Bool) (hn : n = 4 * pp.l) {a b : Nat}
    (ha : a < 64) (hlb : pp.l = 2 ^ b) (hgen : pp.secret.offset ^ (4 * 2 ^ b) ≠ 1) {dom : Domain F} (hsize : dom.size = 2 ^ (a + b))
    (hprim : IsPrimitiveRoot dom.groupGenInv (2 ^ (a + b))) (x x' : Nat → F) (g : F) (rearrange : Bool)
    (P : Fin (2 ^ b) → Nat) (hinj : Function.Injective P) (hlt : ∀ i, P i < 4 * 2 ^ b) (sh sh' : Nat → List F)
    (hsh : pp.SharedVec (4 * pp.l - 1) (2 ^ a) sh (packed true a b x)) (hsh' : pp.SharedVec (4 * pp.l - 1) (2 ^ a) sh' (packed true a b x'))
    (hP : ∀ i, sh (P i) = sh' (P i)) {D : Nat → List F} (hD : pp.SharedVec (2 * pp.l) (2 ^ a) (diff sh sh') D) :
    ∃ δ : VecTape F, (∀ t i, pp.fftDealt a b rearrange g dom.groupGenInv (t.add δ) (P i) =
        pp.fftDealt a b rearrange g dom.groupGenInv t (P i)) ∧
      ∀ (t : VecTape F) (sid : Sid) (rng : Nat → Nat → F),
        KCouple (only sid) P
          (fun i : Fin n => pp.dIfft dbg n i (sh i) (pp.fftDealt a b rearrange g dom.groupGenInv t i) rearrange dom g sid rng)
          (fun i : Fin n => pp.dIfft dbg n i (sh' i) (pp.fftDealt a b rearrange g dom.groupGenInv (t.add δ) i) rearrange dom g sid rng)
          (fun o => pp.SharedVec (2 * pp.l) (2 ^ a) o
            (packed rearrange a b fun k => g ^ k * ∑ u ∈ range (2 ^ (a + b)), (dom.groupGenInv ^ k) ^ u * (x u * dom.sizeInv)))
          (fun o => pp.SharedVec (2 * pp.l) (2 ^ a) o
            (packed rearrange a b fun k => g ^ k * ∑ u ∈ range (2 ^ (a + b)), (dom.groupGenInv ^ k) ^ u * (x' u * dom.sizeInv))) := by
  have scaled : ∀ (x : Nat → F) (sh : Nat → List F), pp.SharedVec (4 * pp.l - 1) (2 ^ a) sh (packed true a b x) →
      pp.SharedVec (4 * pp.l - 1) (2 ^ a) (fun p => (sh p).map fun z => z * dom.sizeInv) (packed true a b fun i => x i * dom.sizeInv) :=
    fun x sh hsh => SharedVec.congr (SharedVec.scale hsh dom.sizeInv) (fun _ _ => rfl) fun c hc => packed_smul _ _ _ _ _ _
  obtain ⟨px, e1, hpx⟩ := PSS.fft1_shared hlb hprim _ (scaled x sh hsh)
  obtain ⟨px', e1', hpx'⟩ := PSS.fft1_shared hlb hprim _ (scaled x' sh' hsh')
  have hpP : ∀ i, px (P i) = px' (P i) := fun i => by
    have hp : P i < 4 * pp.l := by rw [hlb]; exact hlt i
    have h1 := e1 _ hp
    have h2 := e1' _ hp
    rw [hP i, h2] at h1
    exact (Except.ok.inj h1).symm
  obtain ⟨D', hlin⟩ := fft1Val_shared (b := b) (gen := dom.groupGenInv) (SharedVec.scale hD dom.sizeInv)
  have hpD : pp.SharedVec (2 * pp.l) (2 ^ a) (diff px px') D' := by
    refine SharedVec.congr hlin (fun p hp => ?_) fun _ _ => rfl
    have h1 := (e1 p hp).symm.trans (PSS.fft1InPlace_val hlb hprim _ ((scaled x sh hsh).1 p hp))
    have h2 := (e1' p hp).symm.trans (PSS.fft1InPlace_val hlb hprim _ ((scaled x' sh' hsh').1 p hp))
    rw [diff, diff, Except.ok.inj h1, Except.ok.inj h2, ← fft1Val_diff ((scaled x sh hsh).1 p hp) ((scaled x' sh' hsh').1 p hp)]
    congr 1
    rw [List.map_zipWith, List.zipWith_map_left, List.zipWith_map_right]
    simp only [sub_mul]
  obtain ⟨δ, hm, h⟩ := PSS.fft2_kcouple_wide (n := n) hg dbg hn ha hlb hgen hprim
    (bp (fun i => (fun i => x i * dom.sizeInv) (bitRev (a + b) i)))
    (bp (fun i => (fun i => x' i * dom.sizeInv) (bitRev (a + b) i))) (fun _ _ _ _ => rfl) (fun _ _ _ _ => rfl) g rearrange P hinj hlt
    px px' hpx hpx' hpP hpD
  refine ⟨δ, hm, fun t sid rng => ?_⟩
  obtain ⟨o, o', vs, r, r', ho, ho', he⟩ := h t sid rng
  refine ⟨o, o', vs, r.congr (fun i => ?_) (fun _ => rfl) (fun _ => rfl), r'.congr (fun i => ?_) (fun _ => rfl) (fun _ => rfl), ?_, ?_, he⟩
  · have hi : i.val < 4 * pp.l := by omega
    unfold PSS.dIfft
    have e := e1 i hi
    rw [debugAssert_of (by rw [hsh.1 i hi, hlb, hsize, pow_add]; simp)]
    dsimp only
    rw [e]
    rfl
  · have hi : i.val < 4 * pp.l := by omega
    unfold PSS.dIfft
    have e := e1' i hi
    rw [debugAssert_of (by rw [hsh'.1 i hi, hlb, hsize, pow_add]; simp)]
    dsimp only
    rw [e]
    rfl
  · refine SharedVec.congr ho (fun _ _ => rfl) fun c hc => ?_
    congr 1
    funext k
    rw [bp_top fun i => x i * dom.sizeInv]
  · refine SharedVec.congr ho' (fun _ _ => rfl) fun c hc => ?_
    congr 1
    funext k
    rw [bp_top fun i => x' i * dom.sizeInv]

theorem PSS.dFft_kcouple {pp : PSS F} (hg : pp.Good) (dbg : Bool) (hn : n = 4 * pp.l) {a b : Nat}
    (ha : a < 64) (hlb : pp.l = 2 ^ b) (hgen : pp.secret.offset ^ (4 * 2 ^ b) ≠ 1) {dom : Domain F} (hsize : dom.size = 2 ^ (a + b))
    (hprim : IsPrimitiveRoot dom.groupGen (2 ^ (a + b))) (x x' : Nat → F) (rearrange : Bool)
    (P : Fin (2 ^ b) → Nat) (hinj : Function.Injective P) (hlt : ∀ i, P i < 4 * 2 ^ b) (sh sh' : Nat → List F)
    (hsh : pp.SharedVec (2 * pp.l) (2 ^ a) sh (packed true a b x)) (hsh' : pp.SharedVec (2 * pp.l) (2 ^ a) sh' (packed true a b x'))
    (hP : ∀ i, sh (P i) = sh' (P i)) :
    ∃ δ : VecTape F, (∀ t i, pp.fftDealt a b rearrange 1 dom.groupGen (t.add δ) (P i) = pp.fftDealt a b rearrange 1 dom.groupGen t (P i)) ∧
      ∀ (t : VecTape F) (sid : Sid) (rng : Nat → Nat → F),
        KCouple (only sid) P
          (fun i : Fin n => pp.dFft dbg n i (sh i) (pp.fftDealt a b rearrange 1 dom.groupGen t i) rearrange dom sid rng)
          (fun i : Fin n => pp.dFft dbg n i (sh' i) (pp.fftDealt a b rearrange 1 dom.groupGen (t.add δ) i) rearrange dom sid rng)
          (fun o => pp.SharedVec (2 * pp.l) (2 ^ a) o
            (packed rearrange a b fun k => ∑ u ∈ range (2 ^ (a + b)), (dom.groupGen ^ k) ^ u * x u))
          (fun o => pp.SharedVec (2 * pp.l) (2 ^ a) o
            (packed rearrange a b fun k => ∑ u ∈ range (2 ^ (a + b)), (dom.groupGen ^ k) ^ u * x' u)) :=
  PSS.dFft_kcouple_wide hg dbg hn ha hlb hgen hsize hprim x x' rearrange P hinj hlt sh sh'
    (SharedVec.mono (by have := hg.lpos; omega) hsh) (SharedVec.mono (by have := hg.lpos; omega) hsh') hP (SharedVec.sub hsh hsh')

theorem PSS.dIfft_kcouple {pp : PSS F} (hg : pp.Good) (dbg : Bool) (hn : n = 4 * pp.l) {a b : Nat}
    (ha : a < 64) (hlb : pp.l = 2 ^ b) (hgen : pp.secret.offset ^ (4 * 2 ^ b) ≠ 1) {dom : Domain F} (hsize : dom.size = 2 ^ (a + b))
    (hprim : IsPrimitiveRoot dom.groupGenInv (2 ^ (a + b))) (x x' : Nat → F) (g : F) (rearrange : Bool)
    (P : Fin (2 ^ b) → Nat) (hinj : Function.Injective P) (hlt : ∀ i, P i < 4 * 2 ^ b) (sh sh' : Nat → List F)
    (hsh : pp.SharedVec (2 * pp.l) (2 ^ a) sh (packed true a b x)) (hsh' : pp.SharedVec (2 * pp.l) (2 ^ a) sh' (packed true a b x'))
    (hP : ∀ i, sh (P i) = sh' (P i)) :
    ∃ δ : VecTape F, (∀ t i, pp.fftDealt a b rearrange g dom.groupGenInv (t.add δ) (P i) =
        pp.fftDealt a b rearrange g dom.groupGenInv t (P i)) ∧
      ∀ (t : VecTape F) (sid : Sid) (rng : Nat → Nat → F),
        KCouple (only sid) P
          (fun i : Fin n => pp.dIfft dbg n i (sh i) (pp.fftDealt a b rearrange g dom.groupGenInv t i) rearrange dom g sid rng)
          (fun i : Fin n => pp.dIfft dbg n i (sh' i) (pp.fftDealt a b rearrange g dom.groupGenInv (t.add δ) i) rearrange dom g sid rng)
          (fun o => pp.SharedVec (2 * pp.l) (2 ^ a) o
            (packed rearrange a b fun k => g ^ k * ∑ u ∈ range (2 ^ (a + b)), (dom.groupGenInv ^ k) ^ u * (x u * dom.sizeInv)))
          (fun o => pp.SharedVec (2 * pp.l) (2 ^ a) o
            (packed rearrange a b fun k => g ^ k * ∑ u ∈ range (2 ^ (a + b)), (dom.groupGenInv ^ k) ^ u * (x' u * dom.sizeInv))) :=
  PSS.dIfft_kcouple_wide hg dbg hn ha hlb hgen hsize hprim x x' g rearrange P hinj hlt sh sh'
    (SharedVec.mono (by have := hg.lpos; omega) hsh) (SharedVec.mono (by have := hg.lpos; omega) hsh') hP (SharedVec.sub hsh hsh')

/-- What everybody receives during `d_fft`. -/
theorem PSS.dFft_view {pp : PSS F} (hg : pp.Good) (dbg : Bool) (hn : n = 4 * pp.l) {a b : Nat}
    (ha : a < 64) (hlb : pp.l = 2 ^ b) {dom : Domain F} (hsize : dom.size = 2 ^ (a + b))
    (hprim : IsPrimitiveRoot dom.groupGen (2 ^ (a + b))) (x : Nat → F) (rearrange : Bool)
    {sh : Nat → List F} (hsh : pp.SharedVec (4 * pp.l - 1) (2 ^ a) sh (packed true a b x)) (t : VecTape F) (sid : Sid) (rng : Nat → Nat → F) :
    ∃ (outs ans : Nat → List F), RunsV All (only sid)
        (fun i : Fin n => pp.dFft dbg n i (sh i) (pp.fftDealt a b rearrange 1 dom.groupGen t i) rearrange dom sid rng) (fun i => outs i)
        (fun i => if i.val = 0 then gathered n fun p => addMask (fft1Val a b dom.groupGen (sh p))
          (pp.fftDealt a b rearrange 1 dom.groupGen t p).inMask else [(0, Wire.enc (ans i))]) ∧
      pp.SharedVec (2 * pp.l) (2 ^ a) outs (packed rearrange a b fun k => ∑ u ∈ range (2 ^ (a + b)), (dom.groupGen ^ k) ^ u * x u) := by
  have hl := hg.lpos
  obtain ⟨px, e1, hpx⟩ := PSS.fft1_shared hlb hprim x hsh
  have hp1 : ∀ p < 4 * pp.l, px p = fft1Val a b dom.groupGen (sh p) := fun p hp =>
    Except.ok.inj ((e1 p hp).symm.trans (PSS.fft1InPlace_val hlb hprim (sh p) (hsh.1 p hp)))
  obtain ⟨r, h⟩ := PSS.fft2_view hg dbg hn ha hlb hprim (bp (fun i => x (bitRev (a + b) i))) (fun _ _ _ _ => rfl) (by omega) le_rfl hpx 1
    rearrange t sid rng
  refine ⟨fun p => addMask (pp.freshVec (2 ^ a) (pp.finishSec a b (kingVec a b dom.groupGen (bp fun i => x (bitRev (a + b) i)) t.vals) 1
    dom.groupGen rearrange id) rng p) (pp.fftDealt a b rearrange 1 dom.groupGen t p).outMask,
    pp.freshVec (2 ^ a) (pp.finishSec a b (kingVec a b dom.groupGen (bp fun i => x (bitRev (a + b) i)) t.vals) 1
    dom.groupGen rearrange id) rng, r.congr (fun i => ?_) (fun _ => rfl) (fun i => ?_), ?_⟩
  · have hi : i.val < 4 * pp.l := by omega
    unfold PSS.dFft
    rw [debugAssert_of (by rw [hsh.1 i hi, hlb, hsize, pow_add]; simp), e1 i hi]
    rfl
  · split
    · exact gathered_congr fun p hp => by rw [hp1 p (by omega)]
    · rfl
  · refine SharedVec.congr h (fun _ _ => rfl) fun c hc => ?_
    congr 1
    funext k
    rw [bp_top, one_pow, one_mul]

/-- What everybody receives during `d_ifft`. -/
theorem PSS.dIfft_view {pp : PSS F} (hg : pp.Good) (dbg : Bool) (hn : n = 4 * pp.l) {a b : Nat}
    (ha : a < 64) (hlb : pp.l = 2 ^ b) {dom : Domain F} (hsize : dom.size = 2 ^ (a + b))
    (hprim : IsPrimitiveRoot dom.groupGenInv (2 ^ (a + b))) (x : Nat → F) (g : F) (rearrange : Bool)
    {sh : Nat → List F} (hsh : pp.SharedVec (4 * pp.l - 1) (2 ^ a) sh (packed true a b x)) (t : VecTape F) (sid : Sid) (rng : Nat → Nat → F) :
    ∃ (outs ans : Nat → List F), RunsV All (only sid)
        (fun i : Fin n => pp.dIfft dbg n i (sh i) (pp.fftDealt a b rearrange g dom.groupGenInv t i) rearrange dom g sid rng) (fun i => outs i)
        (fun i => if i.val = 0 then gathered n fun p => addMask (fft1Val a b dom.groupGenInv ((sh p).map fun z => z * dom.sizeInv))
          (pp.fftDealt a b rearrange g dom.groupGenInv t p).inMask else [(0, Wire.enc (ans i))]) ∧
      pp.SharedVec (2 * pp.l) (2 ^ a) outs
        (packed rearrange a b fun k => g ^ k * ∑ u ∈ range (2 ^ (a + b)), (dom.groupGenInv ^ k) ^ u * (x u * dom.sizeInv)) := by
  have hl := hg.lpos
  have hs : pp.SharedVec (4 * pp.l - 1) (2 ^ a) (fun p => (sh p).map fun z => z * dom.sizeInv) (packed true a b fun i => x i * dom.sizeInv) :=
    SharedVec.congr (SharedVec.scale hsh dom.sizeInv) (fun _ _ => rfl) fun c hc => packed_smul _ _ _ _ _ _
  obtain ⟨px, e1, hpx⟩ := PSS.fft1_shared hlb hprim _ hs
  have hp1 : ∀ p < 4 * pp.l, px p = fft1Val a b dom.groupGenInv ((sh p).map fun z => z * dom.sizeInv) := fun p hp =>
    Except.ok.inj ((e1 p hp).symm.trans (PSS.fft1InPlace_val hlb hprim _ (hs.1 p hp)))
  obtain ⟨r, h⟩ := PSS.fft2_view hg dbg hn ha hlb hprim (bp (fun i => (fun i => x i * dom.sizeInv) (bitRev (a + b) i))) (fun _ _ _ _ => rfl)
    (by omega) le_rfl hpx g rearrange t sid rng
  refine ⟨fun p => addMask (pp.freshVec (2 ^ a) (pp.finishSec a b (kingVec a b dom.groupGenInv (bp fun i => (fun i => x i * dom.sizeInv)
    (bitRev (a + b) i)) t.vals) g dom.groupGenInv rearrange id) rng p) (pp.fftDealt a b rearrange g dom.groupGenInv t p).outMask,
    pp.freshVec (2 ^ a) (pp.finishSec a b (kingVec a b dom.groupGenInv (bp fun i => (fun i => x i * dom.sizeInv)
    (bitRev (a + b) i)) t.vals) g dom.groupGenInv rearrange id) rng, r.congr (fun i => ?_) (fun _ => rfl) (fun i => ?_), ?_⟩
  · have hi : i.val < 4 * pp.l := by omega
    unfold PSS.dIfft
    have e := e1 i hi
    rw [debugAssert_of (by rw [hsh.1 i hi, hlb, hsize, pow_add]; simp)]
    dsimp only
    rw [e]
    rfl
  · split
    · exact gathered_congr fun p hp => by rw [hp1 p (by omega)]
    · rfl
  · refine SharedVec.congr h (fun _ _ => rfl) fun c hc => ?_
    congr 1
    funext k
    rw [bp_top fun i => x i * dom.sizeInv]

/-- Two lists of masked vectors that the king cannot tell apart differ by the masks. -/
theorem gathered_diff {n N : Nat} (hN64 : N < 2 ^ 64) {x y m m' : Nat → List F} (hx : ∀ p < n, (x p).length = N)
    (hy : ∀ p < n, (y p).length = N) (hm : ∀ p < n, (m p).length = N) (hm' : ∀ p < n, (m' p).length = N)
    (h : gathered n (fun p => addMask (x p) (m p)) = gathered n fun p => addMask (y p) (m' p)) :
    ∀ p < n, diff x y p = diff m' m p := by
  intro p hp
  have h1 := congrArg Prod.snd ((List.map_inj_left.1 h) p (List.mem_range.2 hp))
  have hadd : ∀ (v m : List F), v.length = N → m.length = N → (addMask v m).length < 2 ^ 64 := by
    intro v m hv hm
    have : (addMask v m).length = N := by simp [addMask, hv, hm]
    rw [this]
    exact hN64
  have h2 := Wire.Ok.enc_inj (Wire.ok_list _ (hadd _ _ (hx p hp) (hm p hp))) (Wire.ok_list _ (hadd _ _ (hy p hp) (hm' p hp))) h1
  have hx := hx p hp
  have hy := hy p hp
  have hm := hm p hp
  have hm' := hm' p hp
  unfold diff
  apply list_ext_getD 0 (by simp [hx, hy, hm, hm'])
  intro c hc
  have hc : c < N := by simpa [hx, hy] using hc
  have h3 := congrArg (fun v => v.getD c 0) h2
  dsimp only [addMask] at h3
  rw [getD_zipWith _ _ _ _ 0 0 _ (by omega) (by omega), getD_zipWith _ _ _ _ 0 0 _ (by omega) (by omega)] at h3
  rw [getD_zipWith _ _ _ _ 0 0 _ (by omega) (by omega), getD_zipWith _ _ _ _ 0 0 _ (by omega) (by omega)]
  rw [sub_eq_sub_iff_add_eq_add, h3]
  ring

/-- If two masked vectors look alike after the first part of a transform, the vectors differ by shares with `2l` coefficients. -/
theorem PSS.fft1_leaks {pp : PSS F} (hg : pp.Good) (hn : n = 4 * pp.l) {a b : Nat} (ha : a < 64) (hlb : pp.l = 2 ^ b) {gen : F}
    (hprim : IsPrimitiveRoot gen (2 ^ (a + b))) (rearrange : Bool) (g : F) {x y : Nat → List F} (hx : ∀ p < 4 * pp.l, (x p).length = 2 ^ a)
    (hy : ∀ p < 4 * pp.l, (y p).length = 2 ^ a) (t t' : VecTape F)
    (h : gathered n (fun p => addMask (fft1Val a b gen (x p)) (pp.fftDealt a b rearrange g gen t p).inMask) =
      gathered n fun p => addMask (fft1Val a b gen (y p)) (pp.fftDealt a b rearrange g gen t' p).inMask) :
    ∃ D, pp.SharedVec (2 * pp.l) (2 ^ a) (diff x y) D := by
  subst hn
  have hin : ∀ t, pp.SharedVec (2 * pp.l) (2 ^ a) (fun p => (pp.fftDealt a b rearrange g gen t p).inMask) (packed false a b t.vals) :=
    fun t => PSS.freshVec_shared hg (fun c _ => by rw [packed_length, hlb]) t.rngIn
  have e := gathered_diff (Nat.pow_lt_pow_right (by omega) ha) (fun p _ => fft1Val_length a b gen _) (fun p _ => fft1Val_length a b gen _)
    (hin t).1 (hin t').1 h
  refine fft1Val_shared_inv hprim (fun p hp => by simp [diff, hx p hp, hy p hp])
    (SharedVec.congr (SharedVec.sub (hin t') (hin t)) (fun p hp => ?_) fun _ _ => rfl)
  rw [← e p hp]
  exact (fft1Val_diff (hx p hp) (hy p hp)).symm

theorem PSS.degRed_kcouple {pp : PSS F} (hg : pp.Good) (dbg : Bool) {l : Nat} (hle : pp.l = l) (hn : n = 4 * pp.l)
    (hgen : pp.secret.offset ^ (4 * l) ≠ 1) {N : Nat} (hN : 0 < N) (hN64 : N < 2 ^ 64)
    (P : Fin l → Nat) (hinj : Function.Injective P) (hlt : ∀ i, P i < 4 * l) {sh sh' sec sec' D : Nat → List F}
    (hsh : pp.SharedVec (4 * pp.l - 1) N sh sec) (hsh' : pp.SharedVec (4 * pp.l - 1) N sh' sec') (hP : ∀ i, sh (P i) = sh' (P i))
    (hD : pp.SharedVec (2 * pp.l) N (diff sh sh') D) :
    ∃ δ : VecTape F, (∀ t i, pp.degDealt N (t.add δ) (P i) = pp.degDealt N t (P i)) ∧
      ∀ (t : VecTape F) (sid : Sid) (rng : Nat → Nat → F),
        KCouple (only sid) P (fun i : Fin n => pp.degRed dbg n i (sh i) (pp.degDealt N t i) sid rng)
          (fun i : Fin n => pp.degRed dbg n i (sh' i) (pp.degDealt N (t.add δ) i) sid rng)
          (fun o => pp.SharedVec (2 * pp.l) N o sec) (fun o => pp.SharedVec (2 * pp.l) N o sec') := by
  have hl := hg.lpos
  have hd : 2 * pp.l ≤ 4 * pp.l - 1 := by omega
  have hs : ∀ c < N, (sec c).length = pp.l := fun c hc => (hsh.2 c hc).2.1
  have hs' : ∀ c < N, (sec' c).length = pp.l := fun c hc => (hsh'.2 c hc).2.1
  have hDs : ∀ c < N, D c = List.zipWith (· - ·) (sec c) (sec' c) := fun c hc =>
    Shares.unique hg le_rfl ((SharedVec.mono hd hD).2 c hc) ((SharedVec.sub hsh hsh').2 c hc)
  obtain ⟨δ, hδ, hin, hm⟩ := PSS.degDealt_king hg hle hgen N P hinj hlt
    (fun i => (D (i / pp.l)).getD (i % pp.l) 0) (x := sh) (y := sh')
    (SharedVec.congr hD (fun _ _ => rfl) fun c hc => eq_chunks hl (fun c hc => (hD.2 c hc).2.1) hc) hsh.1 hP
  refine ⟨δ, hm, fun t sid rng => ?_⟩
  obtain ⟨r, h⟩ := PSS.degRed_view hg dbg hn hN hN64 hd le_rfl hsh t sid rng
  obtain ⟨r', h'⟩ := PSS.degRed_view hg dbg hn hN hN64 hd le_rfl hsh' (t.add δ) sid rng
  have e : ∀ p, pp.freshVec N (fun c => List.zipWith (· + ·) (sec' c) (chunks pp.l (t.add δ).vals c)) rng p =
      pp.freshVec N (fun c => List.zipWith (· + ·) (sec c) (chunks pp.l t.vals c)) rng p := by
    refine fun p => PSS.freshVec_congr (fun c hc => ?_) _ _
    have e1 : chunks pp.l (t.add δ).vals c = List.zipWith (· + ·) (chunks pp.l t.vals c) (List.zipWith (· - ·) (sec c) (sec' c)) := by
      rw [← hDs c hc, eq_chunks hl (fun c hc => (hD.2 c hc).2.1) hc, chunks_zipWith]
      show chunks pp.l (fun i => t.vals i + δ.vals i) c = _
      rw [hδ]
    exact addMask_diff (hs c hc) (hs' c hc) (chunks_length _ _ _) e1
  simp only [e] at r' h'
  rw [gathered_congr (x := fun p => addMask (sh' p) _) (y := fun p => addMask (sh p) (pp.degDealt N t p).inMask)
    fun p hp => addMask_diff (hsh.1 p (by omega)) (hsh'.1 p (by omega)) (pp.freshVec_length _ _ _ _) (hin t p (by omega))] at r'
  exact ⟨_, _, _, r, r', h, h', fun i => by rw [hm]⟩

end net

section net
variable [FixedWire T] {n : Nat}

theorem PSS.dMsm_kcouple {pp : PSS F} (hg : pp.Good) (dbg : Bool) {l : Nat} (hle : pp.l = l) (hn : n = 4 * pp.l)
    (hgen : pp.secret.offset ^ (4 * l) ≠ 1) (gen : T) (hspan : ∀ g : T, ∃ c : F, c • gen = g) (P : Fin l → Nat)
    (hinj : Function.Injective P) (hlt : ∀ i, P i < 4 * l) {N d1 d2 : Nat} (hd2 : 2 * pp.l ≤ d2 + d1 - 1) (hd4 : d2 + d1 - 1 ≤ 4 * pp.l - 1)
    {bs bs' bsec bsec' : Nat → List T} {ss ss' ssec ssec' : Nat → List F} {D : List T}
    (hb : pp.SharedVec d1 N bs bsec) (hb' : pp.SharedVec d1 N bs' bsec') (hs : pp.SharedVec d2 N ss ssec)
    (hs' : pp.SharedVec d2 N ss' ssec') (hPb : ∀ i, bs (P i) = bs' (P i)) (hPs : ∀ i, ss (P i) = ss' (P i)) {tot tot' : T}
    (htot : ∑ k ∈ range pp.l, ∑ c ∈ range N, (ssec c).getD k 0 • (bsec c).getD k 0 = tot)
    (htot' : ∑ k ∈ range pp.l, ∑ c ∈ range N, (ssec' c).getD k 0 • (bsec' c).getD k 0 = tot')
    (hD : pp.Shares (2 * pp.l) ((List.range (4 * pp.l)).map fun p =>
      (∑ c ∈ range N, (ss p).getD c 0 • (bs p).getD c 0) - ∑ c ∈ range N, (ss' p).getD c 0 • (bs' p).getD c 0) D) :
    ∃ δ : MsmTape F T, (∀ t i, pp.msmDealt gen (t.add δ) (P i) = pp.msmDealt gen t (P i)) ∧
      ∀ (t : MsmTape F T) (sid : Sid),
        KCouple (only sid) P (fun i : Fin n => pp.dMsm dbg n i (bs i) (ss i) (pp.msmDealt gen t i) sid)
          (fun i : Fin n => pp.dMsm dbg n i (bs' i) (ss' i) (pp.msmDealt gen (t.add δ) i) sid)
          (fun o => pp.Shares (2 * pp.l) ((List.range (4 * pp.l)).map o) (List.replicate pp.l tot))
          (fun o => pp.Shares (2 * pp.l) ((List.range (4 * pp.l)).map o) (List.replicate pp.l tot')) := by
  have shared : ∀ (bs bsec : Nat → List T) (ss ssec : Nat → List F), pp.SharedVec d1 N bs bsec → pp.SharedVec d2 N ss ssec →
      pp.Shares (d2 + d1 - 1) ((List.range (4 * pp.l)).map fun p => ∑ c ∈ range N, (ss p).getD c 0 • (bs p).getD c 0)
        ((List.range pp.l).map fun k => ∑ c ∈ range N, (ssec c).getD k 0 • (bsec c).getD k 0) := by
    intro bs bsec ss ssec hb hs
    obtain ⟨c, e1, hc⟩ := msm_shared hb hs
    refine cast ?_ hc
    congr 1
    apply List.map_congr_left
    intro p hp
    have hp := List.mem_range.1 hp
    exact Except.ok.inj ((e1 p hp).symm.trans (msm_eq (hb.1 p hp) (hs.1 p hp)))
  have hsub := Shares.sub (shared _ _ _ _ hb hs) (shared _ _ _ _ hb' hs')
  rw [List.zipWith_map_left, List.zipWith_map_right, List.zipWith_self, List.zipWith_map_left, List.zipWith_map_right,
    List.zipWith_self] at hsub
  have hDs := Shares.unique hg hd4 (Shares.mono hd2 hD) hsub
  have hsum : D.sum = tot - tot' := by
    rw [hDs, sum_map_range, sum_sub_distrib, htot, htot']
  obtain ⟨δ, hδ, hin, hm⟩ := PSS.msmDealt_king hg hle hgen gen P hinj hlt
    (x := fun p => ∑ c ∈ range N, (ss p).getD c 0 • (bs p).getD c 0)
    (y := fun p => ∑ c ∈ range N, (ss' p).getD c 0 • (bs' p).getD c 0) (fun k _ => hspan _) hD (fun i => by simp only [hPb, hPs])
  refine ⟨δ, hm, fun t sid => ?_⟩
  obtain ⟨r, h⟩ := PSS.dMsm_view hg dbg hn hd2 hd4 hb hs gen t sid htot
  obtain ⟨r', h'⟩ := PSS.dMsm_view hg dbg hn hd2 hd4 hb' hs' gen (t.add δ) sid htot'
  have e : tot' + ((List.range pp.l).map fun i => (t.add δ).vals i • gen).sum =
      tot + ((List.range pp.l).map fun i => t.vals i • gen).sum := by
    rw [hδ, hsum]; abel
  rw [e] at r' h'
  rw [gathered_congr (x := fun p => (∑ c ∈ range N, (ss' p).getD c 0 • (bs' p).getD c 0) + _)
    (y := fun p => (∑ c ∈ range N, (ss p).getD c 0 • (bs p).getD c 0) + (pp.msmDealt gen t p).inMask)
    fun p hp => by rw [hin t p (by omega)]; abel] at r'
  exact ⟨_, _, _, r, r', h, h', fun i => by rw [hm]⟩

end net

end ZkSaas
