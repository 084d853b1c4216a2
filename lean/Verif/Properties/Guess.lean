import Verif.Properties.Opening
import Verif.Properties.ZeroKnowledge
import Verif.Spec.Guess

/-!
# C106: whether the proof is accepted tells a cheater whether it has guessed the assignment
-/

set_option linter.unusedSectionVars false

namespace ZkSaas.Properties

open Finset Polynomial Spec

variable {F : Type} [Field F] [FftField F] [DecidableEq F] [FixedWire F]

/-! ### The weights -/

theorem share_gen_pow {pp : PSS F} (hg : pp.Good) : pp.share.groupGen ^ (4 * pp.l) = 1 := by
  have := hg.share_wf.prim.pow_eq_one
  rwa [hg.share_size] at this

theorem points_ne {pp : PSS F} (hg : pp.Good) (hoff : pp.secret.offset ^ (4 * pp.l) ≠ 1) (k i : Nat) :
    pp.secret.offset * (pp.share.groupGen ^ 2) ^ k - pp.share.groupGen ^ i ≠ 0 := by
  intro h
  have hω := share_gen_pow hg
  have h := sub_eq_zero.1 h
  apply hoff
  have := congrArg (· ^ (4 * pp.l)) h
  simp only [mul_pow, ← pow_mul] at this
  rw [mul_comm 2 k, mul_comm (k * 2), pow_mul pp.share.groupGen, hω, one_pow, mul_one, mul_comm i, pow_mul pp.share.groupGen, hω, one_pow] at this
  exact this

theorem secrets_ne {pp : PSS F} (hg : pp.Good) {k : Nat} (hk : 0 < k) (hkl : k < pp.l) :
    pp.secret.offset - pp.secret.offset * (pp.share.groupGen ^ 2) ^ k ≠ 0 := by
  intro h
  have h1 : pp.secret.offset * ((pp.share.groupGen ^ 2) ^ k - 1) = 0 := by rw [← neg_eq_zero, ← h]; ring
  rcases mul_eq_zero.1 h1 with h1 | h1
  · exact hg.secret_wf.offne h1
  · have := hg.secret_wf.prim.pow_ne_one_of_pos_of_lt hk.ne' (by rw [hg.secret_size]; omega)
    rw [hg.secret_gen] at this
    exact this (sub_eq_zero.1 h1)

/-- A polynomial that is zero at the points of the servers in `Q` and at all secret points but the first. -/
theorem one_secret {pp : PSS F} (hg : pp.Good) (hoff : pp.secret.offset ^ (4 * pp.l) ≠ 1) (Q : List Nat) {d : Nat} (hd : Q.length + pp.l ≤ d) :
    ∃ e : Nat → F, (∀ i ∈ Q, pval e d (pp.share.groupGen ^ i) = 0) ∧ pval e d pp.secret.offset ≠ 0 ∧
      ∀ k, 0 < k → k < pp.l → pval e d (pp.secret.offset * (pp.share.groupGen ^ 2) ^ k) = 0 := by
  have hl := hg.lpos
  obtain ⟨c, hc⟩ := pval_roots (Q.map (pp.share.groupGen ^ ·) ++ (List.range (pp.l - 1)).map fun k =>
    pp.secret.offset * (pp.share.groupGen ^ 2) ^ (k + 1)) (d := d) (by simp; omega)
  refine ⟨c, fun i hi => ?_, ?_, fun k hk hkl => ?_⟩
  · rw [hc]
    apply List.prod_eq_zero
    simp only [List.map_append, List.map_map, List.mem_append, List.mem_map]
    exact Or.inl ⟨i, hi, by simp⟩
  · rw [hc]
    apply List.prod_ne_zero
    simp only [List.map_append, List.map_map, List.mem_append, List.mem_map]
    rintro (⟨i, -, h⟩ | ⟨k, hk, h⟩)
    · exact points_ne hg hoff 0 i (by simpa using h)
    · exact secrets_ne hg (k := k + 1) (by omega) (by have := List.mem_range.1 hk; omega) h
  · rw [hc]
    apply List.prod_eq_zero
    simp only [List.map_append, List.map_map, List.mem_append, List.mem_map]
    exact Or.inr ⟨k - 1, List.mem_range.2 (by omega), by simp [Nat.sub_add_cancel hk]⟩

theorem weight_eval {dbg₀ : Bool} {b : Nat} {pp : PSS F} (hpp : PSS.new dbg₀ (2 ^ b) = .ok pp)
    (hgen : (FftField.GENERATOR : F) ^ (4 * 2 ^ b) ≠ 1) {e : Nat → F} {d : Nat} (hd : d ≤ 4 * 2 ^ b) :
    ∑ i ∈ range (4 * 2 ^ b), msmWeight pp.share.groupGen pp.secret.offset (2 ^ b) i * pval e d (pp.share.groupGen ^ i) =
      ∑ k ∈ range (2 ^ b), pval e d (pp.secret.offset * (pp.share.groupGen ^ 2) ^ k) := by
  have hg := PSS.good_of_new hpp
  have hle := l_eq hpp
  have h1 := (C88_unpack2 hpp hgen fun i => pval e d (pp.share.groupGen ^ i)).1
  have hs : pp.Shares (4 * pp.l) ((List.range (4 * pp.l)).map fun i => pval e d (pp.share.groupGen ^ i))
      ((List.range pp.l).map fun k => pval e d (pp.secret.offset * (pp.share.groupGen ^ 2) ^ k)) := by
    refine Shares.mono (d := d) (by omega) ⟨by simp, by simp, e, fun i hi => ?_, fun k hk => ?_⟩
    · rw [getD_map_range, if_pos hi]
    · rw [getD_map_range, if_pos hk]
  have h2 := PSS.unpack2_release hg hs
  rw [hle, h1] at h2
  have h3 := Except.ok.inj h2
  have h4 : ∀ k < 2 ^ b, _ := fun k hk => List.map_inj_left.1 h3 k (List.mem_range.2 hk)
  rw [← sum_congr rfl fun k hk => h4 k (mem_range.1 hk), sum_comm]
  refine sum_congr rfl fun i _ => ?_
  rw [msmWeight, sum_mul]
  rfl

theorem checksum_eval {dbg₀ : Bool} {b : Nat} {pp : PSS F} (hpp : PSS.new dbg₀ (2 ^ b) = .ok pp) {e : Nat → F} {d : Nat} (hd : d ≤ 4 * 2 ^ b - 1) :
    ∑ i ∈ range (4 * 2 ^ b), pp.share.groupGen ^ i * pval e d (pp.share.groupGen ^ i) = 0 := by
  have hg := PSS.good_of_new hpp
  have hle := l_eq hpp
  have hs : pp.Shares d ((List.range (4 * pp.l)).map fun i => pval e d (pp.share.groupGen ^ i))
      ((List.range pp.l).map fun k => pval e d (pp.secret.offset * (pp.share.groupGen ^ 2) ^ k)) := by
    refine ⟨by simp, by simp, e, fun i hi => ?_, fun k hk => ?_⟩
    · rw [getD_map_range, if_pos hi]
    · rw [getD_map_range, if_pos hk]
  have h2 := PSS.unpack2_of_shares hg true (by omega) hs
  have := PSS.unpack2_checks hg h2
  rw [← hle]
  exact this

theorem many_weights {dbg₀ : Bool} {b : Nat} {pp : PSS F} (hpp : PSS.new dbg₀ (2 ^ b) = .ok pp)
    (hgen : (FftField.GENERATOR : F) ^ (4 * 2 ^ b) ≠ 1) (c : F) {m : Nat} (hm : m ≤ 3 * 2 ^ b) (hc : c ≠ 0 → m + 1 ≤ 3 * 2 ^ b) :
    m < #{i ∈ range (4 * 2 ^ b) | msmWeight pp.share.groupGen pp.secret.offset (2 ^ b) i ≠ c * pp.share.groupGen ^ i} := by
  have hg := PSS.good_of_new hpp
  have hle := l_eq hpp
  have hb0 : 0 < 2 ^ b := by positivity
  have hoff := offset_ne hpp hgen
  by_contra hcard
  rw [not_lt] at hcard
  set Q := {i ∈ range (4 * 2 ^ b) | msmWeight pp.share.groupGen pp.secret.offset (2 ^ b) i ≠ c * pp.share.groupGen ^ i} with hQ
  obtain ⟨e, h1, h2, h3⟩ := one_secret hg hoff Q.toList (d := m + pp.l) (by rw [Finset.length_toList]; omega)
  have hw := weight_eval hpp hgen (e := e) (d := m + pp.l) (by omega)
  have hck : c * ∑ i ∈ range (4 * 2 ^ b), pp.share.groupGen ^ i * pval e (m + pp.l) (pp.share.groupGen ^ i) = 0 := by
    by_cases h0 : c = 0
    · rw [h0, zero_mul]
    · rw [checksum_eval hpp (by have := hc h0; omega), mul_zero]
  have hz : ∑ i ∈ range (4 * 2 ^ b), msmWeight pp.share.groupGen pp.secret.offset (2 ^ b) i * pval e (m + pp.l) (pp.share.groupGen ^ i) =
      c * ∑ i ∈ range (4 * 2 ^ b), pp.share.groupGen ^ i * pval e (m + pp.l) (pp.share.groupGen ^ i) := by
    rw [mul_sum]
    refine sum_congr rfl fun i hi => ?_
    by_cases hq : i ∈ Q
    · rw [h1 i (Finset.mem_toList.2 hq), mul_zero, mul_zero, mul_zero]
    · have : msmWeight pp.share.groupGen pp.secret.offset (2 ^ b) i = c * pp.share.groupGen ^ i := by
        by_contra hne
        exact hq (by rw [hQ, mem_filter]; exact ⟨hi, hne⟩)
      rw [this, mul_assoc]
  rw [hz, hck, sum_eq_single_of_mem 0 (mem_range.2 hb0) fun k hk h0 => h3 k (Nat.pos_of_ne_zero h0) (by rw [hle]; exact mem_range.1 hk), pow_zero, mul_one] at hw
  exact h2 hw.symm

/-- **C106** More than `3l` of the `4l` servers have a say in the answer of the king in `d_msm`. -/
theorem C106_weights {dbg₀ : Bool} {b : Nat} {pp : PSS F} (hpp : PSS.new dbg₀ (2 ^ b) = .ok pp)
    (hgen : (FftField.GENERATOR : F) ^ (4 * 2 ^ b) ≠ 1) :
    3 * 2 ^ b < #{i ∈ range (4 * 2 ^ b) | msmWeight pp.share.groupGen pp.secret.offset (2 ^ b) i ≠ 0} := by
  have := many_weights hpp hgen 0 le_rfl fun h => absurd rfl h
  simpa using this

/-- **C106** In a debug build a server needs a helper, and at least `3l` others will do. -/
theorem C106_helpers {dbg₀ : Bool} {b : Nat} {pp : PSS F} (hpp : PSS.new dbg₀ (2 ^ b) = .ok pp)
    (hgen : (FftField.GENERATOR : F) ^ (4 * 2 ^ b) ≠ 1) (p : Nat) :
    3 * 2 ^ b ≤ #{q ∈ range (4 * 2 ^ b) | msmWeight pp.share.groupGen pp.secret.offset (2 ^ b) q * pp.share.groupGen ^ p ≠
      msmWeight pp.share.groupGen pp.secret.offset (2 ^ b) p * pp.share.groupGen ^ q} := by
  have hg := PSS.good_of_new hpp
  have hb0 : 0 < 2 ^ b := by positivity
  have hω0 : pp.share.groupGen ^ p ≠ 0 := pow_ne_zero _ (hg.share_wf.prim.ne_zero hg.share_wf.pos.ne')
  have := many_weights hpp hgen (msmWeight pp.share.groupGen pp.secret.offset (2 ^ b) p / pp.share.groupGen ^ p) (m := 3 * 2 ^ b - 1) (by omega)
    fun _ => by omega
  refine le_trans (by omega : 3 * 2 ^ b ≤ 3 * 2 ^ b - 1 + 1) (le_trans this (card_le_card fun q => ?_))
  simp only [mem_filter]
  refine fun h => ⟨h.1, fun he => h.2 ?_⟩
  rw [div_mul_eq_mul_div, eq_div_iff hω0, he]

/-! ### What the king makes of spoiled shares -/

/-- **C106** In a release build the errors of one server that has a say are unnoticed. -/
theorem C106_one {dbg₀ : Bool} {b : Nat} {pp : PSS F} (_ : PSS.new dbg₀ (2 ^ b) = .ok pp) {p : Nat} (hp : p < 4 * 2 ^ b)
    (hw : msmWeight pp.share.groupGen pp.secret.offset (2 ^ b) p ≠ 0) :
    Unnoticed pp false b fun i => if i = p then (msmWeight pp.share.groupGen pp.secret.offset (2 ^ b) p)⁻¹ else 0 := by
  refine ⟨?_, by simp⟩
  rw [sum_eq_single_of_mem p (mem_range.2 hp) fun i _ h => by rw [if_neg h, mul_zero], if_pos rfl, mul_inv_cancel₀ hw]

/-- **C106** In a debug build the errors of two servers with different ratios of weights are unnoticed. -/
theorem C106_two (pp : PSS F) (dbg : Bool) {b : Nat} {p q : Nat} (hp : p < 4 * 2 ^ b) (hq : q < 4 * 2 ^ b)
    (hw : msmWeight pp.share.groupGen pp.secret.offset (2 ^ b) q * pp.share.groupGen ^ p ≠
      msmWeight pp.share.groupGen pp.secret.offset (2 ^ b) p * pp.share.groupGen ^ q) :
    ∃ x y : F, Unnoticed pp dbg b fun i => if i = p then x else if i = q then y else 0 := by
  set w := fun i => msmWeight pp.share.groupGen pp.secret.offset (2 ^ b) i
  set D := w p * pp.share.groupGen ^ q - w q * pp.share.groupGen ^ p
  have hD : D ≠ 0 := sub_ne_zero.2 hw.symm
  have hpq : q ≠ p := fun h => hw (by rw [h])
  have key : ∀ (f : Nat → F) (x y : F), ∑ i ∈ range (4 * 2 ^ b), f i * (if i = p then x else if i = q then y else 0) = f p * x + f q * y := by
    intro f x y
    have : ∀ i ∈ range (4 * 2 ^ b), f i * (if i = p then x else if i = q then y else 0) = (if i = p then f p * x else 0) + if i = q then f q * y else 0 := by
      intro i _
      by_cases h1 : i = p
      · subst h1
        simp [hpq.symm]
      · by_cases h2 : i = q
        · subst h2
          simp [h1]
        · simp [h1, h2]
    rw [sum_congr rfl this, sum_add_distrib, sum_ite_eq', sum_ite_eq', if_pos (mem_range.2 hp), if_pos (mem_range.2 hq)]
  refine ⟨pp.share.groupGen ^ q / D, -(pp.share.groupGen ^ p / D), ?_, fun _ => ?_⟩
  · rw [key]
    show w p * _ + w q * _ = 1
    field_simp
    exact (sub_eq_add_neg _ _).symm
  · rw [key (fun i => pp.share.groupGen ^ i)]
    ring

section spoil
variable {G : Type} [AddCommGroup G] [Module F G] [DecidableEq G] [FixedWire G]

theorem list_sum_range (f : Nat → G) (n : Nat) : ((List.range n).map f).sum = ∑ i ∈ range n, f i := by
  induction n with
  | zero => rfl
  | succ n ih => rw [List.range_succ, List.map_append, List.sum_append, ih, sum_range_succ]; simp

/-- The king's answer to spoiled shares. -/
theorem msmKing_spoiled {dbg₀ : Bool} {b : Nat} {pp : PSS F} (hpp : PSS.new dbg₀ (2 ^ b) = .ok pp)
    (hgen : (FftField.GENERATOR : F) ^ (4 * 2 ^ b) ≠ 1) {dbg : Bool} {ε : Nat → F} (hε : Unnoticed pp dbg b ε) (n : Nat) {x : Nat → G} {sec : List G}
    {d : Nat} (hd : d ≤ 4 * 2 ^ b - 1) (hx : pp.Shares d ((List.range (4 * 2 ^ b)).map x) sec) (Δ : G) :
    pp.msmKing dbg n ((List.range (4 * 2 ^ b)).map fun i => x i + ε i • Δ) (List.range (4 * 2 ^ b)) = .ok (List.replicate n (sec.sum + Δ)) := by
  have hg := PSS.good_of_new hpp
  have hle := l_eq hpp
  have h0 := PSS.unpack2_of_shares hg true (by omega) hx
  have h0' := PSS.unpack2_of_shares hg false (by omega) hx
  obtain ⟨a1, a2⟩ := C88_unpack2 hpp hgen x
  obtain ⟨b1, b2⟩ := C88_unpack2 hpp hgen fun i => x i + ε i • Δ
  have hck : ∑ i ∈ range (4 * 2 ^ b), pp.share.groupGen ^ i • x i = 0 := by
    by_contra h
    rw [a2, if_neg h] at h0
    cases h0
  rw [h0'] at a1
  have hsec := Except.ok.inj a1
  have hrel : pp.unpack2 dbg ((List.range (4 * 2 ^ b)).map fun i => x i + ε i • Δ) =
      pp.unpack2 false ((List.range (4 * 2 ^ b)).map fun i => x i + ε i • Δ) := by
    cases dbg with
    | false => rfl
    | true =>
      rw [b2, if_pos]
      simp only [smul_add, sum_add_distrib, smul_smul]
      rw [hck, ← sum_smul, hε.check rfl, zero_smul, add_zero]
  unfold PSS.msmKing PSS.unpackMissingShares
  rw [debugAssert_of (by simp), ok_bind, if_pos (by simp [hg.n_eq, hle]), hrel, b1, ok_bind]
  show Except.ok _ = _
  congr 2
  rw [hsec, list_sum_range, list_sum_range]
  simp only [smul_add, sum_add_distrib, smul_smul]
  congr 1
  rw [sum_comm]
  simp only [← sum_smul]
  conv_rhs => rw [← one_smul F Δ, ← hε.sum]
  congr 1
  refine sum_congr rfl fun i _ => ?_
  rw [msmWeight, sum_mul]

/-- `d_msm` with honest servers and with servers who spoil what they send. -/
theorem dMsm_spoiled {dbg₀ : Bool} {b : Nat} {pp : PSS F} (hpp : PSS.new dbg₀ (2 ^ b) = .ok pp)
    (hgen : (FftField.GENERATOR : F) ^ (4 * 2 ^ b) ≠ 1) {dbg : Bool} {ε : Nat → F} (hε : Unnoticed pp dbg b ε) {y : List G} {x : List F}
    (hlen : x.length = y.length) {bs : Nat → List G} {ss : Nat → List F} (hb : HoldsChunks pp b bs y) (hs : HoldsChunks pp b ss x)
    (gen : G) (t : MsmTape F G) (sid : Sid) (Δ : G) :
    ∃ (outs : Nat → G) (vs vs' : Fin (4 * 2 ^ b) → Transcript),
      RunsV All (only sid) (fun i : Fin (4 * 2 ^ b) => pp.dMsm dbg (4 * 2 ^ b) i (bs i) (ss i) (pp.msmDealt gen t i) sid) (fun i => outs i) vs ∧
      RunsV All (only sid) (fun i : Fin (4 * 2 ^ b) => pp.dMsm dbg (4 * 2 ^ b) i (bs i) (ss i) (spoiled (ε i • Δ) (pp.msmDealt gen t i)) sid)
        (fun i => outs i + Δ) vs' := by
  have hle := l_eq hpp
  have hg := PSS.good_of_new hpp
  have hl := hg.lpos
  have hb := hb.vec hpp rfl
  have hs := hs.vec hpp hlen
  obtain ⟨c, e1, hc⟩ := msm_shared hb hs
  have hin : pp.Shares (2 * pp.l) ((List.range (4 * pp.l)).map fun p => (pp.msmDealt gen t p).inMask)
      ((List.range pp.l).map fun i => t.vals i • gen) := PSS.fresh_one hg (by simp) _
  have hsum := Shares.add hc (Shares.mono (by omega) hin)
  rw [List.zipWith_map_left, List.zipWith_map_right, List.zipWith_self] at hsum
  have hK := PSS.msmKing_ok hg dbg (4 * 2 ^ b) (by omega) (Or.inl rfl : pp.Decodable dbg _ _) hsum
  have round : ∀ (x : Nat → G) (ans : G),
      pp.msmKing dbg (4 * 2 ^ b) ((List.range (4 * 2 ^ b)).map x) (List.range (4 * 2 ^ b)) = .ok ((List.range (4 * 2 ^ b)).map fun _ => ans) → _ := fun x ans h =>
    runsV_round (α := G) (by positivity : 0 < 4 * 2 ^ b) sid pp.t x (fun i hi => Wire.ok_fixed _)
      (fun i rs => pp.msmKing dbg (4 * 2 ^ b) rs.shares rs.parties) (fun i => ans) (FixedWire.width G) h (fun i hi => ⟨Wire.ok_fixed _, FixedWire.enc_length _⟩)
      (fun i y => .done (.ok (y + (pp.msmDealt gen t i).outMask))) (RunsV.done _)
  rw [hle] at hK e1 hb hs hsum
  have h1 := round _ _ (hK.trans (by simp; rfl))
  have h2 := round (fun i => c i + (pp.msmDealt gen t i).inMask + ε i • Δ) _
    ((msmKing_spoiled hpp hgen hε (4 * 2 ^ b) (by omega) hsum Δ).trans (by simp; rfl))
  refine ⟨fun p => _ + (pp.msmDealt gen t p).outMask, _, _, RunsV.congr h1 (fun i => ?_) (fun i => rfl) fun i => rfl,
    RunsV.congr h2 (fun i => ?_) (fun i => ?_) fun i => rfl⟩
  · unfold PSS.dMsm
    rw [debugAssert_of (by rw [hb.1 i (by rw [hle]; exact i.2), hs.1 i (by rw [hle]; exact i.2)]; simp), e1 i i.2]
    rfl
  · unfold PSS.dMsm
    rw [debugAssert_of (by rw [hb.1 i (by rw [hle]; exact i.2), hs.1 i (by rw [hle]; exact i.2)]; simp), e1 i i.2, add_assoc]
    rfl
  · exact add_right_comm _ _ _

theorem proveA_spoiled {dbg₀ : Bool} {b : Nat} {pp : PSS F} (hpp : PSS.new dbg₀ (2 ^ b) = .ok pp)
    (hgen : (FftField.GENERATOR : F) ^ (4 * 2 ^ b) ≠ 1) {dbg : Bool} {ε : Nat → F} (hε : Unnoticed pp dbg b ε) {y : List G} {x : List F}
    (hlen : x.length = y.length) {bs : Nat → List G} {ss : Nat → List F} (hb : HoldsChunks pp b bs y) (hs : HoldsChunks pp b ss x)
    (gen : G) (t : MsmTape F G) (sid : Sid) (Δ L N AG : G) (rsh : Nat → F) :
    ∃ (outs : Nat → G) (vs vs' : Fin (4 * 2 ^ b) → Transcript),
      RunsV All (only sid) (fun i : Fin (4 * 2 ^ b) => pp.proveA dbg (4 * 2 ^ b) i L N AG (bs i) (ss i) (rsh i) (pp.msmDealt gen t i) sid)
        (fun i => outs i) vs ∧
      RunsV All (only sid) (fun i : Fin (4 * 2 ^ b) => pp.proveA dbg (4 * 2 ^ b) i L N AG (bs i) (ss i) (rsh i)
        (spoiled (ε i • Δ) (pp.msmDealt gen t i)) sid)
        (fun i => outs i + Δ) vs' := by
  obtain ⟨o, v, v', h, h'⟩ := dMsm_spoiled hpp hgen hε hlen hb hs gen t sid Δ
  have k := RunsV.bind h (f := fun i w => .done (.ok ((L + rsh i • N) + w + AG))) (RunsV.done fun i => (L + rsh i • N) + o i + AG)
  have k' := RunsV.bind h' (f := fun i w => .done (.ok ((L + rsh i • N) + w + AG))) (RunsV.done fun i => (L + rsh i • N) + (o i + Δ) + AG)
  exact ⟨fun p => (L + rsh p • N) + o p + AG, _, _, k.congr (fun _ => rfl) (fun _ => rfl) fun i => rfl,
    k'.congr (fun _ => rfl) (fun _ => by dsimp only; abel) fun i => rfl⟩

theorem proveC_spoiled {dbg₀ : Bool} {b : Nat} {pp : PSS F} (hpp : PSS.new dbg₀ (2 ^ b) = .ok pp)
    (hgen : (FftField.GENERATOR : F) ^ (4 * 2 ^ b) ≠ 1) {dbg : Bool} {ε : Nat → F} (hε : Unnoticed pp dbg b ε) {W U : List G} {ax h : List F}
    (hW : ax.length = W.length) (hU : h.length = U.length) {Wsh Ush : Nat → List G} {axsh hsh : Nat → List F}
    (sW : HoldsChunks pp b Wsh W) (sU : HoldsChunks pp b Ush U) (sa : HoldsChunks pp b axsh ax) (sh : HoldsChunks pp b hsh h)
    (gen : G) (t u : MsmTape F G) (M Δ Δ' : G) (rsh ssh : Nat → F) :
    ∃ (outs : Nat → G),
      (∀ Ash Bsh : Nat → G, ∃ vs, RunsV All (fun _ => True) (fun i : Fin (4 * 2 ^ b) => pp.proveC dbg (4 * 2 ^ b) i (Ash i) (Bsh i) (ssh i) (rsh i) M
        (Wsh i) (Ush i) (axsh i) (hsh i) (pp.msmDealt gen t i) (pp.msmDealt gen u i)) (fun i => ssh i • Ash i + rsh i • Bsh i + outs i) vs) ∧
      ∀ Ash Bsh : Nat → G, ∃ vs, RunsV All (fun _ => True) (fun i : Fin (4 * 2 ^ b) => pp.proveC dbg (4 * 2 ^ b) i (Ash i) (Bsh i) (ssh i)
        (rsh i) M (Wsh i) (Ush i) (axsh i) (hsh i) (spoiled (ε i • Δ) (pp.msmDealt gen t i)) (spoiled (ε i • Δ') (pp.msmDealt gen u i)))
        (fun i => ssh i • Ash i + rsh i • Bsh i + outs i + (Δ + Δ')) vs := by
  obtain ⟨o, v, v1, h1, k1⟩ := dMsm_spoiled hpp hgen hε hW sW sa gen t .zero Δ
  obtain ⟨o', v', v2, h2, k2⟩ := dMsm_spoiled hpp hgen hε hU sU sh gen u .one Δ'
  refine ⟨fun p => o p + o' p - (rsh p * ssh p) • M, fun Ash Bsh => ?_, fun Ash Bsh => ?_⟩
  · have h' := RunsV.par (S := fun _ => True) h1 h2 (fun _ _ => trivial) (fun _ _ => trivial)
      (k := fun i w u => .done (.ok (ssh i • Ash i + rsh i • Bsh i - (rsh i * ssh i) • M + w + u)))
      (RunsV.done fun i => ssh i • Ash i + rsh i • Bsh i - (rsh i * ssh i) • M + o i + o' i)
    exact ⟨_, h'.congr (fun _ => rfl) (fun i => rearr (ssh i • Ash i) (rsh i • Bsh i) ((rsh i * ssh i) • M) (o i) (o' i)) fun i => rfl⟩
  · have h' := RunsV.par (S := fun _ => True) k1 k2 (fun _ _ => trivial) (fun _ _ => trivial)
      (k := fun i w u => .done (.ok (ssh i • Ash i + rsh i • Bsh i - (rsh i * ssh i) • M + w + u)))
      (RunsV.done fun i => ssh i • Ash i + rsh i • Bsh i - (rsh i * ssh i) • M + (o i + Δ) + (o' i + Δ'))
    exact ⟨_, h'.congr (fun _ => rfl) (fun i => rearr' (ssh i • Ash i) (rsh i • Bsh i) ((rsh i * ssh i) • M) (o i) (o' i) Δ Δ') fun i => rfl⟩

end spoil

section servers
variable {G1 G2 GT : Type} [AddCommGroup G1] [Module F G1] [DecidableEq G1] [FixedWire G1]
  [AddCommGroup G2] [Module F G2] [DecidableEq G2] [FixedWire G2] [AddCommGroup GT] [Module F GT]

theorem run_tampered_zero {pp : PSS F} (dbg : Bool) (n me : Nat) (Δ : Shift G1 G2) (x : ServerInput F G1 G2) (rng : Nat → Nat → Nat → F) :
    (tampered (0 : F) Δ x).run pp dbg n me rng = x.run pp dbg n me rng := by
  unfold ServerInput.run PSS.dsha256 tampered
  simp [spoiled]

/-- The servers as they are and some of them spoiling what they send. -/
theorem run_spoiled {dbg₀ : Bool} {b : Nat} {pp : PSS F} (hpp : PSS.new dbg₀ (2 ^ b) = .ok pp)
    (hgen : (FftField.GENERATOR : F) ^ (4 * 2 ^ b) ≠ 1) {dbg : Bool} {ε : Nat → F} (hε : Unnoticed pp dbg b ε) {a ni : Nat} (ha : a < 64)
    {dom dom2 : Domain F} (hdom : Domain.new (2 ^ (a + b)) = some dom) (hdom2 : Domain.new (2 ^ (a + b + 1)) = some dom2)
    {crs : Nat → PackedProvingKeyShare G1 G2} {a0 b0 α1 β1 δ1 : G1} {v0 β2 δ2 : G2}
    (hpub : ∀ p, (crs p).aQuery0 = a0 ∧ (crs p).bG1Query0 = b0 ∧ (crs p).bG2Query0 = v0 ∧ (crs p).deltaG1 = δ1 ∧
        (crs p).deltaG2 = δ2 ∧ (crs p).alphaG1 = α1 ∧ (crs p).betaG1 = β1 ∧ (crs p).betaG2 = β2)
    {S H W U : List G1} {V : List G2} (hS : HoldsChunks pp b (fun p => (crs p).s) S) (hU : HoldsChunks pp b (fun p => (crs p).u) U)
    (hW : HoldsChunks pp b (fun p => (crs p).w) W) (hH : HoldsChunks pp b (fun p => (crs p).h) H)
    (hV : HoldsChunks pp b (fun p => (crs p).v) V) {z : List F} (hzS : (z.drop 1).length = S.length)
    (hzH : (z.drop 1).length = H.length) (hzV : (z.drop 1).length = V.length) (hax : (z.drop ni).length = W.length)
    (hUl : U.length = 2 ^ (a + b)) {q : QAP F} {gen1 : G1} {gen2 : G2} {t : ClientTape F G1 G2} {I : Nat → ServerInput F G1 G2}
    (f : Dealt pp a b ni q z dom2.groupGen dom crs gen1 gen2 t I)
    (hr0 : (∀ p < 4 * 2 ^ b, (I p).r ≠ 0) ∨ ∀ p < 4 * 2 ^ b, (I p).r = 0) (rng : Nat → Nat → Nat → F) (Δ : Shift G1 G2) :
    ∃ outs : Nat → G1 × G2 × G1,
      AlwaysYields (Net.init fun i : Fin (4 * 2 ^ b) => (I i).run pp dbg (4 * 2 ^ b) i rng) (fun i => outs i) ∧
      AlwaysYields (Net.init fun i : Fin (4 * 2 ^ b) => (tampered (ε i) Δ (I i)).run pp dbg (4 * 2 ^ b) i rng)
        (fun i => ((outs i).1 + Δ.a, (outs i).2.1 + Δ.b2, (outs i).2.2 + ((I i).s • Δ.a + (I i).r • Δ.b1 + (Δ.w + Δ.u)))) := by
  obtain ⟨oh, vh, y, rH, hvh, ly, hh⟩ := circomH_view hpp dbg ha hdom hdom2 f.program rng t.degred f.masks
  obtain ⟨oA, vA, vA', rA, rA'⟩ := proveA_spoiled hpp hgen hε hzS hS f.shA gen1 (t.msm1 0) .zero Δ.a a0 δ1 α1 fun p => (I p).r
  have hB1 : ∃ (oB oB' : Nat → G1) (vB vB' : Fin (4 * 2 ^ b) → Transcript), RunsV All (only .zero) (fun i : Fin (4 * 2 ^ b) =>
      pp.proveBInG1 dbg (4 * 2 ^ b) i b0 δ1 β1 (crs i).h (I i).a (I i).s (I i).r (pp.msmDealt gen1 (t.msm1 1) i) .zero) (fun i => oB i) vB ∧
      RunsV All (only .zero) (fun i : Fin (4 * 2 ^ b) =>
        pp.proveBInG1 dbg (4 * 2 ^ b) i b0 δ1 β1 (crs i).h (I i).a (I i).s (I i).r (spoiled (ε i • Δ.b1) (pp.msmDealt gen1 (t.msm1 1) i)) .zero)
        (fun i => oB' i) vB' ∧ ∀ p < 4 * 2 ^ b, (I p).r • oB' p = (I p).r • oB p + (I p).r • Δ.b1 := by
    rcases hr0 with hr0 | hr0
    · obtain ⟨o, v, v', r, r'⟩ := proveA_spoiled hpp hgen hε hzH hH f.shA gen1 (t.msm1 1) .zero Δ.b1 b0 δ1 β1 fun p => (I p).s
      exact ⟨o, fun p => o p + Δ.b1, v, v', r.congr (fun i => proveBInG1_eq_A _ _ _ _ _ _ _ _ _ (hr0 i i.2) _ _) (fun _ => rfl) fun _ => rfl,
        r'.congr (fun i => proveBInG1_eq_A _ _ _ _ _ _ _ _ _ (hr0 i i.2) _ _) (fun _ => rfl) fun _ => rfl, fun p _ => smul_add _ _ _⟩
    · refine ⟨fun _ => 0, fun _ => 0, _, _, (RunsV.done fun _ => 0).congr (fun i => ?_) (fun _ => rfl) fun _ => rfl,
        (RunsV.done fun _ => 0).congr (fun i => ?_) (fun _ => rfl) fun _ => rfl, fun p hp => by simp [hr0 p hp]⟩ <;>
      rw [PSS.proveBInG1, if_pos (hr0 i i.2)]
  obtain ⟨oB1, oB1', vB1, vB1', rB1, rB1', eB1⟩ := hB1
  obtain ⟨oB, vB, vB', rB, rB'⟩ := proveA_spoiled hpp hgen hε hzV hV f.shA gen2 t.msm2 .zero Δ.b2 v0 δ2 β2 fun p => (I p).s
  obtain ⟨oC, rC, rC'⟩ := proveC_spoiled hpp hgen hε hax (ly.trans hUl.symm) hW hU f.shAx hh gen1 (t.msm1 2) (t.msm1 3) δ1 Δ.w Δ.u
    (fun p => (I p).r) fun p => (I p).s
  obtain ⟨vC, rC⟩ := rC oA oB1
  obtain ⟨vC', rC'⟩ := rC' (fun p => oA p + Δ.a) oB1'
  have r := RunsV.bind rH (f := fun i h =>
      (pp.proveA dbg (4 * 2 ^ b) i a0 δ1 α1 (crs i).s (I i).a (I i).r (pp.msmDealt gen1 (t.msm1 0) i) .zero).bind fun piA =>
      (pp.proveBInG1 dbg (4 * 2 ^ b) i b0 δ1 β1 (crs i).h (I i).a (I i).s (I i).r (pp.msmDealt gen1 (t.msm1 1) i) .zero).bind fun piB1 =>
      (pp.proveA dbg (4 * 2 ^ b) i v0 δ2 β2 (crs i).v (I i).a (I i).s (pp.msmDealt gen2 t.msm2 i) .zero).bind fun piB2 =>
      (pp.proveC dbg (4 * 2 ^ b) i piA piB1 (I i).s (I i).r δ1 (crs i).w (crs i).u (I i).ax h (pp.msmDealt gen1 (t.msm1 2) i)
        (pp.msmDealt gen1 (t.msm1 3) i)).bind fun piC =>
      Proc.done (.ok (piA, piB2, piC)))
    (RunsV.bind (rA.mono fun _ _ => trivial) (RunsV.bind (rB1.mono fun _ _ => trivial) (RunsV.bind (rB.mono fun _ _ => trivial)
      (RunsV.bind rC (RunsV.done fun i => (oA i, oB i, (I i).s • oA i + (I i).r • oB1 i + oC i))))))
  have r' := RunsV.bind rH (f := fun i h =>
      (pp.proveA dbg (4 * 2 ^ b) i a0 δ1 α1 (crs i).s (I i).a (I i).r (spoiled (ε i • Δ.a) (pp.msmDealt gen1 (t.msm1 0) i)) .zero).bind fun piA =>
      (pp.proveBInG1 dbg (4 * 2 ^ b) i b0 δ1 β1 (crs i).h (I i).a (I i).s (I i).r (spoiled (ε i • Δ.b1) (pp.msmDealt gen1 (t.msm1 1) i)) .zero).bind fun piB1 =>
      (pp.proveA dbg (4 * 2 ^ b) i v0 δ2 β2 (crs i).v (I i).a (I i).s (spoiled (ε i • Δ.b2) (pp.msmDealt gen2 t.msm2 i)) .zero).bind fun piB2 =>
      (pp.proveC dbg (4 * 2 ^ b) i piA piB1 (I i).s (I i).r δ1 (crs i).w (crs i).u (I i).ax h (spoiled (ε i • Δ.w) (pp.msmDealt gen1 (t.msm1 2) i))
        (spoiled (ε i • Δ.u) (pp.msmDealt gen1 (t.msm1 3) i))).bind fun piC =>
      Proc.done (.ok (piA, piB2, piC)))
    (RunsV.bind (rA'.mono fun _ _ => trivial) (RunsV.bind (rB1'.mono fun _ _ => trivial) (RunsV.bind (rB'.mono fun _ _ => trivial)
      (RunsV.bind rC' (RunsV.done fun i => (oA i + Δ.a, oB i + Δ.b2, (I i).s • (oA i + Δ.a) + (I i).r • oB1' i + oC i + (Δ.w + Δ.u)))))))
  refine ⟨fun p => (oA p, oB p, (I p).s • oA p + (I p).r • oB1 p + oC p), AlwaysYields.of_recorded (RunsV.alwaysYields (P := All) (S := fun _ => True)
    (r.congr (fun i => ?_) (fun _ => rfl) fun _ => rfl) fun i => dsha256_wf _ (by positivity) _ _ _ _ _ _ _ _ _ _ _ _),
    AlwaysYields.of_recorded (RunsV.alwaysYields (P := All) (S := fun _ => True)
    (r'.congr (fun i => ?_) (fun i => ?_) fun _ => rfl) fun i => dsha256_wf _ (by positivity) _ _ _ _ _ _ _ _ _ _ _ _)⟩
  · obtain ⟨e1, e2, e3, e4, e5, e6, e7, e8⟩ := hpub i
    rw [ServerInput.run, f.crs, f.degred, f.msm2]
    unfold PSS.dsha256
    dsimp only
    rw [e1, e2, e3, e4, e5, e6, e7, e8, f.msm1 i 0 (by omega), f.msm1 i 1 (by omega), f.msm1 i 2 (by omega), f.msm1 i 3 (by omega)]
    rfl
  · obtain ⟨e1, e2, e3, e4, e5, e6, e7, e8⟩ := hpub i
    rw [ServerInput.run]
    unfold PSS.dsha256 tampered
    dsimp only
    rw [f.crs, f.degred, f.msm2]
    simp only [List.getD_cons_zero, List.getD_cons_succ]
    rw [e1, e2, e3, e4, e5, e6, e7, e8, f.msm1 i 0 (by omega), f.msm1 i 1 (by omega), f.msm1 i 2 (by omega), f.msm1 i 3 (by omega)]
    rfl
  · dsimp only
    rw [eB1 i i.2, smul_add]
    congr 2
    exact (rearr'' (G := G1) ..).symm

/-- **C106** Servers who spoil what they send to the king in the five multiplications have the power of the king of C78: if the errors are
unnoticed, then every server finishes, and the client opens the honest proof with `Δ.a` added to `A`, `Δ.b2` to `B` and
`s•Δ.a + r•Δ.b1 + Δ.w + Δ.u` to `C`. In a release build one server is enough, in a debug build two are. -/
theorem C106_clients {dbg₀ : Bool} {b : Nat} {pp : PSS F} (hpp : PSS.new dbg₀ (2 ^ b) = .ok pp)
    (hgen : (FftField.GENERATOR : F) ^ (4 * 2 ^ b) ≠ 1) {dbg : Bool} {ε : Nat → F} (hε : Unnoticed pp dbg b ε) (a : Nat) (ha : a < 64)
    {mats : ConstraintMatrices F} {z : List F} {dom dom2 : Domain F} (hcirc : Circuit a b mats z dom dom2)
    (hsat : Satisfies mats.numConstraints mats.a mats.b mats.c z) {pa pb pc : Nat → F[X]}
    (hqap : IsQap mats z.length dom.groupGen (2 ^ (a + b)) pa pb pc) {t : Toxic F} {g1 : G1} {g2 : G2} {pk : ProvingKey G1 G2}
    (hk : IsCircomKey t g1 g2 z.length mats.numInstanceVariables (2 ^ (a + b)) dom2.groupGen pa pb pc pk) (hγ : t.gamma ≠ 0)
    (hδ : t.delta ≠ 0) (hal : dbg = true → KeyAligned (2 ^ b) pk) (gen1 : G1) (gen2 : G2) (r s : F) (tape : ClientTape F G1 G2)
    (hr0 : ∀ rs, pp.pack dbg (List.replicate (2 ^ b) r) tape.r = .ok rs → (∀ x ∈ rs, x ≠ 0) ∨ ∀ x ∈ rs, x = 0)
    (rng : Nat → Nat → Nat → F) :
    ∃ (ins : Nat → ServerInput F G1 G2) (outs : Nat → G1 × G2 × G1) (pA : G1) (pB : G2) (pC : G1),
      pp.deal dbg (2 ^ b) mats z pk gen1 gen2 r s tape = .ok ((List.range (4 * 2 ^ b)).map ins) ∧
      AlwaysYields (Net.init fun i : Fin (4 * 2 ^ b) => (ins i).run pp dbg (4 * 2 ^ b) i rng) (fun i => outs i) ∧
      pp.openProof dbg ((List.range (4 * 2 ^ b)).map outs) = .ok (pA, pB, pC) ∧
      (∀ e : G1 →ₗ[F] G2 →ₗ[F] GT, Verifies e pk.vk ((z.take mats.numInstanceVariables).drop 1) pA pB pC) ∧
      ∀ Δ : Shift G1 G2, ∃ outs' : Nat → G1 × G2 × G1,
        AlwaysYields (Net.init fun i : Fin (4 * 2 ^ b) => 
          (if ε i = 0 then ins i else tampered (ε i) Δ (ins i)).run pp dbg (4 * 2 ^ b) i rng) (fun i => outs' i) ∧
        pp.openProof dbg ((List.range (4 * 2 ^ b)).map outs') =
          .ok (pA + Δ.a, pB + Δ.b2, pC + (s • Δ.a + r • Δ.b1 + (Δ.w + Δ.u))) ∧
        ∀ e : G1 →ₗ[F] G2 →ₗ[F] GT, Verifies e pk.vk ((z.take mats.numInstanceVariables).drop 1) (pA + Δ.a) (pB + Δ.b2)
            (pC + (s • Δ.a + r • Δ.b1 + (Δ.w + Δ.u))) ↔
          e pA Δ.b2 + e Δ.a pB + e Δ.a Δ.b2 = e (s • Δ.a + r • Δ.b1 + (Δ.w + Δ.u)) pk.vk.deltaG2 := by
  obtain ⟨rs, er, lr, hr⟩ := pack_holdsValue hpp dbg r tape.r
  obtain ⟨ss, es, ls, hs⟩ := pack_holdsValue hpp dbg s tape.s
  have hr0' : (∀ p < 4 * 2 ^ b, rs.getD p 0 ≠ 0) ∨ ∀ p < 4 * 2 ^ b, rs.getD p 0 = 0 := by
    refine (hr0 rs er).imp (fun h p hp => ?_) (fun h p hp => ?_) <;>
      exact h _ (by rw [List.getD_eq_getElem _ _ (by omega)]; exact List.getElem_mem _)
  obtain ⟨ins, outs, D, pA, pB, pC, h1, h2, -, -, h3, h4, h5, h6, -, -, -, -, oA, oB, oC, -⟩ := session_full (GT := GT) hpp dbg a ha hcirc hqap hk hγ hδ
    hal gen1 gen2 tape er es lr ls hr hs hr0' rng
  have hD : D = 0 := (errors_zero hcirc.prim hcirc.le h4).2 hsat
  have hver : ∀ e : G1 →ₗ[F] G2 →ₗ[F] GT, Verifies e pk.vk ((z.take mats.numInstanceVariables).drop 1) pA pB pC := fun e =>
    ⟨h5, by rw [h6 e, hD, eval_zero, zero_smul, add_zero]⟩
  refine ⟨ins, outs, pA, pB, pC, h1, h2, h3, hver, fun Δ => ?_⟩
  have hin := hcirc.inputs
  have hwi := hcirc.wires
  have hdom' : Domain.new (2 ^ (a + b)) = some dom := hcirc.size ▸ Domain.new_size hcirc.domain
  obtain ⟨q, eq, hd, -, -, la, lb, lc, -⟩ := C29_qap mats z hcirc.domain hcirc.rowsA hcirc.rowsB hcirc.colsA hcirc.colsB hcirc.wires
  rw [hcirc.size] at la lb lc
  have hfit := KeyFits.of_key hk
  have hcons : ∀ {T : Type} {v : List T}, v.length = z.length → ∃ x xs, v = x :: xs ∧ xs.length = z.length - 1 := by
    intro T v h
    cases v with
    | nil => simp at h; omega
    | cons x xs => exact ⟨x, xs, rfl, by simp at h; omega⟩
  obtain ⟨a0, as, hqa, las⟩ := hcons hfit.aQuery
  obtain ⟨b0, bs, hqb, lbs⟩ := hcons hfit.bG1Query
  obtain ⟨v0, vs, hqv, lvs⟩ := hcons hfit.bG2Query
  obtain ⟨crs, ec, hpub, hS, hU, hW, hH, hV⟩ := C33_pack_key hpp dbg pk hal hqa hqb hqv
  have hins := deal_with hpp dbg a hcirc eq hd la lb lc ec gen1 gen2 (2 ^ b) r s tape h1
  have hrs : ∀ p < 4 * 2 ^ b, (ins p).r = rs.getD p 0 ∧ (ins p).s = ss.getD p 0 := by
    intro p hp
    obtain ⟨-, -, -, e1, e2, -⟩ := deal_parts (p := p) (x := ins p) (by rw [h1]; simp [partOf, hp])
    rw [er] at e1
    rw [es] at e2
    exact ⟨by rw [List.getD_eq_getElem?_getD]; exact (congrArg (·.getD 0) (e1 : rs[p]? = _)).symm,
      by rw [List.getD_eq_getElem?_getD]; exact (congrArg (·.getD 0) (e2 : ss[p]? = _)).symm⟩
  have f := dealtWith_facts hpp a mats.numInstanceVariables q z dom2.groupGen dom hd crs gen1 gen2 (fun p => (ins p).r) (fun p => (ins p).s) tape
  have hI : ∀ i : Fin (4 * 2 ^ b), ins i = dealtWith pp a b mats.numInstanceVariables q z dom2.groupGen dom crs gen1 gen2 tape i (ins i).r (ins i).s :=
    fun i => hins i i.2
  obtain ⟨o, hh, hr'⟩ := run_spoiled hpp hgen hε ha hdom' hcirc.double hpub hS hU hW hH hV (z := z)
    (ni := mats.numInstanceVariables) (by simp [las]) (by simp [lbs]) (by simp [lvs]) (by simp [hfit.lQuery]) hfit.hQuery f
    (hr0'.imp (fun h p hp => by rw [show _ = (ins p).r from rfl, (hrs p hp).1]; exact h p hp)
      fun h p hp => by rw [show _ = (ins p).r from rfl, (hrs p hp).1]; exact h p hp) rng Δ
  have eo : ∀ p < 4 * 2 ^ b, o p = outs p := by
    have hh' : AlwaysYields (Net.init fun i : Fin (4 * 2 ^ b) => (ins i).run pp dbg (4 * 2 ^ b) i rng) (fun i : Fin (4 * 2 ^ b) => o i) := by
      refine cast ?_ hh
      congr 2
      funext i
      rw [← hI i]
    exact fun p hp => congrFun (AlwaysYields.unique hh' h2) ⟨p, hp⟩
  refine ⟨fun p => ((outs p).1 + Δ.a, (outs p).2.1 + Δ.b2, (outs p).2.2 + ((ins p).s • Δ.a + (ins p).r • Δ.b1 + (Δ.w + Δ.u))), ?_, ?_, fun e => ?_⟩
  · refine cast ?_ hr'
    congr 1
    · congr 1
      funext i
      rw [← hI i]
      by_cases hi : ε i = 0
      · rw [if_pos hi, hi, run_tampered_zero]
      · rw [if_neg hi]
    · funext i
      rw [← hI i, eo i i.2]
  · have k1 := oA.addConst hpp Δ.a
    have k2 := oB.addConst hpp Δ.b2
    have k3 : HoldsProduct pp b (fun p => (outs p).2.2 + ((ins p).s • Δ.a + (ins p).r • Δ.b1 + (Δ.w + Δ.u)))
        (pC + (s • Δ.a + r • Δ.b1 + (Δ.w + Δ.u))) := by
      refine oC.add hpp (((HoldsProduct.add hpp (hs.mulConst hpp Δ.a).product (hr.mulConst hpp Δ.b1).product).add hpp
        (HoldsValue.product (HoldsValue.const hpp (Δ.w + Δ.u)))).congr fun p hp => ?_)
      rw [(hrs p hp).1, (hrs p hp).2]
    unfold PSS.openProof
    simp only [List.map_map, Function.comp_def]
    have hb0 : 0 < 2 ^ b := by positivity
    rw [k1.unpack2 hpp dbg, ok_bind, rd_getD 0 (by simp), ok_bind, k2.unpack2 hpp dbg, ok_bind, rd_getD 0 (by simp), ok_bind,
      k3.unpack2 hpp dbg, ok_bind, rd_getD 0 (by simp), ok_bind, getD_replicate', if_pos hb0, getD_replicate', if_pos hb0,
      getD_replicate', if_pos hb0]
    rfl
  · exact verifies_shift (hver e) _ _ _

/-! ### Guessing -/

theorem shares_of_r {dbg₀ : Bool} {b : Nat} {pp : PSS F} (hpp : PSS.new dbg₀ (2 ^ b) = .ok pp) {dbg : Bool} {mats : ConstraintMatrices F} {z : List F}
    {pk : ProvingKey G1 G2} {gen1 : G1} {gen2 : G2} {r s : F} {tape : ClientTape F G1 G2} {ins : Nat → ServerInput F G1 G2}
    (hdeal : pp.deal dbg (2 ^ b) mats z pk gen1 gen2 r s tape = .ok ((List.range (4 * 2 ^ b)).map ins))
    (hr0 : ∀ rs, pp.pack dbg (List.replicate (2 ^ b) r) tape.r = .ok rs → (∀ x ∈ rs, x ≠ 0) ∨ ∀ x ∈ rs, x = 0) :
    (∀ p < 4 * 2 ^ b, (ins p).r ≠ 0) ∨ ∀ p < 4 * 2 ^ b, (ins p).r = 0 := by
  obtain ⟨rs, er, lr, hr⟩ := pack_holdsValue hpp dbg r tape.r
  have hmem : ∀ p < 4 * 2 ^ b, (ins p).r ∈ rs := by
    intro p hp
    obtain ⟨-, -, -, e1, -⟩ := deal_parts (p := p) (x := ins p) (by rw [hdeal]; simp [partOf, hp])
    rw [er] at e1
    exact List.mem_of_getElem? (e1 : rs[p]? = _)
  exact (hr0 rs er).imp (fun h p hp => h _ (hmem p hp)) fun h p hp => h _ (hmem p hp)

/-- What the client opens after an honest session. -/
theorem opened_form {dbg₀ : Bool} {b : Nat} {pp : PSS F} (hpp : PSS.new dbg₀ (2 ^ b) = .ok pp) (dbg : Bool) (a : Nat) (ha : a < 64)
    {mats : ConstraintMatrices F} {z : List F} {dom dom2 : Domain F} (hcirc : Circuit a b mats z dom dom2)
    (hsat : Satisfies mats.numConstraints mats.a mats.b mats.c z) {pa pb pc : Nat → F[X]}
    (hqap : IsQap mats z.length dom.groupGen (2 ^ (a + b)) pa pb pc) {t : Toxic F} {g1 : G1} {g2 : G2} {pk : ProvingKey G1 G2}
    (hk : IsCircomKey t g1 g2 z.length mats.numInstanceVariables (2 ^ (a + b)) dom2.groupGen pa pb pc pk) (hγ : t.gamma ≠ 0)
    (hδ : t.delta ≠ 0) (hal : dbg = true → KeyAligned (2 ^ b) pk) {gen1 : G1} {gen2 : G2} {r s : F} {tape : ClientTape F G1 G2}
    (hr0 : ∀ rs, pp.pack dbg (List.replicate (2 ^ b) r) tape.r = .ok rs → (∀ x ∈ rs, x ≠ 0) ∨ ∀ x ∈ rs, x = 0)
    {rng : Nat → Nat → Nat → F} {ins : Nat → ServerInput F G1 G2} {outs : Nat → G1 × G2 × G1} {pA : G1} {pB : G2} {pC : G1}
    (hdeal : pp.deal dbg (2 ^ b) mats z pk gen1 gen2 r s tape = .ok ((List.range (4 * 2 ^ b)).map ins))
    (hrun : AlwaysYields (Net.init fun i : Fin (4 * 2 ^ b) => (ins i).run pp dbg (4 * 2 ^ b) i rng) (fun i => outs i))
    (hopen : pp.openProof dbg ((List.range (4 * 2 ^ b)).map outs) = .ok (pA, pB, pC)) :
    ∃ hz, IsGroth16Proof t g1 g2 mats.numInstanceVariables pa pb pc z hz r s pA pB pC := by
  obtain ⟨h, -, H⟩ := C59_groth16_proof hpp dbg a ha hcirc hsat hqap hk hγ hδ hal gen1 gen2
  obtain ⟨ins', hdeal', H⟩ := H r s tape
  obtain ⟨outs', pA', pB', pC', hrun', hopen', hform⟩ := H (shares_of_r hpp hdeal' hr0) rng
  have ei : ∀ p < 4 * 2 ^ b, ins' p = ins p := fun p hp =>
    List.map_inj_left.1 (Except.ok.inj (hdeal'.symm.trans hdeal)) p (List.mem_range.2 hp)
  have hrun'' : AlwaysYields (Net.init fun i : Fin (4 * 2 ^ b) => (ins i).run pp dbg (4 * 2 ^ b) i rng) (fun i => outs' i) := by
    refine cast ?_ hrun'
    congr 2
    funext i
    rw [ei i i.2]
  have eo : (List.range (4 * 2 ^ b)).map outs' = (List.range (4 * 2 ^ b)).map outs := List.map_inj_left.2 fun p hp =>
    congrFun (AlwaysYields.unique hrun'' hrun) ⟨p, List.mem_range.1 hp⟩
  rw [eo, hopen] at hopen'
  simp only [Except.ok.injEq, Prod.mk.injEq] at hopen'
  obtain ⟨rfl, rfl, rfl⟩ := hopen'
  exact ⟨_, hform⟩

omit [FftField F] [DecidableEq F] [FixedWire F] [DecidableEq G1] [FixedWire G1] [DecidableEq G2] [FixedWire G2] in
theorem sum_query {G : Type} [AddCommGroup G] [Module F G] (g : G) (f : Nat → F) {q : List G} {n : Nat} (hq : q = (List.range n).map fun k => f k • g)
    {z : List F} (hz : z.length = n) :
    ∑ i ∈ range z.length, z.getD i 0 • q.getD i 0 = (∑ k ∈ range n, z.getD k 0 * f k) • g := by
  rw [hz, sum_smul]
  refine sum_congr rfl fun i hi => ?_
  rw [hq, getD_map_range, if_pos (mem_range.1 hi), smul_smul]

omit [FftField F] [DecidableEq F] [FixedWire F] [DecidableEq G1] [FixedWire G1] [DecidableEq G2] [FixedWire G2] in
theorem smul_inj {G : Type} [AddCommGroup G] [Module F G] {g : G} (hg : g ≠ 0) {x y : F} : x • g = y • g ↔ x = y := by
  rw [← sub_eq_zero, ← sub_smul, smul_eq_zero, sub_eq_zero, or_iff_left hg]

/-- The equation of C78 for a guess about the sum over the `b` query. -/
theorem guessB_iff {t : Toxic F} {g1 : G1} {g2 : G2} {nw ni m : Nat} {w : F} {pa pb pc : Nat → F[X]} {pk : ProvingKey G1 G2}
    (hk : IsCircomKey t g1 g2 nw ni m w pa pb pc pk) (hδ : t.delta ≠ 0) {e : G1 →ₗ[F] G2 →ₗ[F] GT} (he : e g1 g2 ≠ 0) {z z' : List F}
    (hz : z.length = nw) (hz' : z'.length = nw) {hz₀ r s : F} {pA pC : G1} {pB : G2} (h : IsGroth16Proof t g1 g2 ni pa pb pc z hz₀ r s pA pB pC) :
    let Δ := guessB pk z'
    e pA Δ.b2 + e Δ.a pB + e Δ.a Δ.b2 = e (s • Δ.a + r • Δ.b1 + (Δ.w + Δ.u)) pk.vk.deltaG2 ↔
      ∑ i ∈ range z'.length, z'.getD i 0 • pk.bG2Query.getD i 0 = ∑ i ∈ range z.length, z.getD i 0 • pk.bG2Query.getD i 0 := by
  intro Δ
  have hg2 : g2 ≠ 0 := fun h => he (by rw [h, map_zero])
  rw [sum_query g2 _ hk.bG2Query hz, sum_query g2 _ hk.bG2Query hz', smul_inj hg2]
  simp only [Δ, guessB, map_zero, smul_zero, add_zero, zero_add]
  rw [sum_query g1 _ hk.bG1Query hz', h.B, hk.deltaG1, hk.deltaG2, hk.betaG1, hz, ← add_smul, smul_smul, ← add_smul]
  simp only [map_smul, LinearMap.smul_apply, smul_smul]
  rw [smul_inj he]
  constructor
  · intro h
    have h : t.delta * ((∑ k ∈ range nw, z'.getD k 0 * (pb k).eval t.tau) - ∑ k ∈ range nw, z.getD k 0 * (pb k).eval t.tau) = 0 := by
      linear_combination -h
    exact sub_eq_zero.1 ((mul_eq_zero.1 h).resolve_left hδ)
  · intro h
    rw [h]
    ring

/-- The equation of C78 for a guess about the sum over the `a` query. -/
theorem guessA_iff {t : Toxic F} {g1 : G1} {g2 : G2} {nw ni m : Nat} {w : F} {pa pb pc : Nat → F[X]} {pk : ProvingKey G1 G2}
    (hk : IsCircomKey t g1 g2 nw ni m w pa pb pc pk) (hδ : t.delta ≠ 0) {e : G1 →ₗ[F] G2 →ₗ[F] GT} (he : e g1 g2 ≠ 0) {z z' : List F}
    (hz : z.length = nw) (hz' : z'.length = nw) {hz₀ r s : F} {pA pC : G1} {pB : G2} (h : IsGroth16Proof t g1 g2 ni pa pb pc z hz₀ r s pA pB pC) :
    let Δ := guessA pk z'
    e pA Δ.b2 + e Δ.a pB + e Δ.a Δ.b2 = e (s • Δ.a + r • Δ.b1 + (Δ.w + Δ.u)) pk.vk.deltaG2 ↔
      ∑ i ∈ range z'.length, z'.getD i 0 • pk.aQuery.getD i 0 = ∑ i ∈ range z.length, z.getD i 0 • pk.aQuery.getD i 0 := by
  intro Δ
  have hg1 : g1 ≠ 0 := fun h => he (by rw [h, map_zero, LinearMap.zero_apply])
  rw [sum_query g1 _ hk.aQuery hz, sum_query g1 _ hk.aQuery hz', smul_inj hg1]
  simp only [Δ, guessA, map_zero, smul_zero, add_zero, zero_add, LinearMap.zero_apply]
  rw [sum_query g1 _ hk.aQuery hz', h.A, hk.deltaG1, hk.deltaG2, hk.alphaG1, hz, ← add_smul, smul_smul, ← add_smul]
  simp only [map_smul, LinearMap.smul_apply, smul_smul]
  rw [smul_inj he]
  constructor
  · intro h
    have h : t.delta * ((∑ k ∈ range nw, z'.getD k 0 * (pa k).eval t.tau) - ∑ k ∈ range nw, z.getD k 0 * (pa k).eval t.tau) = 0 := by
      linear_combination -h
    exact sub_eq_zero.1 ((mul_eq_zero.1 h).resolve_left hδ)
  · intro h
    rw [h]
    ring

/-- **C106** A king who guesses. It adds points of the proving key to its answers, according to a guess `z'` of the whole assignment. No server
notices. The proof that the client opens is accepted exactly if the guess has the right sum over the `b` query (for `guessB`) or over the `a`
query (for `guessA`), whatever `r`, `s` and the masks are. So a king who hears whether the proof was accepted tests a guess. -/
theorem C106_king {dbg₀ : Bool} {b : Nat} {pp : PSS F} (hpp : PSS.new dbg₀ (2 ^ b) = .ok pp) (dbg : Bool) (a : Nat) (ha : a < 64)
    {mats : ConstraintMatrices F} {z : List F} {dom dom2 : Domain F} (hcirc : Circuit a b mats z dom dom2)
    (hsat : Satisfies mats.numConstraints mats.a mats.b mats.c z) {pa pb pc : Nat → F[X]}
    (hqap : IsQap mats z.length dom.groupGen (2 ^ (a + b)) pa pb pc) {t : Toxic F} {g1 : G1} {g2 : G2} {pk : ProvingKey G1 G2}
    (hk : IsCircomKey t g1 g2 z.length mats.numInstanceVariables (2 ^ (a + b)) dom2.groupGen pa pb pc pk) (hγ : t.gamma ≠ 0)
    (hδ : t.delta ≠ 0) (hal : dbg = true → KeyAligned (2 ^ b) pk) (gen1 : G1) (gen2 : G2) (r s : F) (tape : ClientTape F G1 G2)
    (hr0 : ∀ rs, pp.pack dbg (List.replicate (2 ^ b) r) tape.r = .ok rs → (∀ x ∈ rs, x ≠ 0) ∨ ∀ x ∈ rs, x = 0)
    (rng : Nat → Nat → Nat → F) (e : G1 →ₗ[F] G2 →ₗ[F] GT) (he : e g1 g2 ≠ 0) :
    ∃ ins : Nat → ServerInput F G1 G2, pp.deal dbg (2 ^ b) mats z pk gen1 gen2 r s tape = .ok ((List.range (4 * 2 ^ b)).map ins) ∧
      ∀ z' : List F, z'.length = z.length →
        (∃ (outs : Nat → G1 × G2 × G1) (pA : G1) (pB : G2) (pC : G1),
          AlwaysYields (Net.init fun i : Fin (4 * 2 ^ b) => if i.val = 0 then runShift pp dbg (4 * 2 ^ b) 0 (guessB pk z') (ins 0) rng else
            (ins i).run pp dbg (4 * 2 ^ b) i rng) (fun i => outs i) ∧
          pp.openProof dbg ((List.range (4 * 2 ^ b)).map outs) = .ok (pA, pB, pC) ∧
          (Verifies e pk.vk ((z.take mats.numInstanceVariables).drop 1) pA pB pC ↔
            ∑ i ∈ range z'.length, z'.getD i 0 • pk.bG2Query.getD i 0 = ∑ i ∈ range z.length, z.getD i 0 • pk.bG2Query.getD i 0)) ∧
        ∃ (outs : Nat → G1 × G2 × G1) (pA : G1) (pB : G2) (pC : G1),
          AlwaysYields (Net.init fun i : Fin (4 * 2 ^ b) => if i.val = 0 then runShift pp dbg (4 * 2 ^ b) 0 (guessA pk z') (ins 0) rng else
            (ins i).run pp dbg (4 * 2 ^ b) i rng) (fun i => outs i) ∧
          pp.openProof dbg ((List.range (4 * 2 ^ b)).map outs) = .ok (pA, pB, pC) ∧
          (Verifies e pk.vk ((z.take mats.numInstanceVariables).drop 1) pA pB pC ↔
            ∑ i ∈ range z'.length, z'.getD i 0 • pk.aQuery.getD i 0 = ∑ i ∈ range z.length, z.getD i 0 • pk.aQuery.getD i 0) := by
  obtain ⟨ins, outs, pA, pB, pC, h1, h2, h3, -, h⟩ := C78_session (GT := GT) hpp dbg a ha hcirc hsat hqap hk hγ hδ hal gen1 gen2 r s tape hr0 rng
  obtain ⟨hz, hform⟩ := opened_form hpp dbg a ha hcirc hsat hqap hk hγ hδ hal hr0 h1 h2 h3
  refine ⟨ins, h1, fun z' hz' => ⟨?_, ?_⟩⟩
  · obtain ⟨outs', k1, k2, k3⟩ := h (guessB pk z')
    exact ⟨outs', _, _, _, k1, k2, (k3 e).trans (guessB_iff hk hδ he rfl hz' hform)⟩
  · obtain ⟨outs', k1, k2, k3⟩ := h (guessA pk z')
    exact ⟨outs', _, _, _, k1, k2, (k3 e).trans (guessA_iff hk hδ he rfl hz' hform)⟩

/-- **C106** Servers who guess. With errors that are unnoticed, servers other than the king do the same: each of them runs the code of the
repository, on its input with some points added to the masks. -/
theorem C106_servers {dbg₀ : Bool} {b : Nat} {pp : PSS F} (hpp : PSS.new dbg₀ (2 ^ b) = .ok pp)
    (hgen : (FftField.GENERATOR : F) ^ (4 * 2 ^ b) ≠ 1) {dbg : Bool} {ε : Nat → F} (hε : Unnoticed pp dbg b ε) (a : Nat) (ha : a < 64)
    {mats : ConstraintMatrices F} {z : List F} {dom dom2 : Domain F} (hcirc : Circuit a b mats z dom dom2)
    (hsat : Satisfies mats.numConstraints mats.a mats.b mats.c z) {pa pb pc : Nat → F[X]}
    (hqap : IsQap mats z.length dom.groupGen (2 ^ (a + b)) pa pb pc) {t : Toxic F} {g1 : G1} {g2 : G2} {pk : ProvingKey G1 G2}
    (hk : IsCircomKey t g1 g2 z.length mats.numInstanceVariables (2 ^ (a + b)) dom2.groupGen pa pb pc pk) (hγ : t.gamma ≠ 0)
    (hδ : t.delta ≠ 0) (hal : dbg = true → KeyAligned (2 ^ b) pk) (gen1 : G1) (gen2 : G2) (r s : F) (tape : ClientTape F G1 G2)
    (hr0 : ∀ rs, pp.pack dbg (List.replicate (2 ^ b) r) tape.r = .ok rs → (∀ x ∈ rs, x ≠ 0) ∨ ∀ x ∈ rs, x = 0)
    (rng : Nat → Nat → Nat → F) (e : G1 →ₗ[F] G2 →ₗ[F] GT) (he : e g1 g2 ≠ 0) :
    ∃ ins : Nat → ServerInput F G1 G2, pp.deal dbg (2 ^ b) mats z pk gen1 gen2 r s tape = .ok ((List.range (4 * 2 ^ b)).map ins) ∧
      ∀ z' : List F, z'.length = z.length →
        (∃ (outs : Nat → G1 × G2 × G1) (pA : G1) (pB : G2) (pC : G1),
          AlwaysYields (Net.init fun i : Fin (4 * 2 ^ b) =>
            (if ε i = 0 then ins i else tampered (ε i) (guessB pk z') (ins i)).run pp dbg (4 * 2 ^ b) i rng) (fun i => outs i) ∧
          pp.openProof dbg ((List.range (4 * 2 ^ b)).map outs) = .ok (pA, pB, pC) ∧
          (Verifies e pk.vk ((z.take mats.numInstanceVariables).drop 1) pA pB pC ↔
            ∑ i ∈ range z'.length, z'.getD i 0 • pk.bG2Query.getD i 0 = ∑ i ∈ range z.length, z.getD i 0 • pk.bG2Query.getD i 0)) ∧
        ∃ (outs : Nat → G1 × G2 × G1) (pA : G1) (pB : G2) (pC : G1),
          AlwaysYields (Net.init fun i : Fin (4 * 2 ^ b) =>
            (if ε i = 0 then ins i else tampered (ε i) (guessA pk z') (ins i)).run pp dbg (4 * 2 ^ b) i rng) (fun i => outs i) ∧
          pp.openProof dbg ((List.range (4 * 2 ^ b)).map outs) = .ok (pA, pB, pC) ∧
          (Verifies e pk.vk ((z.take mats.numInstanceVariables).drop 1) pA pB pC ↔
            ∑ i ∈ range z'.length, z'.getD i 0 • pk.aQuery.getD i 0 = ∑ i ∈ range z.length, z.getD i 0 • pk.aQuery.getD i 0) := by
  obtain ⟨ins, outs, pA, pB, pC, h1, h2, h3, -, h⟩ := C106_clients (GT := GT) hpp hgen hε a ha hcirc hsat hqap hk hγ hδ hal gen1 gen2 r s tape hr0 rng
  obtain ⟨hz, hform⟩ := opened_form hpp dbg a ha hcirc hsat hqap hk hγ hδ hal hr0 h1 h2 h3
  refine ⟨ins, h1, fun z' hz' => ⟨?_, ?_⟩⟩
  · obtain ⟨outs', k1, k2, k3⟩ := h (guessB pk z')
    exact ⟨outs', _, _, _, k1, k2, (k3 e).trans (guessB_iff hk hδ he rfl hz' hform)⟩
  · obtain ⟨outs', k1, k2, k3⟩ := h (guessA pk z')
    exact ⟨outs', _, _, _, k1, k2, (k3 e).trans (guessA_iff hk hδ he rfl hz' hform)⟩

end servers

/-! ### Examples -/

theorem example_tape {tape : ClientTape (ZMod 17) (ZMod 17) (ZMod 17)} (htape : tape.r = fun _ => 5) (dbg : Bool) :
    ∀ rs, pp17.pack dbg (List.replicate (2 ^ 1) 5) tape.r = .ok rs → (∀ x ∈ rs, x ≠ 0) ∨ ∀ x ∈ rs, x = 0 := by
  intro rs hrs
  have : ∀ dbg, pp17.pack dbg (List.replicate (2 ^ 1) (5 : ZMod 17)) (fun _ => 5) = .ok (List.replicate 8 5) := by decide +kernel
  rw [htape, this] at hrs
  cases hrs
  left
  decide

/-- Server 5 of eight has a say, and servers 5 and 2 have different ratios. -/
theorem weights17 : msmWeight pp17.share.groupGen pp17.secret.offset (2 ^ 1) 5 ≠ 0 ∧
    msmWeight pp17.share.groupGen pp17.secret.offset (2 ^ 1) 2 * pp17.share.groupGen ^ 5 ≠
      msmWeight pp17.share.groupGen pp17.secret.offset (2 ^ 1) 5 * pp17.share.groupGen ^ 2 := by
  unfold msmWeight
  decide +kernel

/-- C106: at least seven of eight servers have a say, and server 5 has at least six possible helpers. -/
example : 6 < #{i ∈ range (4 * 2 ^ 1) | msmWeight pp17.share.groupGen pp17.secret.offset (2 ^ 1) i ≠ 0} ∧
    6 ≤ #{q ∈ range (4 * 2 ^ 1) | msmWeight pp17.share.groupGen pp17.secret.offset (2 ^ 1) q * pp17.share.groupGen ^ 5 ≠
      msmWeight pp17.share.groupGen pp17.secret.offset (2 ^ 1) 5 * pp17.share.groupGen ^ q} :=
  ⟨C106_weights (pp17_eq true) gen17, C106_helpers (pp17_eq true) gen17 5⟩

/-- C106: the client proves that it knows a root of 9; in a release build server 5 finds out by one session that it is 3 and not 14. -/
example (tape : ClientTape (ZMod 17) (ZMod 17) (ZMod 17)) (htape : tape.r = fun _ => 5) :
    ∃ (pk : ProvingKey (ZMod 17) (ZMod 17)) (ins : Nat → ServerInput (ZMod 17) (ZMod 17) (ZMod 17)),
      pp17.deal false (2 ^ 1) mats17 z17 pk 1 1 5 6 tape = .ok ((List.range (4 * 2 ^ 1)).map ins) ∧
      ∀ z', z' = z17 ∨ z' = [1, 9, 14] → ∃ (cheater : ServerInput (ZMod 17) (ZMod 17) (ZMod 17)) (outs : Nat → ZMod 17 × ZMod 17 × ZMod 17)
        (pA pB pC : ZMod 17),
        AlwaysYields (Net.init fun i : Fin (4 * 2 ^ 1) => (if i.val = 5 then cheater else ins i).run pp17 false (4 * 2 ^ 1) i fun _ i j => i + j)
          (fun i => outs i) ∧
        pp17.openProof false ((List.range (4 * 2 ^ 1)).map outs) = .ok (pA, pB, pC) ∧
        (Verifies (LinearMap.mul (ZMod 17) (ZMod 17)) pk.vk [9] pA pB pC ↔ z' = z17) := by
  obtain ⟨pa, pb, pc, pk, h1, h2⟩ := C35_key_exists circuit17 (⟨2, 3, 4, 5, 6⟩ : Toxic (ZMod 17)) (1 : ZMod 17) (1 : ZMod 17)
  have hw : pk.aQuery.getD 2 0 = 1 := by
    rw [h2.aQuery, getD_map_range, if_pos (by decide)]
    show (pa 2).eval 6 • (1 : ZMod 17) = 1
    rw [qap17_wire h1]
    rfl
  have hε := C106_one (pp17_eq true) (p := 5) (by norm_num) weights17.1
  obtain ⟨ins, hd, h⟩ := C106_servers (pp17_eq true) gen17 hε 1 (by norm_num) circuit17 mats17_sat h1 h2 (by decide) (by decide) (by simp) 1 1 5 6 tape
    (example_tape htape false) (fun _ i j => i + j) (LinearMap.mul (ZMod 17) (ZMod 17)) (by decide)
  refine ⟨pk, ins, hd, fun z' hz' => ?_⟩
  obtain ⟨-, outs, pA, pB, pC, k1, k2, k3⟩ := h z' (by rcases hz' with rfl | rfl <;> rfl)
  refine ⟨tampered (msmWeight pp17.share.groupGen pp17.secret.offset (2 ^ 1) 5)⁻¹ (guessA pk z') (ins 5), outs, pA, pB, pC, ?_, k2, k3.trans ?_⟩
  · refine cast ?_ k1
    congr 2
    funext i
    by_cases hi : i.val = 5
    · simp only [hi, if_true]
      rw [if_neg (inv_ne_zero weights17.1)]
    · simp only [hi, if_false, if_true]
  · rcases hz' with rfl | rfl
    · simp
    · refine ⟨fun h => ?_, fun h => absurd h (by decide)⟩
      simp only [z17, List.length_cons, List.length_nil, sum_range_succ, range_zero, sum_empty, zero_add, hw] at h
      simp at h
      exact absurd h (by decide)

/-- C106: in a debug build servers 5 and 2 do so together, with the example of C67; the king does so alone. -/
example (tape : ClientTape (ZMod 17) (ZMod 17) (ZMod 17)) (htape : tape.r = fun _ => 5) (z' : List (ZMod 17)) (hz' : z'.length = 5) :
    ∃ (pk : ProvingKey (ZMod 17) (ZMod 17)) (ins : Nat → ServerInput (ZMod 17) (ZMod 17) (ZMod 17)) (x y : ServerInput (ZMod 17) (ZMod 17) (ZMod 17))
      (king : Proc (ZMod 17 × ZMod 17 × ZMod 17)) (outs outs' : Nat → ZMod 17 × ZMod 17 × ZMod 17) (pA pB pC pA' pB' pC' : ZMod 17),
      pp17.deal true (2 ^ 1) mats17e z17e pk 1 1 5 6 tape = .ok ((List.range (4 * 2 ^ 1)).map ins) ∧
      AlwaysYields (Net.init fun i : Fin (4 * 2 ^ 1) => (if i.val = 5 then x else if i.val = 2 then y else ins i).run pp17 true (4 * 2 ^ 1) i
        fun _ i j => i + j) (fun i => outs i) ∧
      AlwaysYields (Net.init fun i : Fin (4 * 2 ^ 1) => if i.val = 0 then king else (ins i).run pp17 true (4 * 2 ^ 1) i
        fun _ i j => i + j) (fun i => outs' i) ∧
      pp17.openProof true ((List.range (4 * 2 ^ 1)).map outs) = .ok (pA, pB, pC) ∧
      pp17.openProof true ((List.range (4 * 2 ^ 1)).map outs') = .ok (pA', pB', pC') ∧
      (Verifies (LinearMap.mul (ZMod 17) (ZMod 17)) pk.vk [12, 5] pA pB pC ↔
        ∑ i ∈ range 5, z'.getD i 0 • pk.bG2Query.getD i 0 = ∑ i ∈ range 5, z17e.getD i 0 • pk.bG2Query.getD i 0) ∧
      (Verifies (LinearMap.mul (ZMod 17) (ZMod 17)) pk.vk [12, 5] pA' pB' pC' ↔
        ∑ i ∈ range 5, z'.getD i 0 • pk.bG2Query.getD i 0 = ∑ i ∈ range 5, z17e.getD i 0 • pk.bG2Query.getD i 0) := by
  obtain ⟨pa, pb, pc, pk, h1, h2⟩ := C35_key_exists circuit17e (⟨2, 3, 4, 5, 6⟩ : Toxic (ZMod 17)) (1 : ZMod 17) (1 : ZMod 17)
  have hsat : Satisfies mats17e.numConstraints mats17e.a mats17e.b mats17e.c z17e := fun i hi => by
    obtain rfl : i = 0 := by simpa [mats17e] using hi
    decide +kernel
  have hal : KeyAligned (2 ^ 1) pk := by
    unfold KeyAligned
    rw [h2.aQuery, h2.hQuery, h2.lQuery, h2.bG1Query, h2.bG2Query]
    simp only [List.length_map, List.length_range]
    decide
  obtain ⟨x, y, hε⟩ := C106_two pp17 true (b := 1) (p := 5) (q := 2) (by norm_num) (by norm_num) weights17.2
  obtain ⟨ins, hd, h⟩ := C106_servers (pp17_eq true) gen17 hε 1 (by norm_num) circuit17e hsat h1 h2 (by decide) (by decide) (fun _ => hal) 1 1 5 6 tape
    (example_tape htape true) (fun _ i j => i + j) (LinearMap.mul (ZMod 17) (ZMod 17)) (by decide)
  obtain ⟨ins', hd', h'⟩ := C106_king (pp17_eq true) true 1 (by norm_num) circuit17e hsat h1 h2 (by decide) (by decide) (fun _ => hal) 1 1 5 6 tape
    (example_tape htape true) (fun _ i j => i + j) (LinearMap.mul (ZMod 17) (ZMod 17)) (by decide)
  have ei : ∀ p < 4 * 2 ^ 1, ins' p = ins p := fun p hp =>
    List.map_inj_left.1 (Except.ok.inj (hd'.symm.trans hd)) p (List.mem_range.2 hp)
  obtain ⟨⟨outs, pA, pB, pC, k1, k2, k3⟩, -⟩ := h z' hz'
  obtain ⟨⟨outs', pA', pB', pC', k1', k2', k3'⟩, -⟩ := h' z' hz'
  rw [hz'] at k3 k3'
  refine ⟨pk, ins, if x = 0 then ins 5 else tampered x (guessB pk z') (ins 5), if y = 0 then ins 2 else tampered y (guessB pk z') (ins 2),
    runShift pp17 true (4 * 2 ^ 1) 0 (guessB pk z') (ins' 0) fun _ i j => i + j, outs, outs',
    pA, pB, pC, pA', pB', pC', hd, ?_, ?_, k2, k2', k3, k3'⟩
  · refine cast ?_ k1
    congr 2
    funext i
    by_cases hi : i.val = 5
    · simp only [hi, if_true]
    · by_cases hi2 : i.val = 2
      · simp [hi2]
      · simp only [hi, hi2, if_false, if_true]
  · refine cast ?_ k1'
    congr 2
    funext i
    rw [ei i i.2]

end ZkSaas.Properties
