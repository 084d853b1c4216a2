import Mathlib.Algebra.Group.Prod
import Mathlib.Algebra.Group.Pi.Basic
import Mathlib.Data.Fintype.Prod
import Mathlib.Data.Fintype.Pi
import Verif.Lemmas.Prob
import Verif.Properties.ZeroKnowledge
import Verif.Properties.Chance

/-!
# C100: how well `l` servers and the verifier can tell two assignments apart, over many sessions
-/

set_option linter.unusedSectionVars false

namespace ZkSaas.Properties

open Spec Polynomial Finset

variable {F : Type} [Field F] [DecidableEq F] {G1 G2 : Type} [AddCommGroup G1] [Module F G1] [DecidableEq G1] [AddCommGroup G2] [Module F G2] [DecidableEq G2]

/-! ### Only finitely many values are drawn -/

section
variable {T : Type} [AddCommGroup T] [Module F T] {pp : PSS F}

theorem freshVec_congr (hg : pp.Good) {M : Nat} {sec sec' : Nat → List T} {rng rng' : Nat → Nat → T} (h : ∀ c < M, sec c = sec' c)
    (h' : ∀ c < M, ∀ j < pp.l, rng c j = rng' c j) (p : Nat) : pp.freshVec M sec rng p = pp.freshVec M sec' rng' p := by
  unfold PSS.freshVec PSS.evalVec
  refine List.map_congr_left fun c hc => ?_
  have hc := List.mem_range.1 hc
  have e : pp.packCoeffs (sec c) (rng c) = pp.packCoeffs (sec' c) (rng' c) := by
    unfold PSS.packCoeffs
    rw [h c hc, hg.t_eq, List.map_congr_left fun j hj => h' c hc j (List.mem_range.1 hj)]
  simp only [e]

/-- Two tapes for masks of vectors agree on their first `N` values. -/
def VecAgree (N : Nat) (t t' : VecTape F) : Prop :=
  (∀ i < N, t.vals i = t'.vals i) ∧ (∀ c < N, ∀ i < N, t.rngIn c i = t'.rngIn c i) ∧ ∀ c < N, ∀ i < N, t.rngOut c i = t'.rngOut c i

/-- Two tapes for masks of sums agree on their first `N` values. -/
def MsmAgree (N : Nat) (t t' : MsmTape F T) : Prop :=
  (∀ i < N, t.vals i = t'.vals i) ∧ (∀ i < N, t.rngIn i = t'.rngIn i) ∧ ∀ i < N, t.rngOut i = t'.rngOut i

theorem fftDealt_congr (hg : pp.Good) {a b N : Nat} (hlb : pp.l = 2 ^ b) (hN : 2 ^ (a + b) ≤ N) {t t' : VecTape F} (h : VecAgree N t t')
    (rearrange : Bool) (g gen : F) (p : Nat) : pp.fftDealt a b rearrange g gen t p = pp.fftDealt a b rearrange g gen t' p := by
  obtain ⟨h1, h2, h3⟩ := h
  have ha : 2 ^ a ≤ N := le_trans (Nat.pow_le_pow_right (by norm_num) (by omega)) hN
  have hb : pp.l ≤ N := hlb ▸ le_trans (Nat.pow_le_pow_right (by norm_num) (by omega)) hN
  unfold PSS.fftDealt
  rw [List.map_congr_left fun i hi => h1 i (lt_of_lt_of_le (List.mem_range.1 hi) hN)]
  congr 1
  · refine freshVec_congr hg (fun c hc => List.map_congr_left fun j hj => ?_) (fun c hc j hj => h2 c (by omega) j (by omega)) p
    exact h1 _ (lt_of_lt_of_le (slot_lt _ hc (List.mem_range.1 hj)) hN)
  · exact freshVec_congr hg (fun _ _ => rfl) (fun c hc j hj => h3 c (by omega) j (by omega)) p

theorem degDealt_congr (hg : pp.Good) {M N : Nat} (hN : M * pp.l ≤ N) (hM : M ≤ N) (hl : pp.l ≤ N) {t t' : VecTape F} (h : VecAgree N t t') (p : Nat) :
    pp.degDealt M t p = pp.degDealt M t' p := by
  obtain ⟨h1, h2, h3⟩ := h
  have hlt : ∀ c < M, ∀ j < pp.l, c * pp.l + j < N := fun c hc j hj => by
    have := Nat.mul_le_mul_right pp.l (show c + 1 ≤ M from hc)
    rw [Nat.add_mul, one_mul] at this
    omega
  unfold PSS.degDealt
  congr 1
  · exact freshVec_congr hg (fun c hc => List.map_congr_left fun j hj => h1 _ (hlt c hc j (List.mem_range.1 hj))) (fun c hc j hj => h2 c (by omega) j (by omega)) p
  · exact freshVec_congr hg (fun c hc => List.map_congr_left fun j hj => congrArg Neg.neg (h1 _ (hlt c hc j (List.mem_range.1 hj))))
      (fun c hc j hj => h3 c (by omega) j (by omega)) p

theorem msmDealt_congr [DecidableEq T] (hg : pp.Good) {N : Nat} (hl : pp.l ≤ N) (gen : T) {t t' : MsmTape F T} (h : MsmAgree N t t') (p : Nat) :
    pp.msmDealt gen t p = pp.msmDealt gen t' p := by
  obtain ⟨h1, h2, h3⟩ := h
  have e : ((List.range pp.l).map fun i => t.vals i • gen) = (List.range pp.l).map fun i => t'.vals i • gen :=
    List.map_congr_left fun i hi => by rw [h1 i (lt_of_lt_of_le (List.mem_range.1 hi) hl)]
  unfold PSS.msmDealt
  rw [e]
  congr 2
  · exact freshVec_congr hg (fun _ _ => rfl) (fun c hc j hj => h2 j (by omega)) p
  · exact freshVec_congr hg (fun _ _ => rfl) (fun c hc j hj => h3 j (by omega)) p

end

/-- Two tapes of the client agree on the first `N` values of every sequence. -/
structure TapesAgree (N : Nat) (t t' : ClientTape F G1 G2) : Prop where
  r : ∀ i < N, t.r i = t'.r i
  s : ∀ i < N, t.s i = t'.s i
  qapA : ∀ c < N, ∀ i < N, t.qapA c i = t'.qapA c i
  qapB : ∀ c < N, ∀ i < N, t.qapB c i = t'.qapB c i
  qapC : ∀ c < N, ∀ i < N, t.qapC c i = t'.qapC c i
  a : ∀ c < N, ∀ i < N, t.a c i = t'.a c i
  ax : ∀ c < N, ∀ i < N, t.ax c i = t'.ax c i
  fft : ∀ k < 6, VecAgree N (t.fft k) (t'.fft k)
  degred : VecAgree N t.degred t'.degred
  msm1 : ∀ k < 4, MsmAgree N (t.msm1 k) (t'.msm1 k)
  msm2 : MsmAgree N t.msm2 t'.msm2

theorem numChunks_le {T : Type} (v : List T) {l : Nat} (hl : 0 < l) : numChunks v l ≤ v.length := by
  unfold numChunks
  rcases Nat.eq_zero_or_pos v.length with h | h
  · rw [h, Nat.zero_add, Nat.div_eq_of_lt (by omega)]
  · rw [Nat.div_le_iff_le_mul hl]
    have := Nat.le_mul_of_pos_right v.length hl
    omega

theorem dealtInput_congr {pp : PSS F} (hg : pp.Good) {a b N : Nat} (hlb : pp.l = 2 ^ b) (hN : 2 ^ (a + b) ≤ N) {z : List F} (hz : z.length ≤ N)
    {t t' : ClientTape F G1 G2} (h : TapesAgree N t t') (ni : Nat) (q : QAP F) (root : F) (dom : Domain F)
    (crs : Nat → PackedProvingKeyShare G1 G2) (gen1 : G1) (gen2 : G2) (r s : F) (p : Nat) :
    dealtInput pp a b ni q z root dom crs gen1 gen2 r s t p = dealtInput pp a b ni q z root dom crs gen1 gen2 r s t' p := by
  have ha : 2 ^ a ≤ N := le_trans (Nat.pow_le_pow_right (by norm_num) (by omega)) hN
  have hb : pp.l ≤ N := hlb ▸ le_trans (Nat.pow_le_pow_right (by norm_num) (by omega)) hN
  have hc : ∀ k, numChunks (z.drop k) (2 ^ b) ≤ N := fun k => (numChunks_le _ (by positivity)).trans ((List.length_drop ..).le.trans (by omega))
  have e1 := freshVec_congr hg (M := 2 ^ a) (sec := qapSecrets a b q.a) (fun _ _ => rfl) (fun c hc j hj => h.qapA c (by omega) j (by omega)) p
  have e2 := freshVec_congr hg (M := 2 ^ a) (sec := qapSecrets a b q.b) (fun _ _ => rfl) (fun c hc j hj => h.qapB c (by omega) j (by omega)) p
  have e3 := freshVec_congr hg (M := 2 ^ a) (sec := qapSecrets a b q.c) (fun _ _ => rfl) (fun c hc j hj => h.qapC c (by omega) j (by omega)) p
  have e4 := freshVec_congr hg (M := numChunks (z.drop 1) (2 ^ b)) (sec := fun c => chunks (2 ^ b) (fun i => (z.drop 1).getD i 0) c) (fun _ _ => rfl)
    (fun c hc' j hj => h.a c (lt_of_lt_of_le hc' (hc 1)) j (by omega)) p
  have e5 := freshVec_congr hg (M := numChunks (z.drop ni) (2 ^ b)) (sec := fun c => chunks (2 ^ b) (fun i => (z.drop ni).getD i 0) c) (fun _ _ => rfl)
    (fun c hc' j hj => h.ax c (lt_of_lt_of_le hc' (hc ni)) j (by omega)) p
  have e6 := freshVec_congr hg (M := 1) (sec := fun _ => List.replicate (2 ^ b) r) (rng := fun _ => t.r) (rng' := fun _ => t'.r) (fun _ _ => rfl)
    (fun c hc j hj => h.r j (by omega)) p
  have e7 := freshVec_congr hg (M := 1) (sec := fun _ => List.replicate (2 ^ b) s) (rng := fun _ => t.s) (rng' := fun _ => t'.s) (fun _ _ => rfl)
    (fun c hc j hj => h.s j (by omega)) p
  have ef := fun k (hk : k < 6) rearrange g gen => fftDealt_congr hg hlb hN (h.fft k hk) rearrange g gen p
  have ed := degDealt_congr hg (M := 2 ^ a) (by rw [hlb, ← pow_add]; exact hN) ha hb h.degred p
  have em := fun k (hk : k < 4) => msmDealt_congr hg hb gen1 (h.msm1 k hk) p
  unfold dealtInput
  rw [e1, e2, e3, e4, e5, e6, e7, ef 0 (by norm_num), ef 1 (by norm_num), ef 2 (by norm_num), ef 3 (by norm_num), ef 4 (by norm_num), ef 5 (by norm_num),
    ed, em 0 (by norm_num), em 1 (by norm_num), em 2 (by norm_num), em 3 (by norm_num), msmDealt_congr hg hb gen2 h.msm2 p]

variable [FftField F] [FixedWire F] [FixedWire G1] [FixedWire G2]

theorem deal_congr {dbg₀ : Bool} {b : Nat} {pp : PSS F} (hpp : PSS.new dbg₀ (2 ^ b) = .ok pp) (dbg : Bool) {a : Nat}
    {mats : ConstraintMatrices F} {z : List F} {dom dom2 : Domain F} (hcirc : Circuit a b mats z dom dom2) {pk : ProvingKey G1 G2}
    (hk : KeyFits z.length mats.numInstanceVariables (2 ^ (a + b)) pk) (hal : dbg = true → KeyAligned (2 ^ b) pk) {N : Nat} (hN : 2 ^ (a + b) ≤ N)
    (hz : z.length ≤ N) (gen1 : G1) (gen2 : G2) (r s : F) {t t' : ClientTape F G1 G2} (h : TapesAgree N t t') :
    pp.deal dbg (2 ^ b) mats z pk gen1 gen2 r s t = pp.deal dbg (2 ^ b) mats z pk gen1 gen2 r s t' := by
  have hin := hcirc.inputs
  have hwi := hcirc.wires
  obtain ⟨q, eq, hd, hni, hnc, la, lb, lc, -⟩ := C29_qap mats z hcirc.domain hcirc.rowsA hcirc.rowsB hcirc.colsA hcirc.colsB hcirc.wires
  rw [hcirc.size] at la lb lc
  have hcons : ∀ {T : Type} {v : List T}, v.length = z.length → ∃ x xs, v = x :: xs := by
    intro T v h
    cases v with
    | nil => simp at h; omega
    | cons x xs => exact ⟨x, xs, rfl⟩
  obtain ⟨a0, as, hqa⟩ := hcons hk.aQuery
  obtain ⟨b0, bs, hqb⟩ := hcons hk.bG1Query
  obtain ⟨v0, vs, hqv⟩ := hcons hk.bG2Query
  obtain ⟨crs, ec, -⟩ := C33_pack_key hpp dbg pk hal hqa hqb hqv
  rw [deal_dealt hpp dbg a hcirc eq hd la lb lc ec, deal_dealt hpp dbg a hcirc eq hd la lb lc ec]
  congr 1
  exact List.map_congr_left fun p _ => dealtInput_congr (PSS.good_of_new hpp) (l_eq hpp) hN hz h _ _ _ _ _ _ _ _ _ _

/-! ### Shifting the draws -/

set_option synthInstance.maxSize 4000 in
instance drawsGroup (N : Nat) : AddCommGroup (Draws F G1 G2 N) := inferInstance

instance drawsNonempty (N : Nat) : Nonempty (Draws F G1 G2 N) := ⟨0⟩

set_option synthInstance.maxSize 4000 in
noncomputable instance drawsFintype [Fintype F] [Fintype G1] [Fintype G2] (N : Nat) : Fintype (Draws F G1 G2 N) := inferInstance

/-- The draws that go with a tape. -/
def cut (N : Nat) (c d : F) (δ : ClientTape F G1 G2) : Draws F G1 G2 N :=
  ((c, d), (fun i => δ.r i, fun i => δ.s i),
    ![fun c i => δ.qapA c i, fun c i => δ.qapB c i, fun c i => δ.qapC c i, fun c i => δ.a c i, fun c i => δ.ax c i],
    fun k => (fun i => (δ.fft k).vals i, fun c i => (δ.fft k).rngIn c i, fun c i => (δ.fft k).rngOut c i),
    (fun i => δ.degred.vals i, fun c i => δ.degred.rngIn c i, fun c i => δ.degred.rngOut c i),
    fun k => (fun i => (δ.msm1 k).vals i, fun i => (δ.msm1 k).rngIn i, fun i => (δ.msm1 k).rngOut i),
    (fun i => δ.msm2.vals i, fun i => δ.msm2.rngIn i, fun i => δ.msm2.rngOut i))

section
variable {T : Type} {N : Nat}

theorem seq_of_lt [Zero T] (f : Fin N → T) {i : Nat} (h : i < N) : seq f i = f ⟨i, h⟩ := dif_pos h

theorem seqs_of_lt [Zero T] (f : Fin N → Fin N → T) {c i : Nat} (hc : c < N) (hi : i < N) : seqs f c i = f ⟨c, hc⟩ ⟨i, hi⟩ := by
  rw [seqs, dif_pos hc, seq_of_lt _ hi]

end

theorem agree_shift {N : Nat} (x : Draws F G1 G2 N) (c d : F) (δ : ClientTape F G1 G2) :
    TapesAgree N (clientTape (x + cut N c d δ)) ((clientTape x).add δ) where
  r := fun i hi => by simp only [clientTape, ClientTape.add, seq_of_lt _ hi]; rfl
  s := fun i hi => by simp only [clientTape, ClientTape.add, seq_of_lt _ hi]; rfl
  qapA := fun c hc i hi => by simp only [clientTape, ClientTape.add, seqs_of_lt _ hc hi]; rfl
  qapB := fun c hc i hi => by simp only [clientTape, ClientTape.add, seqs_of_lt _ hc hi]; rfl
  qapC := fun c hc i hi => by simp only [clientTape, ClientTape.add, seqs_of_lt _ hc hi]; rfl
  a := fun c hc i hi => by simp only [clientTape, ClientTape.add, seqs_of_lt _ hc hi]; rfl
  ax := fun c hc i hi => by simp only [clientTape, ClientTape.add, seqs_of_lt _ hc hi]; rfl
  fft := fun k hk => by
    simp only [clientTape, ClientTape.add, dif_pos hk]
    exact ⟨fun i hi => by simp only [vecTape, VecTape.add, seq_of_lt _ hi]; rfl, fun c hc i hi => by simp only [vecTape, VecTape.add, seqs_of_lt _ hc hi]; rfl,
      fun c hc i hi => by simp only [vecTape, VecTape.add, seqs_of_lt _ hc hi]; rfl⟩
  degred := ⟨fun i hi => by simp only [clientTape, ClientTape.add, vecTape, VecTape.add, seq_of_lt _ hi]; rfl,
    fun c hc i hi => by simp only [clientTape, ClientTape.add, vecTape, VecTape.add, seqs_of_lt _ hc hi]; rfl,
    fun c hc i hi => by simp only [clientTape, ClientTape.add, vecTape, VecTape.add, seqs_of_lt _ hc hi]; rfl⟩
  msm1 := fun k hk => by
    simp only [clientTape, ClientTape.add, dif_pos hk]
    exact ⟨fun i hi => by simp only [msmTape, MsmTape.add, seq_of_lt _ hi]; rfl, fun i hi => by simp only [msmTape, MsmTape.add, seq_of_lt _ hi]; rfl,
      fun i hi => by simp only [msmTape, MsmTape.add, seq_of_lt _ hi]; rfl⟩
  msm2 := ⟨fun i hi => by simp only [clientTape, ClientTape.add, msmTape, MsmTape.add, seq_of_lt _ hi]; rfl,
    fun i hi => by simp only [clientTape, ClientTape.add, msmTape, MsmTape.add, seq_of_lt _ hi]; rfl,
    fun i hi => by simp only [clientTape, ClientTape.add, msmTape, MsmTape.add, seq_of_lt _ hi]; rfl⟩

/-! ### Draws with which a session need not work -/

/-- Some share of `r` is zero. -/
def ZeroShare (pp : PSS F) (dbg : Bool) (b : Nat) {N : Nat} (x : Draws F G1 G2 N) : Prop :=
  ∃ p < 4 * 2 ^ b, shareOf pp dbg (List.replicate (2 ^ b) x.1.1) (fun i : Fin (2 ^ b) => seq x.2.1.1 i) p = some 0

theorem prob_zeroShare [Finite F] [Finite G1] [Finite G2] {dbg₀ : Bool} {b : Nat} {pp : PSS F} (hpp : PSS.new dbg₀ (2 ^ b) = .ok pp)
    (hgen : (FftField.GENERATOR : F) ^ (4 * 2 ^ b) ≠ 1) (dbg : Bool) {N : Nat} (hN : 2 ^ b ≤ N) :
    prob (ZeroShare (G1 := G1) (G2 := G2) (N := N) pp dbg b) ≤ 4 * 2 ^ b / Nat.card F := by
  classical
  have := Fintype.ofFinite F
  have := Fintype.ofFinite G1
  have := Fintype.ofFinite G2
  let e : (Fin (2 ^ b) → F) → Draws F G1 G2 N := fun τ => (0, (fun i => if h : i.val < 2 ^ b then τ ⟨i, h⟩ else 0, 0), 0)
  have h1 : ∀ τ, prob (ZeroShare (G1 := G1) (G2 := G2) (N := N) pp dbg b) = avg fun x => if ZeroShare pp dbg b (x + e τ) then 1 else 0 := fun τ => by
    rw [← prob_equiv (Equiv.addRight (e τ)), prob_eq]
    rfl
  have h2 : prob (ZeroShare (G1 := G1) (G2 := G2) (N := N) pp dbg b) =
      avg fun x : Draws F G1 G2 N => prob fun τ : Fin (2 ^ b) → F => ZeroShare pp dbg b (x + e τ) := by
    rw [← avg_const (Ω := Fin (2 ^ b) → F) (prob _), funext h1]
    simp only [prob_eq, avg, ← sum_div]
    rw [sum_comm, div_right_comm]
  rw [h2]
  refine le_trans (avg_mono fun x => ?_) (avg_const _).le
  have h3 : ∀ τ, ZeroShare pp dbg b (x + e τ) ↔ ∃ p < 4 * 2 ^ b, shareOf pp dbg (List.replicate (2 ^ b) x.1.1)
      (Equiv.addLeft (fun i : Fin (2 ^ b) => seq x.2.1.1 i) τ) p = some 0 := fun τ => by
    have e1 : (x + e τ).1.1 = x.1.1 := add_zero _
    have e2 : (fun i : Fin (2 ^ b) => seq (x + e τ).2.1.1 i) = Equiv.addLeft (fun i : Fin (2 ^ b) => seq x.2.1.1 i) τ := by
      funext i
      rw [seq_of_lt _ (lt_of_lt_of_le i.2 hN)]
      show x.2.1.1 ⟨i, _⟩ + (e τ).2.1.1 ⟨i, _⟩ = seq x.2.1.1 i + τ i
      rw [seq_of_lt _ (lt_of_lt_of_le i.2 hN)]
      simp [e]
    rw [ZeroShare, e1, e2]
  simp only [h3]
  rw [prob_equiv (Equiv.addLeft fun i : Fin (2 ^ b) => seq x.2.1.1 i) fun τ : Fin (2 ^ b) → F => ∃ p < 4 * 2 ^ b, shareOf pp dbg (List.replicate (2 ^ b) x.1.1) τ p = some 0,
    prob, div_le_div_iff₀ (by exact_mod_cast Nat.card_pos) (by exact_mod_cast Nat.card_pos)]
  have h4 := C36_zero_share_rare hpp hgen dbg (List.replicate (2 ^ b) x.1.1) (by simp)
  rw [mul_comm]
  exact_mod_cast h4

/-! ### One session -/

theorem range_map_inj {α : Type} {n : Nat} {f g : Nat → α} (h : (List.range n).map f = (List.range n).map g) : ∀ p < n, f p = g p :=
  fun p hp => List.map_inj_left.1 h p (List.mem_range.2 hp)

/-- **C100** There is one thing to observe of a session at most. -/
theorem C100_unique (pp : PSS F) (dbg : Bool) {n copies : Nat} {mats : ConstraintMatrices F} {z : List F} {pk : ProvingKey G1 G2} {gen1 : G1} {gen2 : G2}
    {rng : Nat → Nat → Nat → F} {k : Nat} {P : Fin k → Nat} (hP : ∀ i, P i < n) {N : Nat} {x : Draws F G1 G2 N} {v v' : Observation F G1 G2 n k}
    (h : Shows pp dbg n copies mats z pk gen1 gen2 rng P x v) (h' : Shows pp dbg n copies mats z pk gen1 gen2 rng P x v') : v = v' := by
  obtain ⟨ins, outs, views, h1, h2, h3, h4, h5, h6⟩ := h
  obtain ⟨ins', outs', views', k1, k2, k3, k4, k5, k6⟩ := h'
  rw [h1] at k1
  have e := range_map_inj (Except.ok.inj k1)
  have e' : (fun i : Fin n => ((ins i).run pp dbg n i rng).recorded) = fun i : Fin n => ((ins' i).run pp dbg n i rng).recorded :=
    funext fun i => by rw [e i i.2]
  rw [e'] at h2
  have u := AlwaysYields.unique h2 k2
  have uo : ∀ p < n, outs p = outs' p := fun p hp => congrArg Prod.fst (congrFun u ⟨p, hp⟩)
  have uv : ∀ i, views i = views' i := fun i => congrArg Prod.snd (congrFun u i)
  rw [List.map_congr_left fun p hp => uo p (List.mem_range.1 hp), k3] at h3
  obtain ⟨a, b, c, d⟩ := v
  obtain ⟨a', b', c', d'⟩ := v'
  have e1 : a = a' := funext fun i => (h4 i).trans ((e _ (hP i)).trans (k4 i).symm)
  have e2 : b = b' := funext fun i => (h5 i).trans ((uo _ (hP i)).trans (k5 i).symm)
  have e3 : c = c' := funext fun i => (h6 i).trans ((uv _).trans (k6 i).symm)
  have e4 : d = d' := (Except.ok.inj h3).symm
  rw [e1, e2, e3, e4]

theorem observation_of {pp : PSS F} {dbg : Bool} {n copies : Nat} {mats : ConstraintMatrices F} {z : List F} {pk : ProvingKey G1 G2} {gen1 : G1} {gen2 : G2}
    {rng : Nat → Nat → Nat → F} {k : Nat} {P : Fin k → Nat} (hP : ∀ i, P i < n) {N : Nat} {x : Draws F G1 G2 N} {v : Observation F G1 G2 n k}
    (h : Shows pp dbg n copies mats z pk gen1 gen2 rng P x v) : observation pp dbg n copies mats z pk gen1 gen2 rng P x = some v := by
  have he : ∃ v, Shows pp dbg n copies mats z pk gen1 gen2 rng P x v := ⟨v, h⟩
  rw [observation, dif_pos he, C100_unique pp dbg hP he.choose_spec h]

theorem pack_seq {dbg₀ : Bool} {b : Nat} {pp : PSS F} (hpp : PSS.new dbg₀ (2 ^ b) = .ok pp) (dbg : Bool) (s : List F) (rng : Nat → F) :
    pp.pack dbg s (fun i => if h : i < 2 ^ b then (fun i : Fin (2 ^ b) => rng i) ⟨i, h⟩ else 0) = pp.pack dbg s rng := by
  unfold PSS.pack
  rw [(PSS.good_of_new hpp).t_eq, l_eq hpp]
  rw [List.map_congr_left fun i hi => dif_pos (List.mem_range.1 hi)]

theorem shares_ne {dbg₀ : Bool} {b : Nat} {pp : PSS F} (hpp : PSS.new dbg₀ (2 ^ b) = .ok pp) {dbg : Bool} {mats : ConstraintMatrices F} {z : List F}
    {pk : ProvingKey G1 G2} {gen1 : G1} {gen2 : G2} {N : Nat} {x : Draws F G1 G2 N} {t : ClientTape F G1 G2} (ht : t.r = (clientTape x).r)
    {ins : Nat → ServerInput F G1 G2} {s : F} (hd : pp.deal dbg (2 ^ b) mats z pk gen1 gen2 x.1.1 s t = .ok ((List.range (4 * 2 ^ b)).map ins))
    (hx : ¬ ZeroShare pp dbg b x) : ∀ p < 4 * 2 ^ b, (ins p).r ≠ 0 := by
  intro p hp h0
  obtain ⟨_, -, -, h1, -⟩ := deal_parts (p := p) (x := ins p) (by rw [hd]; exact partOf_range ins hp)
  refine hx ⟨p, hp, ?_⟩
  rw [shareOf, pack_seq hpp, ← h0, ← h1, ht]
  rfl

/-- The assumptions of zero knowledge: a circuit, a key from a set-up for it, and two satisfying assignments with the same public inputs. -/
structure TwoWitnesses (b : Nat) (dbg : Bool) (N : Nat) (gen1 : G1) (gen2 : G2) where
  a : Nat
  ha : a < 64
  mats : ConstraintMatrices F
  z : List F
  z' : List F
  dom : Domain F
  dom2 : Domain F
  hcirc : Circuit a b mats z dom dom2
  hcirc' : Circuit a b mats z' dom dom2
  hsat : Satisfies mats.numConstraints mats.a mats.b mats.c z
  hsat' : Satisfies mats.numConstraints mats.a mats.b mats.c z'
  hz : z.length = z'.length
  hpub : z.take mats.numInstanceVariables = z'.take mats.numInstanceVariables
  pa : Nat → F[X]
  pb : Nat → F[X]
  pc : Nat → F[X]
  hqap : IsQap mats z.length dom.groupGen (2 ^ (a + b)) pa pb pc
  t : Toxic F
  g1 : G1
  g2 : G2
  pk : ProvingKey G1 G2
  hk : IsCircomKey t g1 g2 z.length mats.numInstanceVariables (2 ^ (a + b)) dom2.groupGen pa pb pc pk
  hγ : t.gamma ≠ 0
  hδ : t.delta ≠ 0
  hal : dbg = true → KeyAligned (2 ^ b) pk
  hN : 2 ^ (a + b) ≤ N
  hzN : z.length ≤ N

section
variable [Finite F] [Finite G1] [Finite G2] {dbg₀ : Bool} {b : Nat} {pp : PSS F} (hpp : PSS.new dbg₀ (2 ^ b) = .ok pp)
  (hgen : (FftField.GENERATOR : F) ^ (4 * 2 ^ b) ≠ 1) (dbg : Bool) {gen1 : G1} {gen2 : G2}
  (hspan1 : ∀ g : G1, ∃ c : F, c • gen1 = g) (hspan2 : ∀ g : G2, ∃ c : F, c • gen2 = g) {N : Nat}
include hpp hgen hspan1 hspan2

/-- **C100** The draws of sessions on one assignment and those of sessions on the other are paired off, such that all but a share of `8l / |F|` of the
pairs are observed alike. -/
theorem C100_coupling (w : TwoWitnesses (F := F) b dbg N gen1 gen2) (rng : Nat → Nat → Nat → F) (P : Fin (2 ^ b) → Nat) (hinj : Function.Injective P)
    (hlt : ∀ i, P i < 4 * 2 ^ b) :
    ∃ (φ : Draws F G1 G2 N ≃ Draws F G1 G2 N) (B : Draws F G1 G2 N → Prop), prob B ≤ 8 * 2 ^ b / Nat.card F ∧ ∀ x, ¬ B x →
      ∃ v, Shows pp dbg (4 * 2 ^ b) (2 ^ b) w.mats w.z w.pk gen1 gen2 rng P x v ∧
        Shows pp dbg (4 * 2 ^ b) (2 ^ b) w.mats w.z' w.pk gen1 gen2 rng P (φ x) v := by
  have := Fintype.ofFinite F
  have := Fintype.ofFinite G1
  have := Fintype.ofFinite G2
  obtain ⟨c, d, δ, key⟩ := C60_zero_knowledge hpp hgen dbg w.a w.ha w.hcirc w.hcirc' w.hsat w.hsat' w.hz w.hpub w.hqap w.hk w.hγ w.hδ w.hal gen1 gen2
    hspan1 hspan2 P hinj hlt
  let φ : Draws F G1 G2 N ≃ Draws F G1 G2 N := Equiv.addRight (cut N c d δ)
  have hb : 2 ^ b ≤ N := le_trans (Nat.pow_le_pow_right (by norm_num) (by omega)) w.hN
  refine ⟨φ, fun x => ZeroShare pp dbg b x ∨ ZeroShare pp dbg b (φ x), ?_, fun x hx => ?_⟩
  · refine (prob_or _ _).trans ?_
    rw [prob_equiv φ]
    have := prob_zeroShare (G1 := G1) (G2 := G2) hpp hgen dbg hb
    calc _ ≤ 4 * 2 ^ b / (Nat.card F : ℚ) + 4 * 2 ^ b / (Nat.card F : ℚ) := add_le_add this this
      _ = _ := by ring
  · push Not at hx
    obtain ⟨ins, ins', e, e', hP, hrun⟩ := key x.1.1 x.1.2 (clientTape x) rng
    have e'' : pp.deal dbg (2 ^ b) w.mats w.z' w.pk gen1 gen2 (φ x).1.1 (φ x).1.2 (clientTape (φ x)) = .ok ((List.range (4 * 2 ^ b)).map ins') := by
      rw [← e']
      exact deal_congr hpp dbg w.hcirc' (KeyFits.of_key (w.hz ▸ w.hk)) w.hal w.hN (w.hz ▸ w.hzN) gen1 gen2 _ _ (agree_shift x c d δ)
    obtain ⟨outs, outs', views, views', π, r1, r2, r3, r4, r5, r6⟩ := hrun (.inl (shares_ne hpp rfl e hx.1)) (.inl (shares_ne hpp rfl e'' hx.2))
    exact ⟨⟨fun i => ins (P i), fun i => outs (P i), fun i => views i, π⟩, ⟨ins, outs, views, e, r1, r5, fun _ => rfl, fun _ => rfl, fun _ => rfl⟩,
      ins', outs', views', e'', r2, r6, hP, r4, fun i => r3 i i.2⟩

/-- **C100** Whatever is observed of a session besides, as long as it depends on the observation alone when the session ends: two assignments are
told apart with an advantage of at most `8l / |F|`. -/
theorem C100_any (w : TwoWitnesses (F := F) b dbg N gen1 gen2) (rng : Nat → Nat → Nat → F) (P : Fin (2 ^ b) → Nat) (hinj : Function.Injective P)
    (hlt : ∀ i, P i < 4 * 2 ^ b) {O : Type} (f : Observation F G1 G2 (4 * 2 ^ b) (2 ^ b) → O) (obs obs' : Draws F G1 G2 N → O)
    (h : ∀ x v, Shows pp dbg (4 * 2 ^ b) (2 ^ b) w.mats w.z w.pk gen1 gen2 rng P x v → obs x = f v)
    (h' : ∀ x v, Shows pp dbg (4 * 2 ^ b) (2 ^ b) w.mats w.z' w.pk gen1 gen2 rng P x v → obs' x = f v) :
    Close (8 * 2 ^ b / Nat.card F) obs obs' := by
  have := Fintype.ofFinite F
  have := Fintype.ofFinite G1
  have := Fintype.ofFinite G2
  obtain ⟨φ, B, hB, hv⟩ := C100_coupling hpp hgen dbg hspan1 hspan2 (N := N) w rng P hinj hlt
  exact fun E => (close_of_equiv (X := obs) (Y := obs') φ B (fun x hx => by
    obtain ⟨v, e, e'⟩ := hv x hx
    rw [h x v e, h' _ v e']) E).trans hB

/-- **C100** And there is something to observe: sessions end but for a share of `8l / |F|` of the draws. -/
theorem C100_ends (w : TwoWitnesses (F := F) b dbg N gen1 gen2) (rng : Nat → Nat → Nat → F) (P : Fin (2 ^ b) → Nat) (hinj : Function.Injective P)
    (hlt : ∀ i, P i < 4 * 2 ^ b) :
    prob (fun x => observation (N := N) pp dbg (4 * 2 ^ b) (2 ^ b) w.mats w.z w.pk gen1 gen2 rng P x = none) ≤ 8 * 2 ^ b / Nat.card F := by
  have := Fintype.ofFinite F
  have := Fintype.ofFinite G1
  have := Fintype.ofFinite G2
  obtain ⟨φ, B, hB, hv⟩ := C100_coupling hpp hgen dbg hspan1 hspan2 (N := N) w rng P hinj hlt
  refine (prob_mono fun x hx => ?_).trans hB
  by_contra hn
  obtain ⟨v, e, -⟩ := hv x hn
  rw [observation_of hlt e] at hx
  exact absurd hx (by simp)

/-- **C100** Statistical zero knowledge of a session: no test of what any `l` servers are dealt and end with, what every server but the king is sent and
what proof is opened tells two assignments apart with an advantage above `8l / |F|`. -/
theorem C100_session (w : TwoWitnesses (F := F) b dbg N gen1 gen2) (rng : Nat → Nat → Nat → F) (P : Fin (2 ^ b) → Nat) (hinj : Function.Injective P)
    (hlt : ∀ i, P i < 4 * 2 ^ b) :
    Close (8 * 2 ^ b / Nat.card F) (observation (N := N) pp dbg (4 * 2 ^ b) (2 ^ b) w.mats w.z w.pk gen1 gen2 rng P)
      (observation (N := N) pp dbg (4 * 2 ^ b) (2 ^ b) w.mats w.z' w.pk gen1 gen2 rng P) := by
  refine C100_any hpp hgen dbg hspan1 hspan2 w rng P hinj hlt some _ _ (fun x v h => ?_) fun x v h => ?_
  all_goals exact observation_of hlt h

/-- **C100** Any number of sessions one after the other with fresh draws. The circuit, the key, both assignments, the king's randomness and the `l`
servers of each session may depend on all that was observed before. -/
theorem C100_sessions {O : Type} (w : List O → TwoWitnesses (F := F) b dbg N gen1 gen2) (rng : List O → Nat → Nat → Nat → F) (P : List O → Fin (2 ^ b) → Nat)
    (hinj : ∀ h, Function.Injective (P h)) (hlt : ∀ h i, P h i < 4 * 2 ^ b) (f : List O → Option (Observation F G1 G2 (4 * 2 ^ b) (2 ^ b)) → O) (k : Nat) :
    Close (k * (8 * 2 ^ b / Nat.card F))
      (observed (fun h x => f h (observation (N := N) pp dbg (4 * 2 ^ b) (2 ^ b) (w h).mats (w h).z (w h).pk gen1 gen2 (rng h) (P h) x)) k [])
      (observed (fun h x => f h (observation (N := N) pp dbg (4 * 2 ^ b) (2 ^ b) (w h).mats (w h).z' (w h).pk gen1 gen2 (rng h) (P h) x)) k []) := by
  have := Fintype.ofFinite F
  have := Fintype.ofFinite G1
  have := Fintype.ofFinite G2
  exact close_observed (fun h E => C100_session hpp hgen dbg hspan1 hspan2 (w h) (rng h) (P h) (hinj h) (hlt h) fun o => E (f h o)) k []

/-- **C100** With a field of at least `2 ^ 253` elements, as that of BN254, and at most 128 servers, `2 ^ 64` sessions leave an advantage of at most
`2 ^ -181`. -/
theorem C100_production (hcard : 2 ^ 253 ≤ Nat.card F) (hb : b ≤ 5) {O : Type} (w : List O → TwoWitnesses (F := F) b dbg N gen1 gen2)
    (rng : List O → Nat → Nat → Nat → F) (P : List O → Fin (2 ^ b) → Nat) (hinj : ∀ h, Function.Injective (P h)) (hlt : ∀ h i, P h i < 4 * 2 ^ b)
    (f : List O → Option (Observation F G1 G2 (4 * 2 ^ b) (2 ^ b)) → O) {k : Nat} (hk : k ≤ 2 ^ 64) :
    Close (1 / 2 ^ 181)
      (observed (fun h x => f h (observation (N := N) pp dbg (4 * 2 ^ b) (2 ^ b) (w h).mats (w h).z (w h).pk gen1 gen2 (rng h) (P h) x)) k [])
      (observed (fun h x => f h (observation (N := N) pp dbg (4 * 2 ^ b) (2 ^ b) (w h).mats (w h).z' (w h).pk gen1 gen2 (rng h) (P h) x)) k []) := by
  have h1 : (2 : ℚ) ^ 253 ≤ Nat.card F := by exact_mod_cast hcard
  have h2 : (k : ℚ) ≤ 2 ^ 64 := by exact_mod_cast hk
  have h3 : (2 : ℚ) ^ b ≤ 2 ^ 5 := pow_le_pow_right₀ (by norm_num) hb
  have h4 : (k : ℚ) * (8 * 2 ^ b / Nat.card F) ≤ 2 ^ 64 * (8 * 2 ^ 5 / 2 ^ 253) := by gcongr
  exact fun E => (C100_sessions hpp hgen dbg hspan1 hspan2 w rng P hinj hlt f k E).trans (h4.trans (by norm_num))

end

/-! ### Examples -/

/-- C100: over 17 elements the bound on one session is `16 / 17`; the two assignments prove that 3 and 14 are roots of 9. -/
example (rng : List (Option (Observation (ZMod 17) (ZMod 17) (ZMod 17) (4 * 2 ^ 1) (2 ^ 1))) → Nat → Nat → Nat → ZMod 17) :
    ∃ w : TwoWitnesses (F := ZMod 17) (G1 := ZMod 17) (G2 := ZMod 17) 1 false 6 1 1, w.z ≠ w.z' ∧
      Close (3 * (8 * 2 ^ 1 / Nat.card (ZMod 17)))
        (observed (fun h x => observation (N := 6) pp17 false (4 * 2 ^ 1) (2 ^ 1) w.mats w.z w.pk 1 1 (rng h) pair17 x) 3 [])
        (observed (fun h x => observation (N := 6) pp17 false (4 * 2 ^ 1) (2 ^ 1) w.mats w.z' w.pk 1 1 (rng h) pair17 x) 3 []) := by
  obtain ⟨pa, pb, pc, pk, h1, h2⟩ := C35_key_exists circuit17 (⟨2, 3, 4, 5, 6⟩ : Toxic (ZMod 17)) (1 : ZMod 17) (1 : ZMod 17)
  let w : TwoWitnesses (F := ZMod 17) (G1 := ZMod 17) (G2 := ZMod 17) 1 false 6 1 1 := ⟨1, by norm_num, _, _, _, _, _, circuit17, circuit17', mats17_sat,
    mats17_sat', rfl, rfl, _, _, _, h1, _, _, _, _, h2, by decide, by decide, by simp, by decide, by decide⟩
  exact ⟨w, show z17 ≠ [1, 9, 14] by decide, by
    have := C100_sessions (pp17_eq true) gen17 false (gen1 := (1 : ZMod 17)) (gen2 := (1 : ZMod 17)) (fun g => ⟨g, by simp⟩) (fun g => ⟨g, by simp⟩)
      (fun _ => w) rng (fun _ => pair17) (fun _ => pair17_inj) (fun _ => pair17_lt) (fun _ o => o) 3
    exact_mod_cast this⟩

/-- C100: in a field of 17 elements some session on the first assignment and some on the second are observed alike by the first two servers. -/
example (rng : Nat → Nat → Nat → ZMod 17) :
    ∃ (w : TwoWitnesses (F := ZMod 17) (G1 := ZMod 17) (G2 := ZMod 17) 1 false 6 1 1) (x x' : Draws (ZMod 17) (ZMod 17) (ZMod 17) 6)
      (v : Observation (ZMod 17) (ZMod 17) (ZMod 17) (4 * 2 ^ 1) (2 ^ 1)), w.z ≠ w.z' ∧
      Shows pp17 false (4 * 2 ^ 1) (2 ^ 1) w.mats w.z w.pk 1 1 rng pair17 x v ∧ Shows pp17 false (4 * 2 ^ 1) (2 ^ 1) w.mats w.z' w.pk 1 1 rng pair17 x' v := by
  obtain ⟨pa, pb, pc, pk, h1, h2⟩ := C35_key_exists circuit17 (⟨2, 3, 4, 5, 6⟩ : Toxic (ZMod 17)) (1 : ZMod 17) (1 : ZMod 17)
  let w : TwoWitnesses (F := ZMod 17) (G1 := ZMod 17) (G2 := ZMod 17) 1 false 6 1 1 := ⟨1, by norm_num, _, _, _, _, _, circuit17, circuit17', mats17_sat,
    mats17_sat', rfl, rfl, _, _, _, h1, _, _, _, _, h2, by decide, by decide, by simp, by decide, by decide⟩
  obtain ⟨φ, B, hB, hv⟩ := C100_coupling (pp17_eq true) gen17 false (gen1 := (1 : ZMod 17)) (gen2 := (1 : ZMod 17)) (fun g => ⟨g, by simp⟩)
    (fun g => ⟨g, by simp⟩) w rng pair17 pair17_inj pair17_lt
  obtain ⟨x, hx⟩ : ∃ x, ¬ B x := by
    by_contra hcon
    push Not at hcon
    have e : prob B = 1 := by
      rw [prob, Nat.card_congr (Equiv.subtypeUnivEquiv hcon)]
      exact div_self (by have := Nat.card_pos (α := Draws (ZMod 17) (ZMod 17) (ZMod 17) 6); positivity)
    rw [e, Nat.card_eq_fintype_card, ZMod.card] at hB
    norm_num at hB
  obtain ⟨v, e, e'⟩ := hv x hx
  exact ⟨w, x, φ x, v, show z17 ≠ [1, 9, 14] by decide, e, e'⟩

end ZkSaas.Properties
