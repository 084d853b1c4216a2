import Verif.Spec.Machine
import Verif.Lemmas.MachineDeal
import Verif.Properties.Chance

/-!
# C98: no computation with `usize` overflows
-/

set_option linter.unusedSectionVars false

namespace ZkSaas.Properties

open Spec Polynomial

variable {F : Type} [Field F] [DecidableEq F] [FftField F]

/-! ### The operations -/

/-- **C98** In a release build the operations are those of 64-bit words; in a debug build they give the exact result if it is a 64-bit word, and panic
otherwise. A division gives the exact quotient in both, and panics for a zero divisor. -/
theorem C98_words (x y : UInt64) :
    (uadd false x.toNat y.toNat = .ok (x + y).toNat ∧ umul false x.toNat y.toNat = .ok (x * y).toNat ∧
      usub false x.toNat y.toNat = .ok (x - y).toNat) ∧
    (∀ z : UInt64, (uadd true x.toNat y.toNat = .ok z.toNat ↔ (z.toNat : ℤ) = x.toNat + y.toNat) ∧
      (umul true x.toNat y.toNat = .ok z.toNat ↔ (z.toNat : ℤ) = x.toNat * y.toNat) ∧
      (usub true x.toNat y.toNat = .ok z.toNat ↔ (z.toNat : ℤ) = x.toNat - y.toNat)) ∧
    (∀ r, uadd true x.toNat y.toNat = r ∨ umul true x.toNat y.toNat = r ∨ usub true x.toNat y.toNat = r →
      r = panic' ∨ ∃ z : UInt64, r = .ok z.toNat) ∧
    (udiv x.toNat y.toNat = if y = 0 then panic' else .ok (x / y).toNat) ∧
    ∀ dbg, ∀ i < 64, upow2 dbg i = .ok (1 <<< UInt64.ofNat i : UInt64).toNat := by
  have hx := x.toNat_lt
  have hy := y.toNat_lt
  have word : ∀ v, v < 2 ^ 64 → ∃ z : UInt64, z.toNat = v := fun v hv => ⟨UInt64.ofNat v, by rw [UInt64.toNat_ofNat']; exact Nat.mod_eq_of_lt hv⟩
  have exact' : ∀ (v : Nat) (z : UInt64), usize true v = .ok z.toNat ↔ (z.toNat : ℤ) = v := fun v z => by
    have hz := z.toNat_lt
    unfold usize
    split_ifs with h
    · constructor
      · intro e
        rw [Except.ok.inj e]
      · intro e
        rw [Int.ofNat_inj.1 e]
    · refine ⟨fun e => (nomatch e), fun e => ?_⟩
      have := Int.ofNat_inj.1 e
      unfold USIZE at h
      omega
    · simp_all
  have outcome : ∀ v r, usize true v = r → r = panic' ∨ ∃ z : UInt64, r = .ok z.toNat := fun v r e => by
    subst e
    unfold usize
    split_ifs with h
    · obtain ⟨z, rfl⟩ := word v h
      exact .inr ⟨z, rfl⟩
    · exact .inl rfl
    · simp_all
  refine ⟨⟨?_, ?_, ?_⟩, fun z => ⟨?_, ?_, ?_⟩, ?_, ?_, fun dbg i hi => ?_⟩
  · rw [UInt64.toNat_add, uadd, usize]
    split_ifs with h h'
    · rw [Nat.mod_eq_of_lt h]
    · simp at h'
    · rfl
  · rw [UInt64.toNat_mul, umul, usize]
    split_ifs with h h'
    · rw [Nat.mod_eq_of_lt h]
    · simp at h'
    · rfl
  · rw [UInt64.toNat_sub, usub]
    split_ifs with h h'
    · congr 1
      omega
    · simp at h'
    · congr 1
      unfold USIZE
      omega
  · rw [uadd, exact']; push_cast; rfl
  · rw [umul, exact']; push_cast; rfl
  · rw [usub]
    split_ifs with h h'
    · constructor
      · intro e
        rw [← Except.ok.inj e]
        omega
      · intro e
        congr 1
        omega
    · refine ⟨fun e => (nomatch e), fun e => ?_⟩
      have := z.toNat_lt
      omega
    · simp at h'
  · rintro r (h | h | h)
    · exact outcome _ _ h
    · exact outcome _ _ h
    · subst h
      rw [usub]
      split_ifs with h h'
      · obtain ⟨z, hz⟩ := word (x.toNat - y.toNat) (by omega)
        exact .inr ⟨z, by rw [hz]⟩
      · exact .inl rfl
      · simp at h'
  · rw [udiv, UInt64.toNat_div]
    have : y.toNat = 0 ↔ y = 0 := by rw [← UInt64.toNat_inj]; simp
    simp only [this]
  · have e : ((1 : UInt64) <<< UInt64.ofNat i).toNat = 2 ^ i := by
      rw [UInt64.toNat_shiftLeft, UInt64.toNat_ofNat', Nat.shiftLeft_eq, UInt64.toNat_one, one_mul,
        Nat.mod_eq_of_lt (show i < 2 ^ 64 by omega), Nat.mod_eq_of_lt hi]
      exact Nat.mod_eq_of_lt (Nat.pow_lt_pow_right (by norm_num) hi)
    rw [e, upow2, usize, if_pos (Nat.pow_lt_pow_right (by norm_num) hi)]

/-- C98: the operations at the edges. -/
example : usub false 0 1 = .ok (2 ^ 64 - 1) ∧ usub true 0 1 = panic' ∧ uadd false (2 ^ 64 - 2) 3 = .ok 1 ∧ umul true (2 ^ 32) (2 ^ 32) = panic' := by
  have h := C98_words 0 1
  refine ⟨h.1.2.2, ?_, (C98_words 18446744073709551614 3).1.1, rfl⟩
  rcases h.2.2.1 _ (.inr (.inr rfl)) with e | ⟨z, e⟩
  · exact e
  · have e' := (h.2.1 z).2.2.1 e
    have hz := Int.natCast_nonneg z.toNat
    rw [e'] at hz
    exact absurd hz (by decide)
/-! ### The parameters -/

/-- **C98** `PackedSharingParams::new(l)` computes without overflow when `4l` fits. -/
theorem C98_new (dbg : Bool) {l : Nat} (h : 4 * l < 2 ^ 64) : PSS.newM (F := F) dbg l = PSS.new dbg l := PSS.newM_eq dbg h

/-- **C98** In a debug build `PackedSharingParams::new` never returns parameters that were computed with an overflow. -/
theorem C98_new_debug {l : Nat} {pp : PSS F} (h : PSS.newM true l = .ok pp) : 4 * l < 2 ^ 64 ∧ PSS.new true l = .ok pp := by
  have h4 : 4 * l < 2 ^ 64 := by
    by_contra hc
    unfold PSS.newM at h
    obtain ⟨n, hn, -⟩ := bind_eq_ok h
    rw [umul, usize, if_neg (by rw [mul_comm]; exact hc)] at hn
    cases hn
  exact ⟨h4, by rw [← C98_new true h4]; exact h⟩

/-- **C98** (finding) In a release build `PackedSharingParams::new(2^63)` succeeds, with parameters for no parties at all and domains of one
element. The exact computation, and a debug build, fail. -/
theorem C98_new_wraps (hta : FftField.TWO_ADICITY F ≤ 63) : (∃ pp : PSS F, PSS.newM false (2 ^ 63) = .ok pp ∧ pp.l = 2 ^ 63 ∧ pp.n = 0 ∧
      pp.share.size = 1 ∧ pp.secret.size = 1 ∧ pp.secret2.size = 1) ∧
    PSS.newM (F := F) true (2 ^ 63) = panic' ∧ ∀ dbg, PSS.new (F := F) dbg (2 ^ 63) = panic' := by
  have hd : ∃ d : Domain F, Domain.new (F := F) 0 = some d ∧ d.size = 1 := ⟨_, by rw [Domain.new]; exact if_neg (by simp), by simp⟩
  obtain ⟨d, hd, hs⟩ := hd
  have hc : ∃ d' : Domain F, d.getCoset FftField.GENERATOR = some d' ∧ d'.size = 1 :=
    ⟨_, if_neg FftField.generator_ne_zero, hs⟩
  obtain ⟨d', hd', hs'⟩ := hc
  refine ⟨⟨⟨2 ^ 63, 2 ^ 63, 0, d, d', d'⟩, ?_, rfl, rfl, hs, hs', hs'⟩, rfl, fun dbg => ?_⟩
  · unfold PSS.newM
    dsimp only
    rw [show umul false (2 ^ 63) 4 = .ok 0 from rfl, ok_bind, show uadd false (2 ^ 63) (2 ^ 63) = .ok 0 from rfl, ok_bind]
    simp only [show umul false 2 0 = .ok 0 from rfl, ok_bind]
    rw [hd]
    simp only [show unwrap (some d) = .ok d from rfl, ok_bind, hd', show unwrap (some d') = .ok d' from rfl,
      show ∀ b, debugAssert false b = .ok () from fun _ => rfl]
    rfl
  · unfold PSS.new
    dsimp only
    rw [Domain.new_none (by
      rw [show 2 ^ 63 * 4 = 2 ^ 65 by norm_num, Nat.clog_pow 2 65 (by norm_num)]
      omega)]
    rw [show debugAssert dbg (2 ^ 63 * 4 == 2 * (2 ^ 63 + 2 ^ 63)) = .ok () from by cases dbg <;> rfl]
    rfl

theorem adicity_of_new {dbg₀ : Bool} {b : Nat} {pp : PSS F} (hpp : PSS.new dbg₀ (2 ^ b) = .ok pp) : b + 2 ≤ FftField.TWO_ADICITY F := by
  by_contra h
  rw [PSS.new_too_large dbg₀ (by rw [show 2 ^ b * 4 = 2 ^ (b + 2) by ring, clog_two_pow]; omega)] at hpp
  cases hpp

theorem new_any {dbg₀ : Bool} {b : Nat} {pp : PSS F} (hpp : PSS.new dbg₀ (2 ^ b) = .ok pp) (dbg : Bool) : PSS.new dbg (2 ^ b) = .ok pp := by
  have h := adicity_of_new hpp
  rw [PSS.new_pow2 dbg h, ← PSS.new_pow2 dbg₀ h]
  exact hpp

theorem PSS.small_of_new {dbg₀ : Bool} {b : Nat} {pp : PSS F} (hpp : PSS.new dbg₀ (2 ^ b) = .ok pp) (hb : 4 * 2 ^ b < 2 ^ 64) : pp.Small where
  pos := by rw [l_eq hpp]; positivity
  t_eq := by rw [(PSS.good_of_new hpp).t_eq]
  lt := by rw [l_eq hpp]; exact hb

/-! ### The local computations -/

section
variable {dbg₀ : Bool} {b : Nat} {pp : PSS F}

/-- **C98** Packing and unpacking compute without overflow, for any number of parties that fits with one to spare. -/
theorem C98_sharing {T : Type} [AddCommGroup T] [Module F T] [DecidableEq T] (hpp : PSS.new dbg₀ (2 ^ b) = .ok pp) (hb : 4 * 2 ^ b < 2 ^ 64)
    (dbg : Bool) : (∀ (secrets : List T) rng, pp.packM dbg secrets rng = pp.pack dbg secrets rng) ∧
      (∀ shares : List T, pp.unpack2M dbg shares = pp.unpack2 dbg shares) ∧
      ∀ (shares : List T) (parties : List Nat), parties.length + 1 < 2 ^ 64 →
        pp.unpackMissingSharesM dbg shares parties = pp.unpackMissingShares dbg shares parties :=
  have hs := PSS.small_of_new hpp hb
  ⟨PSS.packM_eq hs dbg, PSS.unpack2M_eq hs dbg, fun shares _ hp => PSS.unpackMissingSharesM_eq hs dbg shares hp⟩

/-- **C98** The local parts of the transforms compute without overflow on vectors of at most `2^63` values in all. -/
theorem C98_transform (hpp : PSS.new dbg₀ (2 ^ b) = .ok pp) (hb : 4 * 2 ^ b < 2 ^ 64) (dbg : Bool) (gen : F) :
    (∀ px : List F, px.length * 2 ^ b ≤ 2 ^ 63 → pp.fft1InPlaceM dbg px gen = pp.fft1InPlace px gen) ∧
      (∀ s1 : List F, s1.length ≤ 2 ^ 63 → pp.fft2InPlaceM dbg s1 gen = pp.fft2InPlace s1 gen) ∧
      ∀ (outLen mbyl : Nat) (g : F) (rearrange : Bool) (shares : List (List F)) (parties : List Nat) rng, outLen * 2 ^ b ≤ 2 ^ 63 →
        mbyl * 2 ^ b ≤ 2 ^ 63 → parties.length + 1 < 2 ^ 64 →
        pp.fft2KingM dbg outLen mbyl g gen rearrange shares parties rng = pp.fft2King dbg outLen mbyl g gen rearrange shares parties rng := by
  have hs := PSS.small_of_new hpp hb
  have hl := l_eq hpp
  exact ⟨fun px h => PSS.fft1InPlaceM_eq hs dbg (by rw [hl]; exact h) gen, fun s1 h => PSS.fft2InPlaceM_eq hs dbg h gen,
    fun _ _ g r shares _ rng h1 h2 hp => PSS.fft2KingM_eq hs dbg (by rw [hl]; exact h1) (by rw [hl]; exact h2) g gen r shares hp rng⟩

/-- **C98** The partial products, the long division by any binomial and the interpolation compute without overflow on vectors whose length fits. -/
theorem C98_vectors {T : Type} [AddCommGroup T] [Module F T] [DecidableEq T] (dbg : Bool) :
    (∀ numden : List F, numden.length < 2 ^ 64 → ppProductsM dbg numden = ppProducts numden) ∧
      (∀ (p : List F) (a : Nat) (b : F), p.length < 2 ^ 64 → synDivInPlaceM dbg p a b = synDivInPlace p a b) ∧
      (∀ xs : List F, xs.length + 1 < 2 ^ 64 → getZeroRootsM dbg xs = getZeroRoots xs) ∧
      ∀ (xs : List F) (ys : List T), xs.length + 1 < 2 ^ 64 → lagrangeInterpolateM dbg xs ys = lagrangeInterpolate xs ys :=
  ⟨fun _ h => ppProductsM_eq dbg h, fun _ a b h => synDivInPlaceM_eq dbg h a b, fun _ h => getZeroRootsM_eq dbg h,
    fun _ ys h => lagrangeInterpolateM_eq dbg h ys⟩

/-- **C98** The quadratic arithmetic program is computed without overflow. -/
theorem C98_qap (dbg : Bool) (mats : ConstraintMatrices F) (z : List F) (h : mats.numConstraints + mats.numInstanceVariables < 2 ^ 64) :
    qapM dbg mats z = qap mats z := qapM_eq dbg mats z h

/-! ### The protocols, in every execution -/

theorem behaveAlike_of_same {n : Nat} {α : Type} {R : α → Prop} {ps qs : Fin n → Proc α} (h : ∀ i, Same R (ps i) (qs i)) :
    BehaveAlike (Net.init ps) (Net.init qs) := by
  have step : ∀ {ok : Act → Prop} {c d : Net n α}, c.queues = d.queues → (∀ i, Same R (c.procs i) (d.procs i)) → (∃ e, GStep ok c e) →
      ∃ e, GStep ok d e := by
    rintro ok c d hq hp ⟨e, he⟩
    obtain ⟨d', hd, -⟩ := same_steps hq hp (.step he (.refl e))
    cases hd with
    | step h _ => exact ⟨_, h⟩
  have look : ∀ {ok : Act → Prop} {c d : Net n α}, c.queues = d.queues → (∀ i, Same R (c.procs i) (d.procs i)) → LookAlike ok c d :=
    fun hq hp => ⟨hq, fun i r => (hp i).done_iff r, step hq hp, step hq.symm fun i => (hp i).symm⟩
  intro ok k
  constructor
  · intro c' hc
    obtain ⟨d', h1, h2, h3⟩ := same_steps (c := Net.init ps) (d := Net.init qs) rfl h hc
    exact ⟨d', h1, look h2 h3⟩
  · intro d' hd
    obtain ⟨c', h1, h2, h3⟩ := same_steps (c := Net.init qs) (d := Net.init ps) rfl (fun i => (h i).symm) hd
    exact ⟨c', h1, look h2.symm fun i => (h3 i).symm⟩

/-- Networks that behave alike yield the same. -/
theorem yields_of_alike {n : Nat} {α : Type} {c d : Net n α} (h : BehaveAlike c d) (rs : Fin n → α) : AlwaysYields c rs ↔ AlwaysYields d rs := by
  constructor
  · rintro ⟨⟨m, hm⟩, hy⟩
    refine ⟨⟨m, fun k d' hd => ?_⟩, fun k d' hd hst i => ?_⟩
    · obtain ⟨c', hc, -⟩ := (h Reliable k).2 d' hd
      exact hm k c' hc
    · obtain ⟨c', hc, h1, h2, h3⟩ := (h Reliable k).2 d' hd
      exact (h2 i _).1 (hy k c' hc (fun he => hst (h3.1 he)) i)
  · rintro ⟨⟨m, hm⟩, hy⟩
    refine ⟨⟨m, fun k c' hc => ?_⟩, fun k c' hc hst i => ?_⟩
    · obtain ⟨d', hd, -⟩ := (h Reliable k).1 c' hc
      exact hm k d' hd
    · obtain ⟨d', hd, h1, h2, h3⟩ := (h Reliable k).1 c' hc
      exact (h2 i _).2 (hy k d' hd (fun he => hst (h3.2 he)) i)

variable [FixedWire F]

/-- **C98** `d_fft` and `d_ifft` on at most `2^63` values in all behave as computed exactly, in every execution and whatever the masks. -/
theorem C98_dfft (hpp : PSS.new dbg₀ (2 ^ b) = .ok pp) (hb : 4 * 2 ^ b < 2 ^ 64) (dbg : Bool) {n : Nat} (hn : n + 1 < 2 ^ 64) (x : Nat → List F)
    (hx : ∀ i < n, (x i).length * 2 ^ b ≤ 2 ^ 63) (masks : Nat → FftMask F) (rearrange : Bool) (dom : Domain F) (g : F) (sid : Sid)
    (rng : Nat → Nat → F) :
    BehaveAlike (Net.init fun i : Fin n => pp.dFftM dbg n i (x i) (masks i) rearrange dom sid rng)
      (Net.init fun i : Fin n => pp.dFft dbg n i (x i) (masks i) rearrange dom sid rng) ∧
    BehaveAlike (Net.init fun i : Fin n => pp.dIfftM dbg n i (x i) (masks i) rearrange dom g sid rng)
      (Net.init fun i : Fin n => pp.dIfft dbg n i (x i) (masks i) rearrange dom g sid rng) := by
  have hs := PSS.small_of_new hpp hb
  have hl := l_eq hpp
  exact ⟨behaveAlike_of_same fun i => (PSS.dFftM_same hs dbg hn i (by rw [hl]; exact hx i i.2) _ _ _ _ _).mono fun _ _ => trivial,
    behaveAlike_of_same fun i => (PSS.dIfftM_same hs dbg hn i (by rw [hl]; exact hx i i.2) _ _ _ _ _ _).mono fun _ _ => trivial⟩

/-- **C98** `deg_red` and `d_msm` behave as computed exactly, in every execution and whatever the inputs. -/
theorem C98_rounds {T : Type} [AddCommGroup T] [Module F T] [DecidableEq T] [FixedWire T] (hpp : PSS.new dbg₀ (2 ^ b) = .ok pp)
    (hb : 4 * 2 ^ b < 2 ^ 64) (dbg : Bool) {n : Nat} (hn : n + 1 < 2 ^ 64) (sid : Sid) :
    (∀ (x : Nat → List T) (masks : Nat → DegRedMask T) (rng : Nat → Nat → T),
      BehaveAlike (Net.init fun i : Fin n => pp.degRedM dbg n i (x i) (masks i) sid rng)
        (Net.init fun i : Fin n => pp.degRed dbg n i (x i) (masks i) sid rng)) ∧
    ∀ (bases : Nat → List T) (scalars : Nat → List F) (masks : Nat → MsmMask T),
      BehaveAlike (Net.init fun i : Fin n => pp.dMsmM dbg n i (bases i) (scalars i) (masks i) sid)
        (Net.init fun i : Fin n => pp.dMsm dbg n i (bases i) (scalars i) (masks i) sid) :=
  have hs := PSS.small_of_new hpp hb
  ⟨fun _ _ _ => behaveAlike_of_same fun i => PSS.degRedM_same hs dbg hn i _ _ _ _,
    fun _ _ _ => behaveAlike_of_same fun i => PSS.dMsmM_same hs dbg hn i _ _ _ _⟩

/-- **C98** `libsnark_h` behaves as computed exactly, if its vectors and masks have at most `2^63` values in all. -/
theorem C98_libsnark_h (hpp : PSS.new dbg₀ (2 ^ b) = .ok pp) (hb : 4 * 2 ^ b < 2 ^ 64) (dbg : Bool) {n : Nat} (hn : n + 1 < 2 ^ 64)
    (q : Nat → PackedQAPShare F) (masks : Nat → Nat → FftMask F) (hq : ∀ i < n, (q i).a.length * 2 ^ b ≤ 2 ^ 63 ∧
      (q i).b.length * 2 ^ b ≤ 2 ^ 63 ∧ (q i).c.length * 2 ^ b ≤ 2 ^ 63 ∧ (q i).domain.size ≤ 2 ^ 62)
    (hm : ∀ i < n, ∀ k, (masks i k).outMask.length * 2 ^ b ≤ 2 ^ 63) (rng : Nat → Nat → Nat → F) :
    BehaveAlike (Net.init fun i : Fin n => pp.libsnarkHM dbg n i (q i) (masks i) rng)
      (Net.init fun i : Fin n => pp.libsnarkH dbg n i (q i) (masks i) rng) := by
  have hs := PSS.small_of_new hpp hb
  have hl := l_eq hpp
  exact behaveAlike_of_same fun i => PSS.libsnarkHM_same hs dbg hn i (by
    obtain ⟨h1, h2, h3, h4⟩ := hq i i.2
    rw [← hl] at h1 h2 h3
    exact ⟨h1, h2, h3, h4, fun k => by rw [hl]; exact hm i i.2 k⟩) rng

/-! ### Whole sessions -/

variable {G1 G2 GT : Type} [AddCommGroup G1] [Module F G1] [DecidableEq G1]
  [FixedWire G1] [AddCommGroup G2] [Module F G2] [DecidableEq G2] [FixedWire G2] [AddCommGroup GT] [Module F GT]

/-- **C98** The client deals and opens without overflow, and servers that were dealt to behave as computed exactly in every execution, for systems of at
most `2^62` constraints and inputs. -/
theorem C98_session (hpp : PSS.new dbg₀ (2 ^ b) = .ok pp) (hb : 4 * 2 ^ b < 2 ^ 64) (dbg : Bool) (copies : Nat) (mats : ConstraintMatrices F) (z : List F)
    (hsz : mats.numConstraints + mats.numInstanceVariables ≤ 2 ^ 62) (pk : ProvingKey G1 G2) (gen1 : G1) (gen2 : G2) (r s : F)
    (tape : ClientTape F G1 G2) (rng : Nat → Nat → Nat → F) :
    pp.dealM dbg copies mats z pk gen1 gen2 r s tape = pp.deal dbg copies mats z pk gen1 gen2 r s tape ∧
    (∀ result : List (G1 × G2 × G1), pp.openProofM dbg result = pp.openProof dbg result) ∧
    ∀ (n : Nat) (ins : Nat → ServerInput F G1 G2), n + 1 < 2 ^ 64 →
      pp.deal dbg copies mats z pk gen1 gen2 r s tape = .ok ((List.range n).map ins) →
      BehaveAlike (Net.init fun i : Fin n => (ins i).runM pp dbg n i rng) (Net.init fun i : Fin n => (ins i).run pp dbg n i rng) := by
  have hs := PSS.small_of_new hpp hb
  refine ⟨PSS.dealM_eq hs dbg copies mats z hsz pk gen1 gen2 r s tape, PSS.openProofM_eq hs dbg, fun n ins hn hd => ?_⟩
  exact behaveAlike_of_same fun i => ServerInput.runM_same hs dbg hn i
    (deal_fits hs hsz hd (List.mem_map.2 ⟨i, List.mem_range.2 i.2, rfl⟩)) rng

/-- **C98** With a field whose two-adicity is at most 62, a session with machine integers works just when the one computed exactly does. -/
theorem C98_works_iff (hta : FftField.TWO_ADICITY F ≤ 62) (hpp : PSS.new dbg₀ (2 ^ b) = .ok pp) (dbg : Bool) (copies : Nat)
    (mats : ConstraintMatrices F) (z : List F) (hsz : mats.numConstraints + mats.numInstanceVariables ≤ 2 ^ 62) (pk : ProvingKey G1 G2) (gen1 : G1)
    (gen2 : G2) (r s : F) (tape : ClientTape F G1 G2) (rng : Nat → Nat → Nat → F) :
    SessionWorksM GT dbg (2 ^ b) (4 * 2 ^ b) copies mats z pk gen1 gen2 r s tape rng ↔
      SessionWorks GT pp dbg (4 * 2 ^ b) copies mats z pk gen1 gen2 r s tape rng := by
  have hbb : 4 * 2 ^ b ≤ 2 ^ 62 := by
    have h1 := Nat.pow_le_pow_right (n := 2) (by norm_num) ((adicity_of_new hpp).trans hta)
    rw [pow_add] at h1
    omega
  replace hpp := new_any hpp dbg
  have h64 : (2 : Nat) ^ 62 + 1 < 2 ^ 64 := by norm_num
  have hb : 4 * 2 ^ b < 2 ^ 64 := by omega
  obtain ⟨h1, h2, h3⟩ := C98_session hpp hb dbg copies mats z hsz pk gen1 gen2 r s tape rng
  constructor
  · rintro ⟨pp', ins, outs, pA, pB, pC, e, hd, hy, ho, hv⟩
    rw [C98_new dbg hb, hpp] at e
    cases e
    rw [h1] at hd
    rw [h2] at ho
    exact ⟨ins, outs, pA, pB, pC, hd, (yields_of_alike (h3 _ ins (by omega) hd) _).1 hy, ho, hv⟩
  · rintro ⟨ins, outs, pA, pB, pC, hd, hy, ho, hv⟩
    refine ⟨pp, ins, outs, pA, pB, pC, by rw [C98_new dbg hb]; exact hpp, by rw [h1]; exact hd, (yields_of_alike (h3 _ ins (by omega) hd) _).2 hy, ?_, hv⟩
    rw [h2]; exact ho

/-- **C98** A session with machine integers works just when all or none of the shares of `r` are zero, for every packing factor, circuit, key and
assignment, in debug and release builds. -/
theorem C98_works (hta : FftField.TWO_ADICITY F ≤ 62) (hpp : PSS.new dbg₀ (2 ^ b) = .ok pp) (dbg : Bool) (a : Nat)
    {mats : ConstraintMatrices F} {z : List F} {dom dom2 : Domain F} (hcirc : Circuit a b mats z dom dom2)
    (hsat : Satisfies mats.numConstraints mats.a mats.b mats.c z) {pa pb pc : Nat → F[X]}
    (hqap : IsQap mats z.length dom.groupGen (2 ^ (a + b)) pa pb pc) {t : Toxic F} {g1 : G1} {g2 : G2} {pk : ProvingKey G1 G2}
    (hk : IsCircomKey t g1 g2 z.length mats.numInstanceVariables (2 ^ (a + b)) dom2.groupGen pa pb pc pk) (hγ : t.gamma ≠ 0)
    (hδ : t.delta ≠ 0) (hal : dbg = true → KeyAligned (2 ^ b) pk) (gen1 : G1) (gen2 : G2) (r s : F) (tape : ClientTape F G1 G2)
    (rng : Nat → Nat → Nat → F) {rs : List F} (hrs : pp.packM dbg (List.replicate (2 ^ b) r) tape.r = .ok rs) :
    SessionWorksM GT dbg (2 ^ b) (4 * 2 ^ b) (2 ^ b) mats z pk gen1 gen2 r s tape rng ↔ (∀ x ∈ rs, x ≠ 0) ∨ ∀ x ∈ rs, x = 0 := by
  have hle : a + b + 1 ≤ FftField.TWO_ADICITY F := by
    by_contra h
    have := hcirc.double
    rw [Domain.new_none (by rw [clog_two_pow]; omega)] at this
    cases this
  have hsz : mats.numConstraints + mats.numInstanceVariables ≤ 2 ^ 62 :=
    (Domain.le_size hcirc.domain).trans (by rw [hcirc.size]; exact Nat.pow_le_pow_right (by norm_num) (by omega))
  have hb : 4 * 2 ^ b < 2 ^ 64 := by
    have h1 := Nat.pow_le_pow_right (n := 2) (by norm_num) ((adicity_of_new hpp).trans hta)
    rw [pow_add] at h1
    have : (2 : Nat) ^ 62 < 2 ^ 64 := by norm_num
    omega
  rw [PSS.packM_eq (PSS.small_of_new hpp hb)] at hrs
  rw [C98_works_iff hta hpp dbg _ mats z hsz]
  exact (C97_works_iff hpp dbg a (by omega) hcirc hsat hqap hk hγ hδ hal gen1 gen2 r s tape rng hrs).1

end

/-- **C98** Both fields the program runs with are small enough: BN254 and BLS12-377. -/
theorem C98_curves : FftField.TWO_ADICITY Bn254Fr ≤ 62 ∧ FftField.TWO_ADICITY Bls377Fr ≤ 62 := ⟨by decide, by decide⟩

/-! ### Examples -/

/-- Examples for C98: the parameters for `l = 2`, a packing, a transform. -/
example : PSS.newM true (2 ^ 1) = .ok pp17 ∧ pp17.packM true ([3, 5] : List (ZMod 17)) (fun _ => 1) = pp17.pack true [3, 5] (fun _ => 1) ∧
    pp17.fft1InPlaceM true [3, 5, 7, 9] 4 = pp17.fft1InPlace [3, 5, 7, 9] 4 :=
  ⟨by rw [C98_new true (by norm_num)]; exact pp17_eq true, (C98_sharing (T := ZMod 17) (pp17_eq true) (by norm_num) true).1 _ _,
    (C98_transform (pp17_eq true) (by norm_num) true 4).1 _ (by simp)⟩

/-- The wrapped parameters exist for the field of BN254. -/
example : ∃ pp : PSS Bn254Fr, PSS.newM false (2 ^ 63) = .ok pp ∧ pp.n = 0 :=
  let ⟨⟨pp, h, _, hn, _⟩, _⟩ := C98_new_wraps (F := Bn254Fr) (by decide)
  ⟨pp, h, hn⟩

/-- A session with machine integers on the circuit `x·x = y` works. -/
example (tape : ClientTape (ZMod 17) (ZMod 17) (ZMod 17)) (rng : Nat → Nat → Nat → ZMod 17) : ∃ pk : ProvingKey (ZMod 17) (ZMod 17),
    SessionWorksM (ZMod 17) false (2 ^ 1) (4 * 2 ^ 1) (2 ^ 1) mats17 z17 pk 1 1 5 6 (withR tape (l := 2 ^ 1) ![1, 1]) rng := by
  obtain ⟨pa, pb, pc, pk, h1, h2⟩ := C35_key_exists circuit17 (⟨2, 3, 4, 5, 6⟩ : Toxic (ZMod 17)) (1 : ZMod 17) (1 : ZMod 17)
  have key := fun (τ : Fin (2 ^ 1) → ZMod 17) rs
      (hrs : pp17.packM false (List.replicate (2 ^ 1) 5) (fun i => if h : i < 2 ^ 1 then τ ⟨i, h⟩ else 0) = .ok rs) =>
    C98_works (GT := ZMod 17) (by decide) (pp17_eq true) false 1 circuit17 mats17_sat h1 h2 (by decide) (by decide)
      (by simp) 1 1 5 6 (withR tape (l := 2 ^ 1) τ) rng (rs := rs) hrs
  refine ⟨pk, (key ![1, 1] [14, 5, 11, 10, 9, 1, 12, 13] ?_).2 (Or.inl (by decide))⟩
  rw [(C98_sharing (T := ZMod 17) (pp17_eq true) (by norm_num) false).1]
  decide +kernel

/-- A transform over eight parties each holding two elements. -/
example (masks : Nat → FftMask (ZMod 17)) (rng : Nat → Nat → ZMod 17) :
    BehaveAlike (Net.init fun i : Fin 8 => pp17.dFftM true 8 i [3, 5] (masks i) true dom17 .two rng)
      (Net.init fun i : Fin 8 => pp17.dFft true 8 i [3, 5] (masks i) true dom17 .two rng) :=
  (C98_dfft (pp17_eq true) (by norm_num) true (by norm_num) (fun _ => [3, 5]) (by simp) masks true dom17 1 .two rng).1

end ZkSaas.Properties
