import Verif.Lemmas.Lagrange
import Verif.Model.Examples

/-!
# Properties C01–C08: packed secret sharing (`secret-sharing/src/pss.rs`)

Every theorem takes parameters produced by `PackedSharingParams::new(2^b)` (hypothesis `hpp`), in either build
profile `dbg₀`; the calls themselves run in the profile `dbg`.
-/

namespace ZkSaas.Properties

open Finset Spec

variable {F : Type} [Field F] [DecidableEq F] [FftField F]
variable {T : Type} [AddCommGroup T] [Module F T] [DecidableEq T]

theorem l_eq {dbg : Bool} {b : Nat} {pp : PSS F} (h : PSS.new dbg (2 ^ b) = .ok pp) : pp.l = 2 ^ b := by
  by_cases hb : b + 2 ≤ FftField.TWO_ADICITY F
  · rw [PSS.new_pow2 dbg hb] at h; cases h; rfl
  · exfalso
    unfold PSS.new at h
    have e4 : 2 ^ b * 4 = 2 ^ (b + 2) := by rw [pow_add]; norm_num
    simp only [e4] at h
    rw [Domain.new_none (m := 2 ^ (b + 2)) (by rw [clog_two_pow]; omega)] at h
    have : debugAssert dbg (2 ^ (b + 2) == 2 * (2 ^ b + 2 ^ b)) = .ok () :=
      debugAssert_of (by rw [pow_add]; simp; ring)
    rw [this] at h
    simp at h

/-- **C01** Packing then unpacking returns the secrets; nothing panics. -/
theorem C01_pack_unpack {dbg₀ : Bool} {b : Nat} {pp : PSS F} (hpp : PSS.new dbg₀ (2 ^ b) = .ok pp)
    (dbg : Bool) (secrets : List T) (hl : secrets.length = 2 ^ b) (rng : Nat → T) :
    ∃ shares, pp.pack dbg secrets rng = .ok shares ∧ shares.length = 4 * 2 ^ b ∧
      pp.unpack shares = secrets ∧ pp.unpack2 dbg shares = .ok secrets := by
  have hg := PSS.good_of_new hpp
  have hle := l_eq hpp
  have := hg.lpos
  obtain ⟨shares, e, h⟩ := PSS.pack_shares hg dbg (hl.trans hle.symm) rng
  refine ⟨shares, e, by rw [h.1, hle], PSS.unpack_of_shares hg le_rfl h,
    PSS.unpack2_of_shares hg dbg (by omega) h⟩

/-- **C02** Deterministic packing round-trips. -/
theorem C02_det_pack {dbg₀ : Bool} {b : Nat} {pp : PSS F} (hpp : PSS.new dbg₀ (2 ^ b) = .ok pp)
    (dbg : Bool) (secrets : List T) (hl : secrets.length = 2 ^ b) :
    ∃ shares, pp.detPack dbg secrets = .ok shares ∧ shares.length = 4 * 2 ^ b ∧
      pp.unpack shares = secrets ∧ pp.unpack2 dbg shares = .ok secrets := by
  have hg := PSS.good_of_new hpp
  have hle := l_eq hpp
  have := hg.lpos
  obtain ⟨shares, e, h⟩ := PSS.detPack_shares hg dbg (secrets := secrets) (fun _ => hl.trans hle.symm)
  rw [resize_eq_of_length 0 (hl.trans hle.symm)] at h
  refine ⟨shares, e, by rw [h.1, hle], PSS.unpack_of_shares hg le_rfl h,
    PSS.unpack2_of_shares hg dbg (by omega) h⟩

/-- **C02** Wrong lengths: a debug build panics; a release build pads with zeros. -/
theorem C02_det_pack_short {dbg₀ : Bool} {b : Nat} {pp : PSS F} (hpp : PSS.new dbg₀ (2 ^ b) = .ok pp)
    (secrets : List T) (hl : secrets.length < 2 ^ b) :
    pp.detPack true secrets = panic' ∧
    ∃ shares, pp.detPack false secrets = .ok shares ∧ shares.length = 4 * 2 ^ b ∧
      pp.unpack shares = secrets ++ List.replicate (2 ^ b - secrets.length) 0 ∧
      pp.unpack2 false shares = .ok (secrets ++ List.replicate (2 ^ b - secrets.length) 0) := by
  have hg := PSS.good_of_new hpp
  have hle := l_eq hpp
  have := hg.lpos
  constructor
  · unfold PSS.detPack
    have : (secrets.length == pp.l) = false := by simp; omega
    rw [this]
    simp
  · obtain ⟨shares, e, h⟩ := PSS.detPack_shares hg false (secrets := secrets) (by simp)
    have hr : resize secrets pp.l 0 = secrets ++ List.replicate (2 ^ b - secrets.length) 0 := by
      rw [resize, hle, List.take_of_length_le hl.le]
    rw [hr] at h
    exact ⟨shares, e, by rw [h.1, hle], PSS.unpack_of_shares hg le_rfl h,
      PSS.unpack2_of_shares hg false (by omega) h⟩

/-- **C03** Shares are additive and homogeneous. -/
theorem C03_linear {dbg₀ : Bool} {b : Nat} {pp : PSS F} (hpp : PSS.new dbg₀ (2 ^ b) = .ok pp)
    (dbg : Bool) (s₁ s₂ : List T) (h₁ : s₁.length = 2 ^ b) (h₂ : s₂.length = 2 ^ b)
    (rng₁ rng₂ : Nat → T) (k : F) {sh₁ sh₂ : List T}
    (e₁ : pp.pack dbg s₁ rng₁ = .ok sh₁) (e₂ : pp.pack dbg s₂ rng₂ = .ok sh₂) :
    pp.unpack (List.zipWith (· + ·) sh₁ sh₂) = List.zipWith (· + ·) s₁ s₂ ∧
    pp.unpack2 dbg (List.zipWith (· + ·) sh₁ sh₂) = .ok (List.zipWith (· + ·) s₁ s₂) ∧
    pp.unpack (sh₁.map (k • ·)) = s₁.map (k • ·) ∧
    pp.unpack2 dbg (sh₁.map (k • ·)) = .ok (s₁.map (k • ·)) := by
  have hg := PSS.good_of_new hpp
  have hle := l_eq hpp
  have := hg.lpos
  obtain ⟨_, e₁', p₁⟩ := PSS.pack_shares hg dbg (h₁.trans hle.symm) rng₁
  obtain ⟨_, e₂', p₂⟩ := PSS.pack_shares hg dbg (h₂.trans hle.symm) rng₂
  rw [e₁] at e₁'; cases e₁'
  rw [e₂] at e₂'; cases e₂'
  exact ⟨PSS.unpack_of_shares hg le_rfl (Shares.add p₁ p₂), PSS.unpack2_of_shares hg dbg (by omega) (Shares.add p₁ p₂),
    PSS.unpack_of_shares hg le_rfl (Shares.smul k p₁), PSS.unpack2_of_shares hg dbg (by omega) (Shares.smul k p₁)⟩

/-- **C04** Shares can be multiplied once (scalars times field or group elements). -/
theorem C04_multiply {dbg₀ : Bool} {b : Nat} {pp : PSS F} (hpp : PSS.new dbg₀ (2 ^ b) = .ok pp)
    (dbg : Bool) (s₁ : List F) (s₂ : List T) (h₁ : s₁.length = 2 ^ b) (h₂ : s₂.length = 2 ^ b)
    (rng₁ : Nat → F) (rng₂ : Nat → T) {sh₁ : List F} {sh₂ : List T}
    (e₁ : pp.pack dbg s₁ rng₁ = .ok sh₁) (e₂ : pp.pack dbg s₂ rng₂ = .ok sh₂) :
    pp.unpack2 dbg (List.zipWith (· • ·) sh₁ sh₂) = .ok (List.zipWith (· • ·) s₁ s₂) := by
  have hg := PSS.good_of_new hpp
  have hle := l_eq hpp
  have := hg.lpos
  obtain ⟨_, e₁', p₁⟩ := PSS.pack_shares hg dbg (h₁.trans hle.symm) rng₁
  obtain ⟨_, e₂', p₂⟩ := PSS.pack_shares hg dbg (h₂.trans hle.symm) rng₂
  rw [e₁] at e₁'; cases e₁'
  rw [e₂] at e₂'; cases e₂'
  exact PSS.unpack2_of_shares hg dbg (by omega) (Shares.mul p₁ p₂)

/-- **C05** Any `4l-1` distinct parties, in any order, reconstruct a product of two sharings (both builds). -/
theorem C05_lagrange_unpack_product {dbg₀ : Bool} {b : Nat} {pp : PSS F}
    (hpp : PSS.new dbg₀ (2 ^ b) = .ok pp) (dbg : Bool)
    (s₁ : List F) (s₂ : List T) (h₁ : s₁.length = 2 ^ b) (h₂ : s₂.length = 2 ^ b)
    (rng₁ : Nat → F) (rng₂ : Nat → T) {sh₁ : List F} {sh₂ : List T}
    (e₁ : pp.pack dbg s₁ rng₁ = .ok sh₁) (e₂ : pp.pack dbg s₂ rng₂ = .ok sh₂)
    (parties : List Nat) (hnd : parties.Nodup) (hlt : ∀ p ∈ parties, p < 4 * 2 ^ b)
    (hlen : 4 * 2 ^ b - 1 ≤ parties.length) :
    pp.lagrangeUnpack dbg (parties.map fun p => (List.zipWith (· • ·) sh₁ sh₂).getD p 0) parties
      = .ok (List.zipWith (· • ·) s₁ s₂) := by
  have hg := PSS.good_of_new hpp
  have hle := l_eq hpp
  have := hg.lpos
  obtain ⟨_, e₁', p₁⟩ := PSS.pack_shares hg dbg (h₁.trans hle.symm) rng₁
  obtain ⟨_, e₂', p₂⟩ := PSS.pack_shares hg dbg (h₂.trans hle.symm) rng₂
  rw [e₁] at e₁'; cases e₁'
  rw [e₂] at e₂'; cases e₂'
  exact PSS.lagrangeUnpack_of_shares hg dbg hnd (by rwa [hle]) (by omega) (by omega) (Shares.mul p₁ p₂)

/-- **C05** For a single sharing any `2l` distinct parties suffice in a release build (`4l-1` in a debug
build, where the assertion is stricter). -/
theorem C05_lagrange_unpack_single {dbg₀ : Bool} {b : Nat} {pp : PSS F}
    (hpp : PSS.new dbg₀ (2 ^ b) = .ok pp) (dbg : Bool)
    (secrets : List T) (hl : secrets.length = 2 ^ b) (rng : Nat → T) {shares : List T}
    (e : pp.pack dbg secrets rng = .ok shares)
    (parties : List Nat) (hnd : parties.Nodup) (hlt : ∀ p ∈ parties, p < 4 * 2 ^ b)
    (hlen : 2 * 2 ^ b ≤ parties.length) (hdbg : dbg = true → 4 * 2 ^ b - 1 ≤ parties.length) :
    pp.lagrangeUnpack dbg (parties.map fun p => shares.getD p 0) parties = .ok secrets := by
  have hg := PSS.good_of_new hpp
  have hle := l_eq hpp
  obtain ⟨_, e', p⟩ := PSS.pack_shares hg dbg (hl.trans hle.symm) rng
  rw [e] at e'; cases e'
  exact PSS.lagrangeUnpack_of_shares hg dbg hnd (by rwa [hle]) (by omega) (by rwa [hle]) p

/-- **C06** `unpack_missing_shares` with all shares in party order, or one party missing in any order. -/
theorem C06_unpack_missing {dbg₀ : Bool} {b : Nat} {pp : PSS F}
    (hpp : PSS.new dbg₀ (2 ^ b) = .ok pp) (dbg : Bool)
    (s₁ : List F) (s₂ : List T) (h₁ : s₁.length = 2 ^ b) (h₂ : s₂.length = 2 ^ b)
    (rng₁ : Nat → F) (rng₂ : Nat → T) {sh₁ : List F} {sh₂ : List T}
    (e₁ : pp.pack dbg s₁ rng₁ = .ok sh₁) (e₂ : pp.pack dbg s₂ rng₂ = .ok sh₂)
    (parties : List Nat) (hnd : parties.Nodup) (hlt : ∀ p ∈ parties, p < 4 * 2 ^ b)
    (hlen : parties = List.range (4 * 2 ^ b) ∨ parties.length = 4 * 2 ^ b - 1) :
    pp.unpackMissingShares dbg (parties.map fun p => (List.zipWith (· • ·) sh₁ sh₂).getD p 0) parties
      = .ok (List.zipWith (· • ·) s₁ s₂) := by
  have hg := PSS.good_of_new hpp
  have hle := l_eq hpp
  have hpos := hg.lpos
  unfold PSS.unpackMissingShares
  rw [debugAssert_of (by simp), ok_bind]
  rcases hlen with rfl | hlen
  · rw [if_pos (by simp [hg.n_eq, hle])]
    have hll : (List.zipWith (· • ·) sh₁ sh₂).length = 4 * 2 ^ b := by
      obtain ⟨_, e₁', h, _⟩ := C01_pack_unpack hpp dbg s₁ h₁ rng₁
      rw [e₁] at e₁'; cases e₁'
      obtain ⟨_, e₂', h', _⟩ := C01_pack_unpack hpp dbg s₂ h₂ rng₂
      rw [e₂] at e₂'; cases e₂'
      simp [h, h']
    have := (list_eq_map_range (List.zipWith (· • ·) sh₁ sh₂) 0).symm
    rw [hll] at this
    rw [this]
    exact C04_multiply hpp dbg s₁ s₂ h₁ h₂ rng₁ rng₂ e₁ e₂
  · rw [if_neg (by rw [List.length_map, hlen, hg.n_eq, hle]; omega)]
    exact C05_lagrange_unpack_product hpp dbg s₁ s₂ h₁ h₂ rng₁ rng₂ e₁ e₂ parties hnd hlt (by omega)

/-- **C06** With all `n` shares present the party list is ignored, whatever its order. -/
theorem C06_full_list_ignores_parties {dbg₀ : Bool} {b : Nat} {pp : PSS F}
    (hpp : PSS.new dbg₀ (2 ^ b) = .ok pp) (dbg : Bool) (shares : List T) (parties : List Nat)
    (hlen : shares.length = 4 * 2 ^ b) (hp : parties.length = 4 * 2 ^ b) :
    pp.unpackMissingShares dbg shares parties = pp.unpack2 dbg shares := by
  have hg := PSS.good_of_new hpp
  have hle := l_eq hpp
  unfold PSS.unpackMissingShares
  rw [debugAssert_of (by simp [hlen, hp]), ok_bind, if_pos (by rw [hlen, hg.n_eq, hle])]

/-- The parameters used in the examples: `l = 2`, `n = 8` over `F17` (the repository's own test
parameters, `secret-sharing/src/gao.rs:99`). -/
def pp17 : PSS (ZMod 17) :=
  { t := 2, l := 2, n := 8, share := ⟨8, 9, 2, 15, 1, 1⟩, secret := ⟨4, 13, 4, 13, 3, 6⟩,
    secret2 := ⟨8, 9, 2, 15, 3, 6⟩ }

theorem pp17_eq (dbg : Bool) : PSS.new (F := ZMod 17) dbg (2 ^ 1) = .ok pp17 := by
  cases dbg <;> decide +kernel

/-- Non-vacuity for C01–C06: the hypotheses hold for `pp17` and concrete secrets. -/
example : ∃ shares, pp17.pack true ([5, 7] : List (ZMod 17)) (fun i => (i : ZMod 17) + 3) = .ok shares ∧
    pp17.unpack shares = [5, 7] :=
  let ⟨s, h1, _, h3, _⟩ := C01_pack_unpack (pp17_eq true) true [5, 7] rfl _
  ⟨s, h1, h3⟩

example : ([7, 6, 5, 4, 3, 2, 0] : List Nat).Nodup ∧ (∀ p ∈ [7, 6, 5, 4, 3, 2, 0], p < 4 * 2 ^ 1) ∧
    4 * 2 ^ 1 - 1 ≤ [7, 6, 5, 4, 3, 2, 0].length := by decide

/-- **C06** (negative part) A permuted full list *is* decoded wrongly: swapping two shares together with
their party ids changes the result. -/
theorem C06_permuted_full_list_is_wrong :
    ∃ (shares : List (ZMod 17)) (parties : List Nat), parties.Nodup ∧ parties.Perm (List.range 8) ∧
      pp17.pack false [5, 7] (fun _ => 1) = .ok shares ∧
      pp17.unpackMissingShares false (parties.map fun p => shares.getD p 0) parties ≠ .ok [5, 7] := by
  refine ⟨_, [1, 0, 2, 3, 4, 5, 6, 7], by decide, by decide, rfl, ?_⟩
  decide +kernel

/-- The share party `p` receives when `secrets` are packed with the `l` random values `r`; `none` when the call
fails or there is no such share. -/
def shareOf (pp : PSS F) (dbg : Bool) (secrets : List T) {l : Nat} (r : Fin l → T) (p : Nat) : Option T :=
  match pp.pack dbg secrets (fun i => if h : i < l then r ⟨i, h⟩ else 0) with
  | .ok shares => shares[p]?
  | .error _ => none

/-- **C07** Privacy: for `l` distinct parties and fixed secrets every view is produced by exactly one choice of
the `l` random values — so the view is uniform whatever the secrets are. The hypothesis `GENERATOR^(4l) ≠ 1` says
that the secret points are not share points. -/
theorem C07_privacy {dbg₀ : Bool} {b : Nat} {pp : PSS F} (hpp : PSS.new dbg₀ (2 ^ b) = .ok pp)
    (hgen : (FftField.GENERATOR : F) ^ (4 * 2 ^ b) ≠ 1)
    (dbg : Bool) (secrets : List T) (hl : secrets.length = 2 ^ b)
    (P : Fin (2 ^ b) → Nat) (hinj : Function.Injective P) (hlt : ∀ i, P i < 4 * 2 ^ b)
    (view : Fin (2 ^ b) → T) :
    ∃! r : Fin (2 ^ b) → T, ∀ i, shareOf pp dbg secrets r (P i) = some (view i) := by
  have hg := PSS.good_of_new hpp
  have hle := l_eq hpp
  have hoff : pp.secret.offset = FftField.GENERATOR := by
    by_cases hb : b + 2 ≤ FftField.TWO_ADICITY F
    · rw [PSS.new_pow2 dbg₀ hb] at hpp; cases hpp; rfl
    · have := PSS.new_too_large (F := F) dbg₀ (l := 2 ^ b) (by
        rw [show 2 ^ b * 4 = 2 ^ (b + 2) by rw [pow_add]; norm_num, clog_two_pow]; omega)
      rw [this] at hpp; cases hpp
  have := PSS.privacy hg (T := T) (by rwa [hle, hoff]) (secrets := secrets) (hl.trans hle.symm)
    (fun i => if h : i < 2 ^ b then P ⟨i, h⟩ else 0)
    (by
      intro i hi j hj h
      rw [hle] at hi hj
      rw [dif_pos hi, dif_pos hj] at h
      simpa using hinj h)
    (by intro i hi; rw [hle] at hi; rw [dif_pos hi, hle]; exact hlt _)
    (fun i => if h : i < 2 ^ b then view ⟨i, h⟩ else 0)
  obtain ⟨⟨r, hr⟩, huniq⟩ := this
  have hshare : ∀ (rr : Fin (2 ^ b) → T) (i : Fin (2 ^ b)), shareOf pp dbg secrets rr (P i) =
      some ((pp.share.fft (pp.packCoeffs secrets (fun i => if h : i < 2 ^ b then rr ⟨i, h⟩ else 0))).getD (P i) 0) := by
    intro rr i
    unfold shareOf
    rw [PSS.pack_eq hg dbg (hl.trans hle.symm)]
    have : P i < (pp.share.fft (pp.packCoeffs secrets
        (fun i => if h : i < 2 ^ b then rr ⟨i, h⟩ else 0))).length := by
      rw [Domain.fft_length, hg.share_size, hle]; exact hlt i
    simp only [List.getD]
    rw [List.getElem?_eq_getElem this]
    rfl
  refine ⟨fun i => r i, ?_, ?_⟩
  · intro i
    show shareOf pp dbg secrets (fun i : Fin (2 ^ b) => r i) (P i) = some (view i)
    rw [hshare]
    have := hr i (by rw [hle]; exact i.2)
    rw [dif_pos i.2, dif_pos i.2] at this
    rw [← this]
    congr 2
    apply congrArg
    apply PSS.packCoeffs_congr
    intro j hj
    rw [hg.t_eq, hle] at hj
    rw [dif_pos hj]
  · intro r' hr'
    funext i
    have := huniq (fun i => if h : i < 2 ^ b then r' ⟨i, h⟩ else 0) r
      (by
        intro j hj
        rw [hle] at hj
        rw [hr j (by rw [hle]; exact hj), dif_pos hj, dif_pos hj]
        have := hr' ⟨j, hj⟩
        rw [hshare] at this
        exact Option.some.inj this) i (by rw [hle]; exact i.2)
    rw [dif_pos i.2] at this
    exact this

/-- Non-vacuity of C07: `3^8 ≠ 1` in `F17` and two parties of eight. -/
example : (FftField.GENERATOR : ZMod 17) ^ (4 * 2 ^ 1) ≠ 1 ∧
    Function.Injective (fun i : Fin (2 ^ 1) => if i = 0 then 3 else 6) := by
  constructor
  · decide
  · decide

/-- **C07** (why the hypothesis is needed) With `l = 4` over `F17` the generator's `4l`-th power is one and party 1's
share *is* the first secret. -/
theorem C07_needs_disjoint_points :
    ∃ pp, PSS.new (F := ZMod 17) true (2 ^ 2) = .ok pp ∧ (FftField.GENERATOR : ZMod 17) ^ (4 * 2 ^ 2) = 1 ∧
    ∀ s₀ s₁ s₂ s₃ : ZMod 17, ∀ rng : Nat → ZMod 17, ∃ shares,
      pp.pack true [s₀, s₁, s₂, s₃] rng = .ok shares ∧ shares[1]? = some s₀ := by
  refine ⟨_, PSS.new_pow2 true (by decide), by decide, ?_⟩
  intro s₀ s₁ s₂ s₃ rng
  have hpp := PSS.new_pow2 (F := ZMod 17) true (b := 2) (by decide)
  have hg := PSS.good_of_new hpp
  obtain ⟨shares, e, h1, h2, c, h3, h4⟩ := PSS.pack_shares hg true (secrets := [s₀, s₁, s₂, s₃]) rfl rng
  refine ⟨shares, e, ?_⟩
  have a := h3 1 (by norm_num)
  have b := h4 0 (by norm_num)
  have hx : (rootOfUnity (2 + 2) : ZMod 17) ^ 1 = FftField.GENERATOR * (rootOfUnity (2 + 2) ^ 2) ^ 0 := by decide
  simp only at a b h1
  rw [hx, ← b] at a
  have hlen : 1 < shares.length := by rw [h1]; norm_num
  rw [List.getElem?_eq_getElem hlen]
  rw [List.getD, List.getElem?_eq_getElem hlen] at a
  simpa using a

/-- **C08** Parameters for a supported power of two. -/
theorem C08_new_ok (dbg : Bool) (b : Nat) (hb : b + 2 ≤ FftField.TWO_ADICITY F) :
    ∃ pp, PSS.new (F := F) dbg (2 ^ b) = .ok pp ∧ pp.l = 2 ^ b ∧ pp.t = 2 ^ b ∧ pp.n = 4 * 2 ^ b ∧
      pp.share.size = 4 * 2 ^ b ∧ pp.secret.size = 2 * 2 ^ b ∧ pp.secret2.size = 4 * 2 ^ b ∧
      pp.share.offset = 1 ∧ pp.secret.offset = FftField.GENERATOR ∧ pp.secret2.offset = FftField.GENERATOR ∧
      IsPrimitiveRoot pp.share.groupGen (4 * 2 ^ b) ∧ pp.secret.groupGen = pp.share.groupGen ^ 2 ∧
      pp.secret2.groupGen = pp.share.groupGen := by
  have hpp := PSS.new_pow2 (F := F) dbg hb
  have hg := PSS.good_of_new hpp
  have hp := hg.share_wf.prim
  rw [hg.share_size] at hp
  exact ⟨_, hpp, rfl, rfl, rfl, hg.share_size, hg.secret_size, hg.secret2_size, rfl, rfl, rfl, hp,
    hg.secret_gen, rfl⟩

/-- **C08** Beyond the two-adicity the constructor panics in every build. -/
theorem C08_new_too_large (dbg : Bool) (l : Nat) (h : 2 ^ FftField.TWO_ADICITY F < 4 * l) :
    PSS.new (F := F) dbg l = panic' := by
  apply PSS.new_too_large
  rw [mul_comm, Nat.lt_clog_iff_pow_lt (by norm_num)]
  exact h

/-- **C08** A debug build refuses every `l` that is not a power of two. -/
theorem C08_new_debug_not_pow2 (l : Nat) (h : ∀ b, l ≠ 2 ^ b) : PSS.new (F := F) true l = panic' :=
  PSS.new_debug_not_pow2 l h

/-- **C08** A release build accepts such an `l` (within the two-adicity), with `n` different from the number of shares
that `pack` produces. -/
theorem C08_new_release_not_pow2 (l : Nat) (h : ∀ b, l ≠ 2 ^ b) (hle : 4 * l ≤ 2 ^ FftField.TWO_ADICITY F) :
    ∃ pp, PSS.new (F := F) false l = .ok pp ∧ pp.n = 4 * l ∧
      ∀ (secrets : List T) (rng : Nat → T), ∃ shares, pp.pack false secrets rng = .ok shares ∧
        shares.length ≠ pp.n := by
  obtain ⟨pp, e, hn, hs⟩ := PSS.new_release_not_pow2 (F := F) l h hle
  refine ⟨pp, e, hn, fun secrets rng => ⟨_, PSS.pack_release pp secrets rng, ?_⟩⟩
  rw [Domain.fft_length, hn]
  exact hs

example : (∀ b, 3 ≠ 2 ^ b) ∧ 4 * 3 ≤ 2 ^ FftField.TWO_ADICITY (ZMod 17) := by
  constructor
  · intro b
    match b with
    | 0 => decide
    | 1 => decide
    | b + 2 => rw [pow_add]; omega
  · decide

/-- Examples for C02: `det_pack` of two secrets, and of one. -/
example : ∃ shares, pp17.detPack true ([5, 7] : List (ZMod 17)) = .ok shares ∧ pp17.unpack shares = [5, 7] :=
  let ⟨s, h1, _, h3, _⟩ := C02_det_pack (pp17_eq true) true [5, 7] rfl
  ⟨s, h1, h3⟩

example : pp17.detPack true ([5] : List (ZMod 17)) = panic' ∧
    ∃ shares, pp17.detPack false ([5] : List (ZMod 17)) = .ok shares ∧ pp17.unpack shares = [5, 0] :=
  let ⟨h, s, h1, _, h3, _⟩ := C02_det_pack_short (pp17_eq true) [5] (by decide)
  ⟨h, s, h1, h3⟩

/-- Example for C03, C04, C05 and C06: two packed vectors are added, scaled, multiplied, and the product is opened without party 1. -/
example : ∃ sh₁ sh₂ : List (ZMod 17),
    pp17.pack true [5, 7] (fun i => (i : ZMod 17) + 3) = .ok sh₁ ∧ pp17.pack true [3, 16] (fun i => (i : ZMod 17) * 9) = .ok sh₂ ∧
    pp17.unpack (List.zipWith (· + ·) sh₁ sh₂) = [8, 6] ∧ pp17.unpack (sh₁.map ((4 : ZMod 17) • ·)) = [3, 11] ∧
    pp17.unpack2 true (List.zipWith (· • ·) sh₁ sh₂) = .ok [15, 10] ∧
    pp17.lagrangeUnpack true ([7, 6, 5, 4, 3, 2, 0].map fun p => (List.zipWith (· • ·) sh₁ sh₂).getD p 0) [7, 6, 5, 4, 3, 2, 0]
      = .ok [15, 10] ∧
    pp17.lagrangeUnpack true ([7, 6, 5, 4, 3, 2, 0].map fun p => sh₁.getD p 0) [7, 6, 5, 4, 3, 2, 0] = .ok [5, 7] ∧
    pp17.unpackMissingShares true ([7, 6, 5, 4, 3, 2, 0].map fun p => (List.zipWith (· • ·) sh₁ sh₂).getD p 0) [7, 6, 5, 4, 3, 2, 0]
      = .ok [15, 10] := by
  obtain ⟨sh₁, e₁, -⟩ := C01_pack_unpack (b := 1) (pp17_eq true) true ([5, 7] : List (ZMod 17)) rfl (fun i => (i : ZMod 17) + 3)
  obtain ⟨sh₂, e₂, -⟩ := C01_pack_unpack (b := 1) (pp17_eq true) true ([3, 16] : List (ZMod 17)) rfl (fun i => (i : ZMod 17) * 9)
  obtain ⟨h1, -, h2, -⟩ := C03_linear (b := 1) (pp17_eq true) true [5, 7] [3, 16] rfl rfl _ _ (4 : ZMod 17) e₁ e₂
  have h3 := C04_multiply (b := 1) (pp17_eq true) true [5, 7] [3, 16] rfl rfl _ _ e₁ e₂
  have h4 := C05_lagrange_unpack_product (b := 1) (pp17_eq true) true [5, 7] [3, 16] rfl rfl _ _ e₁ e₂ [7, 6, 5, 4, 3, 2, 0]
    (by decide) (by decide) (by decide)
  have h5 := C05_lagrange_unpack_single (b := 1) (pp17_eq true) true [5, 7] rfl _ e₁ [7, 6, 5, 4, 3, 2, 0]
    (by decide) (by decide) (by decide) (by decide)
  have h6 := C06_unpack_missing (b := 1) (pp17_eq true) true [5, 7] [3, 16] rfl rfl _ _ e₁ e₂ [7, 6, 5, 4, 3, 2, 0]
    (by decide) (by decide) (Or.inr rfl)
  exact ⟨sh₁, sh₂, e₁, e₂, h1.trans (by decide), h2.trans (by decide), h3.trans (by decide), h4.trans (by decide), h5, h6.trans (by decide)⟩

/-- Example for C06: the list of parties plays no role when all shares are there. -/
example : pp17.unpackMissingShares true ([0, 1, 2, 3, 4, 5, 6, 7] : List (ZMod 17)) [7, 6, 5, 4, 3, 2, 1, 0] =
    pp17.unpack2 true [0, 1, 2, 3, 4, 5, 6, 7] :=
  C06_full_list_ignores_parties (b := 1) (pp17_eq true) true _ _ rfl rfl

/-- Example for C07: for the view `[1, 16]` of parties 3 and 6 one pair of random values fits the secrets `[5, 7]`. -/
example : ∃! r : Fin (2 ^ 1) → ZMod 17, ∀ i : Fin (2 ^ 1),
    shareOf pp17 true [5, 7] r (if i = 0 then 3 else 6) = some (if i = 0 then 1 else 16) :=
  C07_privacy (b := 1) (pp17_eq true) (by decide) true [5, 7] rfl (fun i => if i = 0 then 3 else 6) (by decide) (by decide)
    fun i => if i = 0 then 1 else 16

/-- Examples for C08: packing factors 4, 5 and 3 in the field with 17 elements. -/
example (dbg : Bool) : ∃ pp, PSS.new (F := ZMod 17) dbg (2 ^ 2) = .ok pp ∧ pp.n = 4 * 2 ^ 2 :=
  let ⟨pp, h1, h⟩ := C08_new_ok (F := ZMod 17) dbg 2 (by decide)
  ⟨pp, h1, by tauto⟩

example (dbg : Bool) : PSS.new (F := ZMod 17) dbg 5 = panic' := C08_new_too_large dbg 5 (by decide)

example : PSS.new (F := ZMod 17) true 3 = panic' :=
  C08_new_debug_not_pow2 3 fun b => by
    match b with
    | 0 => decide
    | 1 => decide
    | b + 2 => rw [pow_add]; omega

example : ∃ pp, PSS.new (F := ZMod 17) false 3 = .ok pp :=
  let ⟨pp, h, _⟩ := C08_new_release_not_pow2 (F := ZMod 17) (T := ZMod 17) 3 (fun b => by
    match b with
    | 0 => decide
    | 1 => decide
    | b + 2 => rw [pow_add]; omega) (by decide)
  ⟨pp, h⟩

end ZkSaas.Properties
