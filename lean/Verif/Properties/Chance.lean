import Verif.Spec.Chance
import Verif.Properties.Traffic
import Verif.Properties.Streams
import Verif.Properties.Fields

/-!
# C97: for which random choices a session works, and how many they are
-/

set_option linter.unusedSectionVars false

namespace ZkSaas.Properties

open Finset Spec Polynomial

variable {F : Type} [Field F] [DecidableEq F] [FftField F] [FixedWire F] {G1 G2 GT : Type} [AddCommGroup G1] [Module F G1] [DecidableEq G1]
  [FixedWire G1] [AddCommGroup G2] [Module F G2] [DecidableEq G2] [FixedWire G2] [AddCommGroup GT] [Module F GT]

/-- **C97** Whatever the servers were dealt: if the share of `r` of one is zero and that of another is not, there is no execution on a reliable
network in which all of them end with an answer. -/
theorem C97_mixed (pp : PSS F) (dbg : Bool) {n : Nat} (ins : Nat → ServerInput F G1 G2) (rng : Nat → Nat → Nat → F) (i j : Fin n)
    (hi : (ins i).r = 0) (hj : (ins j).r ≠ 0) {k : Nat} {c : Net n (G1 × G2 × G1)}
    (h : GSteps Reliable k (Net.init fun i : Fin n => (ins i).run pp dbg n i rng) c) : ∃ m, ∀ v, c.procs m ≠ .done (.ok v) := by
  by_contra hc
  push Not at hc
  have hn : 0 < n := i.pos
  have hempty := ((paced_init (n := n) fun i : Fin n => ServerInput.run_alt (n := n) (ins i) pp dbg i rng).steps h).empty hc
  obtain ⟨tr, ht, -⟩ := h.trace
  have key : ∀ m : Fin n, m.val ≠ 0 → ((ins 0).r = 0 ↔ (ins m).r = 0) := by
    intro m hm
    obtain ⟨v, hv⟩ := hc m
    obtain ⟨v0, hv0⟩ := hc ⟨0, hn⟩
    have h1 := ((C72_session pp dbg n m (ins m) rng _ m.2 rfl tr c ht).2 v hv .zero).2 hm
    have h2 := ((C72_session pp dbg n 0 (ins 0) rng _ hn rfl tr c ht).2 v0 hv0 .zero).1 rfl m (by omega) m.2
    have h3 := trace_fifo ht 0 m .zero
    rw [show (Net.init fun i : Fin n => (ins i).run pp dbg n i rng).queues (0, m.val, .zero) = [] from rfl, hempty, h1.2, h2] at h3
    simp only [List.length_nil] at h3
    split_ifs at h3 with e1 e2 e2 <;> first | omega | simp_all
  have all : ∀ m : Fin n, (ins 0).r = 0 ↔ (ins m).r = 0 := fun m => by
    by_cases hm : m.val = 0
    · rw [hm]
    · exact key m hm
  exact hj ((all j).1 ((all i).2 hi))

section session
variable {dbg₀ : Bool} {b : Nat} {pp : PSS F}

/-- **C97** A session (with `l` copies of `r`) on a satisfied constraint system works just when all shares of `r` or none of them is zero. If it does
not work, it never ends. -/
theorem C97_works_iff (hpp : PSS.new dbg₀ (2 ^ b) = .ok pp) (dbg : Bool) (a : Nat) (ha : a < 64)
    {mats : ConstraintMatrices F} {z : List F} {dom dom2 : Domain F} (hcirc : Circuit a b mats z dom dom2)
    (hsat : Satisfies mats.numConstraints mats.a mats.b mats.c z) {pa pb pc : Nat → F[X]}
    (hqap : IsQap mats z.length dom.groupGen (2 ^ (a + b)) pa pb pc) {t : Toxic F} {g1 : G1} {g2 : G2} {pk : ProvingKey G1 G2}
    (hk : IsCircomKey t g1 g2 z.length mats.numInstanceVariables (2 ^ (a + b)) dom2.groupGen pa pb pc pk) (hγ : t.gamma ≠ 0)
    (hδ : t.delta ≠ 0) (hal : dbg = true → KeyAligned (2 ^ b) pk) (gen1 : G1) (gen2 : G2) (r s : F) (tape : ClientTape F G1 G2)
    (rng : Nat → Nat → Nat → F) {rs : List F} (hrs : pp.pack dbg (List.replicate (2 ^ b) r) tape.r = .ok rs) :
    (SessionWorks GT pp dbg (4 * 2 ^ b) (2 ^ b) mats z pk gen1 gen2 r s tape rng ↔ (∀ x ∈ rs, x ≠ 0) ∨ ∀ x ∈ rs, x = 0) ∧
    (¬ SessionWorks GT pp dbg (4 * 2 ^ b) (2 ^ b) mats z pk gen1 gen2 r s tape rng →
      SessionNeverEnds pp dbg (4 * 2 ^ b) (2 ^ b) mats z pk gen1 gen2 r s tape rng) := by
  have hgood : ((∀ x ∈ rs, x ≠ 0) ∨ ∀ x ∈ rs, x = 0) → SessionWorks GT pp dbg (4 * 2 ^ b) (2 ^ b) mats z pk gen1 gen2 r s tape rng := fun h =>
    C35_proof_verifies (GT := GT) hpp dbg a ha hcirc hsat hqap hk hγ hδ hal gen1 gen2 r s tape (fun rs' h' => by
      rw [hrs] at h'
      cases h'
      exact h) rng
  have hbad : ¬ ((∀ x ∈ rs, x ≠ 0) ∨ ∀ x ∈ rs, x = 0) → ∀ ins : Nat → ServerInput F G1 G2,
      pp.deal dbg (2 ^ b) mats z pk gen1 gen2 r s tape = .ok ((List.range (4 * 2 ^ b)).map ins) →
      ∀ k c, GSteps Reliable k (Net.init fun i : Fin (4 * 2 ^ b) => (ins i).run pp dbg (4 * 2 ^ b) i rng) c → ∃ i, ∀ v, c.procs i ≠ .done (.ok v) := by
    intro h ins hd k c hs
    push Not at h
    obtain ⟨⟨x, hx, hx0⟩, y, hy, hy0⟩ := h
    obtain ⟨sh, e, hl, -⟩ := pack_holdsValue hpp dbg r tape.r
    rw [hrs] at e
    cases e
    obtain ⟨i, hi, rfl⟩ := List.getElem_of_mem hx
    obtain ⟨j, hj, rfl⟩ := List.getElem_of_mem hy
    have hr : ∀ p (hp : p < rs.length), (ins p).r = rs[p] := fun p hp => by
      obtain ⟨_, -, -, h1, -⟩ := deal_parts (p := p) (x := ins p) (by rw [hd]; exact partOf_range ins (by omega))
      rw [hrs] at h1
      have h2 : rs[p]? = some (ins p).r := h1
      rw [List.getElem?_eq_getElem hp] at h2
      exact (Option.some.inj h2).symm
    exact C97_mixed pp dbg ins rng ⟨i, by omega⟩ ⟨j, by omega⟩ ((hr i hi).trans hx0) (by rw [hr j hj]; exact hy0) hs
  obtain ⟨ins, hd⟩ := deal_succeeds hpp dbg a hcirc hk hal gen1 gen2 r s tape
  refine ⟨⟨fun hw => ?_, hgood⟩, fun hw => ⟨ins, hd, hbad (fun h => hw (hgood h)) ins hd⟩⟩
  by_contra h
  obtain ⟨ins', outs, -, -, -, hd', ⟨hb, hy⟩, -⟩ := hw
  obtain ⟨k, c, hs, hst⟩ := exists_final hb
  obtain ⟨i, hi⟩ := hbad h ins' hd' k c hs
  exact hi _ (hy k c hs hst i)

/-- The share of party `p` on a tape with given random values. -/
theorem shareOf_withR {dbg : Bool} {tape : ClientTape F G1 G2} {r : F} {τ : Fin (2 ^ b) → F} {rs : List F}
    (h : pp.pack dbg (List.replicate (2 ^ b) r) (withR tape τ).r = .ok rs) (p : Nat) :
    shareOf pp dbg (List.replicate (2 ^ b) r) τ p = rs[p]? := by
  have h' : pp.pack dbg (List.replicate (2 ^ b) r) (fun i => if h : i < 2 ^ b then τ ⟨i, h⟩ else 0) = .ok rs := h
  rw [shareOf, h']

/-- **C97** How often sessions (with `l` copies of `r`) fail: for every `r` at most `4l` in `|F|` of the choices of the random values for `r`; for
every `r` other than zero at least one in `|F|`; and then the session never ends. -/
theorem C97_chance [Finite F] (hpp : PSS.new dbg₀ (2 ^ b) = .ok pp) (hgen : (FftField.GENERATOR : F) ^ (4 * 2 ^ b) ≠ 1) (dbg : Bool)
    (a : Nat) (ha : a < 64) {mats : ConstraintMatrices F} {z : List F} {dom dom2 : Domain F} (hcirc : Circuit a b mats z dom dom2)
    (hsat : Satisfies mats.numConstraints mats.a mats.b mats.c z) {pa pb pc : Nat → F[X]}
    (hqap : IsQap mats z.length dom.groupGen (2 ^ (a + b)) pa pb pc) {t : Toxic F} {g1 : G1} {g2 : G2} {pk : ProvingKey G1 G2}
    (hk : IsCircomKey t g1 g2 z.length mats.numInstanceVariables (2 ^ (a + b)) dom2.groupGen pa pb pc pk) (hγ : t.gamma ≠ 0)
    (hδ : t.delta ≠ 0) (hal : dbg = true → KeyAligned (2 ^ b) pk) (gen1 : G1) (gen2 : G2) (r s : F) (tape : ClientTape F G1 G2)
    (rng : Nat → Nat → Nat → F) :
    let works (τ : Fin (2 ^ b) → F) := SessionWorks GT pp dbg (4 * 2 ^ b) (2 ^ b) mats z pk gen1 gen2 r s (withR tape τ) rng
    Nat.card F * Nat.card {τ // ¬ works τ} ≤ 4 * 2 ^ b * Nat.card (Fin (2 ^ b) → F) ∧
    (r ≠ 0 → Nat.card (Fin (2 ^ b) → F) ≤ Nat.card F * Nat.card {τ // ¬ works τ}) ∧
    ∀ τ, ¬ works τ → SessionNeverEnds pp dbg (4 * 2 ^ b) (2 ^ b) mats z pk gen1 gen2 r s (withR tape τ) rng := by
  intro works
  have hb : 0 < 2 ^ b := by positivity
  have hw : ∀ τ : Fin (2 ^ b) → F, ∃ rs, pp.pack dbg (List.replicate (2 ^ b) r) (withR tape τ).r = .ok rs ∧ rs.length = 4 * 2 ^ b ∧
      HoldsValue pp b (fun p => rs.getD p 0) r ∧ (works τ ↔ (∀ x ∈ rs, x ≠ 0) ∨ ∀ x ∈ rs, x = 0) ∧
      (¬ works τ → SessionNeverEnds pp dbg (4 * 2 ^ b) (2 ^ b) mats z pk gen1 gen2 r s (withR tape τ) rng) := fun τ => by
    obtain ⟨rs, h1, h2, h3⟩ := pack_holdsValue hpp dbg r (withR tape τ).r
    have h4 := C97_works_iff (GT := GT) hpp dbg a ha hcirc hsat hqap hk hγ hδ hal gen1 gen2 r s (withR tape τ) rng h1
    exact ⟨rs, h1, h2, h3, h4.1, h4.2⟩
  refine ⟨le_trans (Nat.mul_le_mul_left _ ?_) (C36_zero_share_rare hpp hgen dbg (List.replicate (2 ^ b) r) (by simp)), fun hr => ?_, fun τ h => ?_⟩
  · refine Nat.card_le_card_of_injective (fun τ => ⟨τ.1, ?_⟩) fun x y h => Subtype.ext (Subtype.mk.inj h)
    obtain ⟨rs, h1, h2, -, h4, -⟩ := hw τ.1
    have h5 := mt h4.2 τ.2
    push Not at h5
    obtain ⟨⟨x, hx, rfl⟩, -⟩ := h5
    obtain ⟨p, hp, e⟩ := List.getElem_of_mem hx
    exact ⟨p, by omega, by rw [shareOf_withR h1, List.getElem?_eq_getElem hp, e]⟩
  · rw [← C36_share_uniform hpp hgen dbg (List.replicate (2 ^ b) r) (by simp) 0 (by omega) 0]
    refine Nat.mul_le_mul_left _ (Nat.card_le_card_of_injective (fun τ => ⟨τ.1, ?_⟩) fun x y h => Subtype.ext (Subtype.mk.inj h))
    obtain ⟨rs, h1, h2, h3, h4, -⟩ := hw τ.1
    have h0 := τ.2
    rw [shareOf_withR h1] at h0
    rw [h4]
    rintro (h | h)
    · exact h 0 (List.mem_of_getElem? h0) rfl
    · obtain ⟨p, hp, h6⟩ := h3.exists_ne_zero hpp hr
      rw [List.getD_eq_getElem _ _ (by omega)] at h6
      exact h6 (h _ (List.getElem_mem _))
  · obtain ⟨-, -, -, -, -, h5⟩ := hw τ
    exact h5 h

end session

/-- **C97** BN254: a session fails for fewer than `4l` in `2^253` of the choices of the random values for `r`, and, if `r` is not zero, for more than one in
`2^254`. -/
theorem C97_bn254 {G1 G2 GT : Type} [AddCommGroup G1] [Module Bn254Fr G1] [DecidableEq G1] [FixedWire G1] [AddCommGroup G2]
    [Module Bn254Fr G2] [DecidableEq G2] [FixedWire G2] [AddCommGroup GT] [Module Bn254Fr GT] {dbg₀ : Bool} {b : Nat} {pp : PSS Bn254Fr}
    (hpp : PSS.new dbg₀ (2 ^ b) = .ok pp) (dbg : Bool) (a : Nat) (ha : a < 64) {mats : ConstraintMatrices Bn254Fr} {z : List Bn254Fr}
    {dom dom2 : Domain Bn254Fr} (hcirc : Circuit a b mats z dom dom2)
    (hsat : Satisfies mats.numConstraints mats.a mats.b mats.c z) {pa pb pc : Nat → Bn254Fr[X]}
    (hqap : IsQap mats z.length dom.groupGen (2 ^ (a + b)) pa pb pc) {t : Toxic Bn254Fr} {g1 : G1} {g2 : G2} {pk : ProvingKey G1 G2}
    (hk : IsCircomKey t g1 g2 z.length mats.numInstanceVariables (2 ^ (a + b)) dom2.groupGen pa pb pc pk) (hγ : t.gamma ≠ 0)
    (hδ : t.delta ≠ 0) (hal : dbg = true → KeyAligned (2 ^ b) pk) (gen1 : G1) (gen2 : G2) (r s : Bn254Fr) (tape : ClientTape Bn254Fr G1 G2)
    (rng : Nat → Nat → Nat → Bn254Fr) :
    let works (τ : Fin (2 ^ b) → Bn254Fr) := SessionWorks GT pp dbg (4 * 2 ^ b) (2 ^ b) mats z pk gen1 gen2 r s (withR tape τ) rng
    2 ^ 253 * Nat.card {τ // ¬ works τ} < 4 * 2 ^ b * Nat.card (Fin (2 ^ b) → Bn254Fr) ∧
    (r ≠ 0 → Nat.card (Fin (2 ^ b) → Bn254Fr) < 2 ^ 254 * Nat.card {τ // ¬ works τ}) := by
  intro works
  have hgen : (FftField.GENERATOR : Bn254Fr) ^ (4 * 2 ^ b) ≠ 1 := by
    rw [show 4 * 2 ^ b = 2 ^ (b + 2) by rw [pow_add]; ring]
    exact C80_bn254_parameters.2.2.2 _
  obtain ⟨h1, h2, -⟩ := C97_chance (GT := GT) hpp hgen dbg a ha hcirc hsat hqap hk hγ hδ hal gen1 gen2 r s tape rng
  have hc : Nat.card Bn254Fr = bn254 := Nat.card_zmod _
  rw [hc] at h1 h2
  have hpos : 0 < Nat.card (Fin (2 ^ b) → Bn254Fr) := Nat.card_pos
  have hlo : 2 ^ 253 < bn254 := by decide +kernel
  have hup : bn254 < 2 ^ 254 := by decide +kernel
  rcases Nat.eq_zero_or_pos (Nat.card {τ // ¬ works τ}) with h0 | h0
  · refine ⟨by rw [h0]; positivity, fun hr => ?_⟩
    have := h2 hr
    rw [show Nat.card {τ // ¬ works τ} = 0 from h0] at this
    omega
  · exact ⟨lt_of_lt_of_le (Nat.mul_lt_mul_of_pos_right hlo h0) h1, fun hr => lt_of_le_of_lt (h2 hr) (Nat.mul_lt_mul_of_pos_right hup h0)⟩

/-- **C97** BLS12-377: a session fails for fewer than `4l` in `2^252` of the choices of the random values for `r`, and, if `r` is not zero, for more than one in
`2^253`. -/
theorem C97_bls377 {G1 G2 GT : Type} [AddCommGroup G1] [Module Bls377Fr G1] [DecidableEq G1] [FixedWire G1] [AddCommGroup G2]
    [Module Bls377Fr G2] [DecidableEq G2] [FixedWire G2] [AddCommGroup GT] [Module Bls377Fr GT] {dbg₀ : Bool} {b : Nat} {pp : PSS Bls377Fr}
    (hpp : PSS.new dbg₀ (2 ^ b) = .ok pp) (dbg : Bool) (a : Nat) (ha : a < 64) {mats : ConstraintMatrices Bls377Fr} {z : List Bls377Fr}
    {dom dom2 : Domain Bls377Fr} (hcirc : Circuit a b mats z dom dom2)
    (hsat : Satisfies mats.numConstraints mats.a mats.b mats.c z) {pa pb pc : Nat → Bls377Fr[X]}
    (hqap : IsQap mats z.length dom.groupGen (2 ^ (a + b)) pa pb pc) {t : Toxic Bls377Fr} {g1 : G1} {g2 : G2} {pk : ProvingKey G1 G2}
    (hk : IsCircomKey t g1 g2 z.length mats.numInstanceVariables (2 ^ (a + b)) dom2.groupGen pa pb pc pk) (hγ : t.gamma ≠ 0)
    (hδ : t.delta ≠ 0) (hal : dbg = true → KeyAligned (2 ^ b) pk) (gen1 : G1) (gen2 : G2) (r s : Bls377Fr) (tape : ClientTape Bls377Fr G1 G2)
    (rng : Nat → Nat → Nat → Bls377Fr) :
    let works (τ : Fin (2 ^ b) → Bls377Fr) := SessionWorks GT pp dbg (4 * 2 ^ b) (2 ^ b) mats z pk gen1 gen2 r s (withR tape τ) rng
    2 ^ 252 * Nat.card {τ // ¬ works τ} < 4 * 2 ^ b * Nat.card (Fin (2 ^ b) → Bls377Fr) ∧
    (r ≠ 0 → Nat.card (Fin (2 ^ b) → Bls377Fr) < 2 ^ 253 * Nat.card {τ // ¬ works τ}) := by
  intro works
  have hgen : (FftField.GENERATOR : Bls377Fr) ^ (4 * 2 ^ b) ≠ 1 := by
    rw [show 4 * 2 ^ b = 2 ^ (b + 2) by rw [pow_add]; ring]
    exact C80_bls377_parameters.2.2.2 _
  obtain ⟨h1, h2, -⟩ := C97_chance (GT := GT) hpp hgen dbg a ha hcirc hsat hqap hk hγ hδ hal gen1 gen2 r s tape rng
  have hc : Nat.card Bls377Fr = bls377 := Nat.card_zmod _
  rw [hc] at h1 h2
  have hpos : 0 < Nat.card (Fin (2 ^ b) → Bls377Fr) := Nat.card_pos
  have hlo : 2 ^ 252 < bls377 := by decide +kernel
  have hup : bls377 < 2 ^ 253 := by decide +kernel
  rcases Nat.eq_zero_or_pos (Nat.card {τ // ¬ works τ}) with h0 | h0
  · refine ⟨by rw [h0]; positivity, fun hr => ?_⟩
    have := h2 hr
    rw [show Nat.card {τ // ¬ works τ} = 0 from h0] at this
    omega
  · exact ⟨lt_of_lt_of_le (Nat.mul_lt_mul_of_pos_right hlo h0) h1, fun hr => lt_of_le_of_lt (h2 hr) (Nat.mul_lt_mul_of_pos_right hup h0)⟩

/-! ### Examples -/

/-- Examples for C97: with the random values `(1, 1)` for `r = 5` the session on the circuit `x·x = y` works, with `(1, 0)` it never ends. -/
example (tape : ClientTape (ZMod 17) (ZMod 17) (ZMod 17)) (rng : Nat → Nat → Nat → ZMod 17) : ∃ pk : ProvingKey (ZMod 17) (ZMod 17),
    SessionWorks (ZMod 17) pp17 false (4 * 2 ^ 1) (2 ^ 1) mats17 z17 pk 1 1 5 6 (withR tape (l := 2 ^ 1) ![1, 1]) rng ∧
    SessionNeverEnds pp17 false (4 * 2 ^ 1) (2 ^ 1) mats17 z17 pk 1 1 5 6 (withR tape (l := 2 ^ 1) ![1, 0]) rng := by
  obtain ⟨pa, pb, pc, pk, h1, h2⟩ := C35_key_exists circuit17 (⟨2, 3, 4, 5, 6⟩ : Toxic (ZMod 17)) (1 : ZMod 17) (1 : ZMod 17)
  have key := fun (τ : Fin (2 ^ 1) → ZMod 17) rs
      (hrs : pp17.pack false (List.replicate (2 ^ 1) 5) (fun i => if h : i < 2 ^ 1 then τ ⟨i, h⟩ else 0) = .ok rs) => C97_works_iff (GT := ZMod 17) (pp17_eq true) false 1 (by norm_num) circuit17 mats17_sat h1 h2 (by decide) (by decide)
    (by simp) 1 1 5 6 (withR tape (l := 2 ^ 1) τ) rng (rs := rs) hrs
  refine ⟨pk, (key ![1, 1] [14, 5, 11, 10, 9, 1, 12, 13] (by decide +kernel)).1.2 (Or.inl (by decide)), ?_⟩
  have h := key ![1, 0] [4, 0, 2, 15, 11, 10, 11, 3] (by decide +kernel)
  exact h.2 fun hw => (show ¬ ((∀ x ∈ ([4, 0, 2, 15, 11, 10, 11, 3] : List (ZMod 17)), x ≠ 0) ∨
    ∀ x ∈ ([4, 0, 2, 15, 11, 10, 11, 3] : List (ZMod 17)), x = 0) by decide) (h.1.1 hw)

/-- With `F17` between 17 and 136 of the 289 choices are bad. -/
example (tape : ClientTape (ZMod 17) (ZMod 17) (ZMod 17)) (rng : Nat → Nat → Nat → ZMod 17) : ∃ pk : ProvingKey (ZMod 17) (ZMod 17),
    let bad := Nat.card {τ : Fin (2 ^ 1) → ZMod 17 //
      ¬ SessionWorks (ZMod 17) pp17 false (4 * 2 ^ 1) (2 ^ 1) mats17 z17 pk 1 1 5 6 (withR tape τ) rng}
    17 ≤ bad ∧ bad ≤ 136 := by
  obtain ⟨pa, pb, pc, pk, h1, h2⟩ := C35_key_exists circuit17 (⟨2, 3, 4, 5, 6⟩ : Toxic (ZMod 17)) (1 : ZMod 17) (1 : ZMod 17)
  have key := C97_chance (GT := ZMod 17) (pp17_eq true) (by decide) false 1 (by norm_num) circuit17 mats17_sat h1 h2 (by decide) (by decide)
    (by simp) 1 1 5 6 tape rng
  rw [Nat.card_fun, Nat.card_zmod, Nat.card_fin] at key
  dsimp only at key
  have h3 := key.1
  have h4 := key.2.1 (by decide)
  exact ⟨pk, by omega, by omega⟩

end ZkSaas.Properties
