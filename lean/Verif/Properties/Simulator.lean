import Verif.Spec.Simulator
import Verif.Properties.Statistical

/-!
# C101: what `l` servers see can be simulated without the witness
-/

set_option linter.unusedSectionVars false

namespace ZkSaas.Properties

open Spec Polynomial Finset

variable {F : Type} [Field F] [DecidableEq F] {G1 G2 : Type} [AddCommGroup G1] [Module F G1] [DecidableEq G1] [AddCommGroup G2] [Module F G2] [DecidableEq G2]
  [FftField F] [FixedWire F] [FixedWire G1] [FixedWire G2]

/-- A circuit, a key from a set-up for it, and a satisfying assignment. -/
structure OneWitness (b : Nat) (dbg : Bool) (N : Nat) (G1 G2 : Type) [AddCommGroup G1] [Module F G1] [AddCommGroup G2] [Module F G2] where
  a : Nat
  ha : a < 64
  mats : ConstraintMatrices F
  z : List F
  dom : Domain F
  dom2 : Domain F
  hcirc : Circuit a b mats z dom dom2
  hsat : Satisfies mats.numConstraints mats.a mats.b mats.c z
  pa : Nat → F[X]
  pb : Nat → F[X]
  pc : Nat → F[X]
  hqap : IsQap mats z.length dom.groupGen (2 ^ (a + b)) pa pb pc
  t : Toxic F
  g1 : G1
  g2 : G2
  pk : ProvingKey G1 G2
  hk : IsCircomKey t g1 g2 z.length mats.numInstanceVariables (2 ^ (a + b)) dom2.groupGen pa pb pc pk
  hγ : t.gamma ≠ 0
  hδ : t.delta ≠ 0
  hal : dbg = true → KeyAligned (2 ^ b) pk
  hN : 2 ^ (a + b) ≤ N
  hzN : z.length ≤ N

theorem blank_length {nw : Nat} (h : 1 ≤ nw) : (blank nw : List F).length = nw := by
  rw [blank, List.length_cons, List.length_replicate]; omega

theorem Circuit.blank {a b : Nat} {mats : ConstraintMatrices F} {z : List F} {dom dom2 : Domain F} (h : Circuit a b mats z dom dom2) :
    Circuit a b mats (blank z.length) dom dom2 := by
  have e := blank_length (F := F) (h.inputs.trans h.wires)
  exact ⟨h.domain, h.size, h.double, h.rowsA, h.rowsB, by rw [e]; exact h.colsA, by rw [e]; exact h.colsB, by rw [e]; exact h.colsC, h.inputs,
    by rw [e]; exact h.wires, rfl⟩

/-- A session on any assignment opens to the proof that goes with it, up to the errors of the assignment. -/
theorem opened {dbg₀ : Bool} {b : Nat} {pp : PSS F} (hpp : PSS.new dbg₀ (2 ^ b) = .ok pp) (dbg : Bool) (a : Nat) (ha : a < 64)
    {mats : ConstraintMatrices F} {z : List F} {dom dom2 : Domain F} (hcirc : Circuit a b mats z dom dom2) {pa pb pc : Nat → F[X]}
    (hqap : IsQap mats z.length dom.groupGen (2 ^ (a + b)) pa pb pc) {t : Toxic F} {g1 : G1} {g2 : G2} {pk : ProvingKey G1 G2}
    (hk : IsCircomKey t g1 g2 z.length mats.numInstanceVariables (2 ^ (a + b)) dom2.groupGen pa pb pc pk) (hγ : t.gamma ≠ 0)
    (hδ : t.delta ≠ 0) (hal : dbg = true → KeyAligned (2 ^ b) pk) (gen1 : G1) (gen2 : G2) {r s : F} {tape : ClientTape F G1 G2}
    {ins : Nat → ServerInput F G1 G2} {outs : Nat → G1 × G2 × G1} {vs : Fin (4 * 2 ^ b) → Transcript} {rng : Nat → Nat → Nat → F}
    (hins : pp.deal dbg (2 ^ b) mats z pk gen1 gen2 r s tape = .ok ((List.range (4 * 2 ^ b)).map ins)) (hr0 : ∀ p < 4 * 2 ^ b, (ins p).r ≠ 0)
    (hy : AlwaysYields (Net.init fun i : Fin (4 * 2 ^ b) => ((ins i).run pp dbg (4 * 2 ^ b) i rng).recorded) (fun i => (outs i, vs i))) :
    ∃ pA pB pC, pp.openProof dbg ((List.range (4 * 2 ^ b)).map outs) = .ok (pA, pB, pC) ∧
      (Satisfies mats.numConstraints mats.a mats.b mats.c z → IsGroth16Proof t g1 g2 mats.numInstanceVariables pa pb pc z
        ((combine z pa * combine z pb - combine z pc).eval t.tau) r s pA pB pC) := by
  obtain ⟨rs, er, lr, hr⟩ := pack_holdsValue hpp dbg r tape.r
  obtain ⟨ss, es, ls, hs⟩ := pack_holdsValue hpp dbg s tape.s
  have hir : ∀ p < 4 * 2 ^ b, rs.getD p 0 = (ins p).r := by
    intro p hp
    obtain ⟨-, -, -, h, -⟩ := deal_parts (hins ▸ partOf_range ins hp)
    rw [er] at h
    rw [List.getD_eq_getElem?_getD, show rs[p]? = some (ins p).r from h]
    rfl
  obtain ⟨ins', outs', D, pA, pB, pC, h1, h2, -, -, h3, h4, -, -, -, h5⟩ := session (GT := F) hpp dbg a ha hcirc hqap hk hγ hδ hal gen1
    gen2 tape er es lr ls hr hs (.inl fun p hp => by rw [hir p hp]; exact hr0 p hp) rng
  rw [hins] at h1
  have hii := range_map_inj (Except.ok.inj h1)
  simp only [← fun i : Fin (4 * 2 ^ b) => hii i i.2] at h2
  have ho := AlwaysYields.unique h2 (AlwaysYields.of_recorded hy)
  refine ⟨pA, pB, pC, ?_, fun hsat => ?_⟩
  · rw [← h3]
    congr 1
    exact List.map_congr_left fun p hp => (congrFun ho ⟨p, List.mem_range.1 hp⟩).symm
  · have hD : D = 0 := (errors_zero hcirc.prim hcirc.le h4).2 hsat
    rw [hD, sub_zero] at h5
    exact h5

/-- The proof of Groth16 is the simulated one for the exponents of its first two parts. -/
theorem trapdoor_eq {t : Toxic F} {g1 : G1} {g2 : G2} {ni : Nat} {a b c : Nat → F[X]} {z : List F} (hle : ni ≤ z.length) (hδ : t.delta ≠ 0) {r s : F}
    {A C : G1} {B : G2} (h : IsGroth16Proof t g1 g2 ni a b c z ((combine z a * combine z b - combine z c).eval t.tau) r s A B C) :
    (A, B, C) = trapdoorProof t g1 g2 a b c (z.take ni) (t.alpha + (combine z a).eval t.tau + r * t.delta)
      (t.beta + (combine z b).eval t.tau + s * t.delta) := by
  obtain ⟨eA, eB, eC⟩ := h
  rw [← combine_eval] at eA eB
  rw [← combine_eval, ← combine_eval] at eC
  have hx : ∑ k ∈ Ico ni z.length, z.getD k 0 * (t.beta * (a k).eval t.tau + t.alpha * (b k).eval t.tau + (c k).eval t.tau) =
      t.beta * (combine z a).eval t.tau + t.alpha * (combine z b).eval t.tau + (combine z c).eval t.tau -
        ∑ k ∈ range ni, (z.take ni).getD k 0 * (t.beta * (a k).eval t.tau + t.alpha * (b k).eval t.tau + (c k).eval t.tau) := by
    rw [eq_sub_iff_add_eq', sum_congr rfl (g := fun k => z.getD k 0 * (t.beta * (a k).eval t.tau + t.alpha * (b k).eval t.tau +
      (c k).eval t.tau)) (s₁ := range ni) fun k hk => by rw [getD_take, if_pos (mem_range.1 hk)],
      sum_range_add_sum_Ico _ hle, combine_eval, combine_eval, combine_eval, mul_sum, mul_sum, ← sum_add_distrib, ← sum_add_distrib]
    exact sum_congr rfl fun k _ => by ring
  rw [trapdoorProof, eA, eB, eC, hx, List.length_take, Nat.min_eq_left hle]
  refine Prod.ext rfl (Prod.ext rfl ?_)
  simp only [eval_sub, eval_mul]
  congr 1
  field_simp
  ring

section
variable [Finite F] [Finite G1] [Finite G2] {dbg₀ : Bool} {b : Nat} {pp : PSS F} (hpp : PSS.new dbg₀ (2 ^ b) = .ok pp)
  (hgen : (FftField.GENERATOR : F) ^ (4 * 2 ^ b) ≠ 1) (dbg : Bool) {gen1 : G1} {gen2 : G2}
  (hspan1 : ∀ g : G1, ∃ c : F, c • gen1 = g) (hspan2 : ∀ g : G2, ∃ c : F, c • gen2 = g) {N : Nat}
include hpp hgen hspan1 hspan2

/-- With no zero share of `r` there is something to observe. -/
theorem shows_exists (w : OneWitness (F := F) b dbg N G1 G2) (rng : Nat → Nat → Nat → F) (P : Fin (2 ^ b) → Nat) (hinj : Function.Injective P)
    (hlt : ∀ i, P i < 4 * 2 ^ b) {x : Draws F G1 G2 N} (hx : ¬ ZeroShare pp dbg b x) :
    ∃ v, Shows pp dbg (4 * 2 ^ b) (2 ^ b) w.mats w.z w.pk gen1 gen2 rng P x v := by
  obtain ⟨δ, key⟩ := C58_session hpp hgen dbg w.a w.ha w.hcirc w.hcirc rfl 0 0 w.pk (KeyFits.of_key w.hk) w.hal gen1 gen2 hspan1 hspan2 P hinj hlt
  obtain ⟨ins, ins', e, -, -, h0, hrun⟩ := key x.1.1 x.1.2 (clientTape x) rng
  have n1 := shares_ne hpp rfl e hx
  obtain ⟨outs, -, views, -, r1, -⟩ := hrun (.inl n1) (.inl fun p hp => h0 rfl p ▸ n1 p hp)
  obtain ⟨pA, pB, pC, o1, -⟩ := opened hpp dbg w.a w.ha w.hcirc w.hqap w.hk w.hγ w.hδ w.hal gen1 gen2 e n1 r1
  exact ⟨⟨fun i => ins (P i), fun i => outs (P i), fun i => views i, (pA, pB, pC)⟩, ins, outs, views, e, r1, o1, fun _ => rfl, fun _ => rfl, fun _ => rfl⟩

/-- **C101** Sessions end but for a share of `4l / |F|` of the draws. -/
theorem C101_ends (w : OneWitness (F := F) b dbg N G1 G2) (rng : Nat → Nat → Nat → F) (P : Fin (2 ^ b) → Nat) (hinj : Function.Injective P)
    (hlt : ∀ i, P i < 4 * 2 ^ b) :
    prob (fun x => observation (N := N) pp dbg (4 * 2 ^ b) (2 ^ b) w.mats w.z w.pk gen1 gen2 rng P x = none) ≤ 4 * 2 ^ b / Nat.card F := by
  have := Fintype.ofFinite F
  have := Fintype.ofFinite G1
  have := Fintype.ofFinite G2
  have hb : 2 ^ b ≤ N := le_trans (Nat.pow_le_pow_right (by norm_num) (by omega)) w.hN
  refine (prob_mono fun x hx => ?_).trans (prob_zeroShare (G1 := G1) (G2 := G2) hpp hgen dbg hb)
  by_contra hn
  obtain ⟨v, e⟩ := shows_exists hpp hgen dbg hspan1 hspan2 w rng P hinj hlt hn
  rw [observation_of hlt e] at hx
  cases hx

/-- The proof that Groth16 assigns to the assignment and the prover's `r` and `s`. -/
def OneWitness.Proves (w : OneWitness (F := F) b dbg N G1 G2) (proof : F → F → G1 × G2 × G1) : Prop :=
  ∀ r s, IsGroth16Proof w.t w.g1 w.g2 w.mats.numInstanceVariables w.pa w.pb w.pc w.z
    ((combine w.z w.pa * combine w.z w.pb - combine w.z w.pc).eval w.t.tau) r s (proof r s).1 (proof r s).2.1 (proof r s).2.2

/-- **C101** Delegating the proof shows `l` servers nothing but the proof: what is observed of a session is, up to an advantage of `8l / |F|`, a session
on the blank assignment next to a proof made by a prover of its own, with `r` and `s` drawn independently of that session. -/
theorem C101_delegation (w : OneWitness (F := F) b dbg N G1 G2) {proof : F → F → G1 × G2 × G1} (hproof : w.Proves dbg proof)
    (rng : Nat → Nat → Nat → F) (P : Fin (2 ^ b) → Nat) (hinj : Function.Injective P) (hlt : ∀ i, P i < 4 * 2 ^ b) :
    Close (8 * 2 ^ b / Nat.card F) (observation (N := N) pp dbg (4 * 2 ^ b) (2 ^ b) w.mats w.z w.pk gen1 gen2 rng P)
      (simulation (N := N) pp dbg (4 * 2 ^ b) (2 ^ b) w.mats w.z.length w.pk gen1 gen2 rng P proof) := by
  have := Fintype.ofFinite F
  have := Fintype.ofFinite G1
  have := Fintype.ofFinite G2
  have hb : 2 ^ b ≤ N := le_trans (Nat.pow_le_pow_right (by norm_num) (by omega)) w.hN
  have hlen := blank_length (F := F) (w.hcirc.inputs.trans w.hcirc.wires)
  have key := fun cd : F × F => C58_session hpp hgen dbg w.a w.ha w.hcirc w.hcirc.blank hlen.symm cd.1 cd.2 w.pk (KeyFits.of_key w.hk) w.hal gen1 gen2
    hspan1 hspan2 P hinj hlt
  choose δ key using key
  let φ : Draws F G1 G2 N × F × F → Draws F G1 G2 N × F × F := fun y => (y.1 + cut N (y.2 - y.1.1).1 (y.2 - y.1.1).2 (δ (y.2 - y.1.1)), y.1.1)
  have hφ1 : ∀ y, (φ y).1.1 = y.2 := fun y => by
    show y.1.1 + (y.2 - y.1.1) = y.2
    abel
  have hφ : Function.Injective φ := by
    rintro ⟨x, u⟩ ⟨x', u'⟩ h
    have e1 : x.1 = x'.1 := congrArg Prod.snd h
    have e2 : u = u' := (hφ1 (x, u)).symm.trans ((congrArg (fun y => y.1.1) h).trans (hφ1 (x', u')))
    have e3 := congrArg Prod.fst h
    subst e2
    simp only [φ, e1] at e3
    rw [add_right_cancel e3]
  let Φ : Draws F G1 G2 N × F × F ≃ Draws F G1 G2 N × F × F := Equiv.ofBijective φ (Finite.injective_iff_bijective.1 hφ)
  let B : Draws F G1 G2 N × F × F → Prop := fun y => ZeroShare pp dbg b y.1 ∨ ZeroShare pp dbg b (Φ y).1
  have hB : prob B ≤ 8 * 2 ^ b / Nat.card F := by
    refine (prob_or _ _).trans ?_
    rw [prob_equiv Φ fun y => ZeroShare pp dbg b y.1, prob_fst]
    have := prob_zeroShare (G1 := G1) (G2 := G2) hpp hgen dbg hb
    calc _ ≤ 4 * 2 ^ b / (Nat.card F : ℚ) + 4 * 2 ^ b / (Nat.card F : ℚ) := add_le_add this this
      _ = _ := by ring
  have hX := close_of_equiv (X := fun y : Draws F G1 G2 N × F × F => observation pp dbg (4 * 2 ^ b) (2 ^ b) w.mats w.z w.pk gen1 gen2 rng P y.1)
    (Y := simulation (N := N) pp dbg (4 * 2 ^ b) (2 ^ b) w.mats w.z.length w.pk gen1 gen2 rng P proof) Φ B fun y hy => by
      obtain ⟨hy1, hy2⟩ := not_or.1 hy
      obtain ⟨ins, ins', e, e', hP, -, hrun⟩ := key (y.2 - y.1.1) y.1.1.1 y.1.1.2 (clientTape y.1) rng
      have e'' : pp.deal dbg (2 ^ b) w.mats (blank w.z.length) w.pk gen1 gen2 (Φ y).1.1.1 (Φ y).1.1.2 (clientTape (Φ y).1) =
          .ok ((List.range (4 * 2 ^ b)).map ins') := by
        rw [← e']
        exact deal_congr hpp dbg w.hcirc.blank (by rw [hlen]; exact KeyFits.of_key w.hk) w.hal w.hN (by rw [hlen]; exact w.hzN) gen1 gen2 _ _
          (agree_shift y.1 _ _ _)
      have n1 := shares_ne hpp rfl e hy1
      have n2 := shares_ne hpp rfl e'' hy2
      obtain ⟨outs, outs', views, views', r1, r2, r3, r4⟩ := hrun (.inl n1) (.inl n2)
      obtain ⟨pA, pB, pC, o1, o2⟩ := opened hpp dbg w.a w.ha w.hcirc w.hqap w.hk w.hγ w.hδ w.hal gen1 gen2 e n1 r1
      obtain ⟨qA, qB, qC, o3, -⟩ := opened hpp dbg w.a w.ha w.hcirc.blank (by rw [hlen]; exact w.hqap) (by rw [hlen]; exact w.hk) w.hγ w.hδ w.hal gen1 gen2
        e'' n2 r2
      have s1 : Shows pp dbg (4 * 2 ^ b) (2 ^ b) w.mats w.z w.pk gen1 gen2 rng P y.1 ⟨fun i => ins (P i), fun i => outs (P i), fun i => views i, (pA, pB, pC)⟩ :=
        ⟨ins, outs, views, e, r1, o1, fun _ => rfl, fun _ => rfl, fun _ => rfl⟩
      have s2 : Shows pp dbg (4 * 2 ^ b) (2 ^ b) w.mats (blank w.z.length) w.pk gen1 gen2 rng P (Φ y).1
          ⟨fun i => ins (P i), fun i => outs (P i), fun i => views i, (qA, qB, qC)⟩ :=
        ⟨ins', outs', views', e'', r2, o3, hP, r4, fun i => r3 i i.2⟩
      have hp : (pA, pB, pC) = proof y.1.1.1 y.1.1.2 := by
        rw [trapdoor_eq w.hcirc.wires w.hδ (o2 w.hsat)]
        exact (trapdoor_eq w.hcirc.wires w.hδ (hproof y.1.1.1 y.1.1.2)).symm
      show observation pp dbg (4 * 2 ^ b) (2 ^ b) w.mats w.z w.pk gen1 gen2 rng P y.1 = simulation pp dbg _ _ _ _ _ _ _ _ _ proof (Φ y)
      rw [simulation, observation_of hlt s1, observation_of hlt s2]
      simp only [Option.map_some, Observation.withProof, hp]
      rfl
  intro E
  have := (hX E).trans hB
  rwa [prob_fst (Ω' := F × F) fun x => E (observation pp dbg (4 * 2 ^ b) (2 ^ b) w.mats w.z w.pk gen1 gen2 rng P x)] at this

/-- **C101** A simulator that knows the secrets of the set-up, the public inputs and the size of the circuit, but no witness: a session on the blank
assignment next to a simulated proof. No test tells it from what is observed of a session with an advantage above `8l / |F|`. -/
theorem C101_simulator (w : OneWitness (F := F) b dbg N G1 G2) (rng : Nat → Nat → Nat → F) (P : Fin (2 ^ b) → Nat) (hinj : Function.Injective P)
    (hlt : ∀ i, P i < 4 * 2 ^ b) :
    Close (8 * 2 ^ b / Nat.card F) (observation (N := N) pp dbg (4 * 2 ^ b) (2 ^ b) w.mats w.z w.pk gen1 gen2 rng P)
      (simulation (N := N) pp dbg (4 * 2 ^ b) (2 ^ b) w.mats w.z.length w.pk gen1 gen2 rng P
        (trapdoorProof w.t w.g1 w.g2 w.pa w.pb w.pc (w.z.take w.mats.numInstanceVariables))) := by
  have := Fintype.ofFinite F
  have := Fintype.ofFinite G1
  have := Fintype.ofFinite G2
  let ρ : F × F → F × F := fun y => (w.t.alpha + (combine w.z w.pa).eval w.t.tau + y.1 * w.t.delta, w.t.beta + (combine w.z w.pb).eval w.t.tau + y.2 * w.t.delta)
  have hρ : Function.Injective ρ := fun y y' h => by
    have e1 := mul_right_cancel₀ w.hδ (add_left_cancel (congrArg Prod.fst h))
    have e2 := mul_right_cancel₀ w.hδ (add_left_cancel (congrArg Prod.snd h))
    exact Prod.ext e1 e2
  let R : F × F ≃ F × F := Equiv.ofBijective ρ (Finite.injective_iff_bijective.1 hρ)
  intro E
  have key := C101_delegation hpp hgen dbg hspan1 hspan2 w
    (proof := fun r s => trapdoorProof w.t w.g1 w.g2 w.pa w.pb w.pc (w.z.take w.mats.numInstanceVariables) (ρ (r, s)).1 (ρ (r, s)).2)
    (fun r s => by
      have e := trapdoor_eq (t := w.t) (g1 := w.g1) (g2 := w.g2) (a := w.pa) (b := w.pb) (c := w.pc) (r := r) (s := s) w.hcirc.wires w.hδ ⟨rfl, rfl, rfl⟩
      dsimp only [ρ]
      rw [← e]
      exact ⟨rfl, rfl, rfl⟩) rng P hinj hlt E
  have hsim := prob_equiv ((Equiv.refl (Draws F G1 G2 N)).prodCongr R) fun x => E (simulation (N := N) pp dbg (4 * 2 ^ b) (2 ^ b) w.mats
    w.z.length w.pk gen1 gen2 rng P (trapdoorProof w.t w.g1 w.g2 w.pa w.pb w.pc (w.z.take w.mats.numInstanceVariables)) x)
  rw [← hsim]
  exact key

/-- **C101** Any number of sessions, chosen adaptively, are simulated session by session. -/
theorem C101_sessions {O : Type} (w : List O → OneWitness (F := F) b dbg N G1 G2) (rng : List O → Nat → Nat → Nat → F) (P : List O → Fin (2 ^ b) → Nat)
    (hinj : ∀ h, Function.Injective (P h)) (hlt : ∀ h i, P h i < 4 * 2 ^ b) (f : List O → Option (Observation F G1 G2 (4 * 2 ^ b) (2 ^ b)) → O) (k : Nat) :
    Close (k * (8 * 2 ^ b / Nat.card F))
      (observed (fun h x => f h (observation (N := N) pp dbg (4 * 2 ^ b) (2 ^ b) (w h).mats (w h).z (w h).pk gen1 gen2 (rng h) (P h) x)) k [])
      (observed (fun h x => f h (simulation (N := N) pp dbg (4 * 2 ^ b) (2 ^ b) (w h).mats (w h).z.length (w h).pk gen1 gen2 (rng h) (P h)
        (trapdoorProof (w h).t (w h).g1 (w h).g2 (w h).pa (w h).pb (w h).pc ((w h).z.take (w h).mats.numInstanceVariables)) x)) k []) := by
  have := Fintype.ofFinite F
  have := Fintype.ofFinite G1
  have := Fintype.ofFinite G2
  exact close_observed (fun h E => C101_simulator hpp hgen dbg hspan1 hspan2 (w h) (rng h) (P h) (hinj h) (hlt h) fun o => E (f h o)) k []

end

/-- **C101** Every simulated proof verifies. -/
theorem C101_verifies {GT : Type} [AddCommGroup GT] [Module F GT] {t : Toxic F} {g1 : G1} {g2 : G2} {nw ni m : Nat} {ω : F} {pa pb pc : Nat → F[X]}
    {pk : ProvingKey G1 G2} (hk : IsCircomKey t g1 g2 nw ni m ω pa pb pc pk) (hγ : t.gamma ≠ 0) (hδ : t.delta ≠ 0) (pub : List F) (hpub : pub.length + 1 = ni)
    (u v : F) (e : G1 →ₗ[F] G2 →ₗ[F] GT) :
    Verifies e pk.vk pub (trapdoorProof t g1 g2 pa pb pc (1 :: pub) u v).1 (trapdoorProof t g1 g2 pa pb pc (1 :: pub) u v).2.1
      (trapdoorProof t g1 g2 pa pb pc (1 :: pub) u v).2.2 := by
  refine ⟨by rw [hk.gammaAbcG1, List.length_map, List.length_range, hpub], ?_⟩
  have hq : ∀ i < ni, pk.vk.gammaAbcG1.getD i 0 =
      ((t.beta * (pa i).eval t.tau + t.alpha * (pb i).eval t.tau + (pc i).eval t.tau) / t.gamma) • g1 := fun i hi => by
    rw [hk.gammaAbcG1, List.getD_eq_getElem?_getD, List.getElem?_map, List.getElem?_range hi]
    rfl
  rw [hq 0 (by omega), sum_congr rfl fun i hi => by rw [hq (i + 1) (by have := mem_range.1 hi; omega), smul_smul], ← sum_smul, ← add_smul, hk.alphaG1, hk.betaG2,
    hk.gammaG2, hk.deltaG2, trapdoorProof]
  simp only [map_smul, LinearMap.smul_apply, smul_smul, ← add_smul, List.length_cons]
  congr 1
  rw [sum_range_succ']
  simp only [List.getD_cons_succ, List.getD_cons_zero, one_mul]
  simp only [← mul_div_assoc, ← sum_div]
  field_simp
  ring

/-! ### Examples -/

/-- C101: the session in which 3 is shown to be a root of 9, over 17 elements, and its simulation. -/
example (rng : Nat → Nat → Nat → ZMod 17) :
    ∃ w : OneWitness (F := ZMod 17) 1 false 6 (ZMod 17) (ZMod 17), w.z = [1, 9, 3] ∧ w.mats.numInstanceVariables = 2 ∧
      Close (8 * 2 ^ 1 / Nat.card (ZMod 17)) (observation (N := 6) pp17 false (4 * 2 ^ 1) (2 ^ 1) w.mats w.z w.pk 1 1 rng pair17)
        (simulation (N := 6) pp17 false (4 * 2 ^ 1) (2 ^ 1) w.mats 3 w.pk 1 1 rng pair17 (trapdoorProof w.t w.g1 w.g2 w.pa w.pb w.pc [1, 9])) := by
  obtain ⟨pa, pb, pc, pk, h1, h2⟩ := C35_key_exists circuit17 (⟨2, 3, 4, 5, 6⟩ : Toxic (ZMod 17)) (1 : ZMod 17) (1 : ZMod 17)
  let w : OneWitness (F := ZMod 17) 1 false 6 (ZMod 17) (ZMod 17) := ⟨1, by norm_num, _, _, _, _, circuit17, mats17_sat,
    _, _, _, h1, _, _, _, _, h2, by decide, by decide, by simp, by decide, by decide⟩
  exact ⟨w, rfl, rfl, C101_simulator (pp17_eq true) gen17 false (gen1 := (1 : ZMod 17)) (gen2 := (1 : ZMod 17)) (fun g => ⟨g, by simp⟩) (fun g => ⟨g, by simp⟩)
    w rng pair17 pair17_inj pair17_lt⟩

/-- C101: the session shows the verifier and two servers nothing but a proof that a prover of its own makes. -/
example (rng : Nat → Nat → Nat → ZMod 17) :
    ∃ (w : OneWitness (F := ZMod 17) 1 false 6 (ZMod 17) (ZMod 17)) (proof : ZMod 17 → ZMod 17 → ZMod 17 × ZMod 17 × ZMod 17), w.Proves false proof ∧
      Close (8 * 2 ^ 1 / Nat.card (ZMod 17)) (observation (N := 6) pp17 false (4 * 2 ^ 1) (2 ^ 1) w.mats w.z w.pk 1 1 rng pair17)
        (simulation (N := 6) pp17 false (4 * 2 ^ 1) (2 ^ 1) w.mats 3 w.pk 1 1 rng pair17 proof) := by
  obtain ⟨pa, pb, pc, pk, h1, h2⟩ := C35_key_exists circuit17 (⟨2, 3, 4, 5, 6⟩ : Toxic (ZMod 17)) (1 : ZMod 17) (1 : ZMod 17)
  let w : OneWitness (F := ZMod 17) 1 false 6 (ZMod 17) (ZMod 17) := ⟨1, by norm_num, _, _, _, _, circuit17, mats17_sat,
    _, _, _, h1, _, _, _, _, h2, by decide, by decide, by simp, by decide, by decide⟩
  obtain ⟨proof, hp⟩ : ∃ proof, w.Proves false proof := ⟨fun r s => (_, _, _), fun r s => ⟨rfl, rfl, rfl⟩⟩
  exact ⟨w, proof, hp, C101_delegation (pp17_eq true) gen17 false (gen1 := (1 : ZMod 17)) (gen2 := (1 : ZMod 17)) (fun g => ⟨g, by simp⟩)
    (fun g => ⟨g, by simp⟩) w hp rng pair17 pair17_inj pair17_lt⟩

/-- C101: a simulated proof that 9 has a root, made without knowing one. -/
example : ∃ (pa pb pc : Nat → (ZMod 17)[X]) (pk : ProvingKey (ZMod 17) (ZMod 17)), ∀ u v : ZMod 17, ∃ π : ZMod 17 × ZMod 17 × ZMod 17,
    π = trapdoorProof (⟨2, 3, 4, 5, 6⟩ : Toxic (ZMod 17)) (1 : ZMod 17) (1 : ZMod 17) pa pb pc [1, 9] u v ∧
    Verifies (LinearMap.mul (ZMod 17) (ZMod 17)) pk.vk [9] π.1 π.2.1 π.2.2 := by
  obtain ⟨pa, pb, pc, pk, -, h⟩ := C35_key_exists circuit17 (⟨2, 3, 4, 5, 6⟩ : Toxic (ZMod 17)) (1 : ZMod 17) (1 : ZMod 17)
  exact ⟨pa, pb, pc, pk, fun u v => ⟨_, rfl, C101_verifies h (by decide) (by decide) [9] rfl u v _⟩⟩

/-- C101: three sessions on the same statement, each with another king's randomness. -/
example (rng : List (Option (Observation (ZMod 17) (ZMod 17) (ZMod 17) (4 * 2 ^ 1) (2 ^ 1))) → Nat → Nat → Nat → ZMod 17) :
    ∃ w : OneWitness (F := ZMod 17) 1 false 6 (ZMod 17) (ZMod 17), Close ((3 : Nat) * (8 * 2 ^ 1 / Nat.card (ZMod 17)))
      (observed (fun h x => observation (N := 6) pp17 false (4 * 2 ^ 1) (2 ^ 1) w.mats w.z w.pk 1 1 (rng h) pair17 x) 3 [])
      (observed (fun h x => simulation (N := 6) pp17 false (4 * 2 ^ 1) (2 ^ 1) w.mats 3 w.pk 1 1 (rng h) pair17
        (trapdoorProof w.t w.g1 w.g2 w.pa w.pb w.pc [1, 9]) x) 3 []) := by
  obtain ⟨pa, pb, pc, pk, h1, h2⟩ := C35_key_exists circuit17 (⟨2, 3, 4, 5, 6⟩ : Toxic (ZMod 17)) (1 : ZMod 17) (1 : ZMod 17)
  let w : OneWitness (F := ZMod 17) 1 false 6 (ZMod 17) (ZMod 17) := ⟨1, by norm_num, _, _, _, _, circuit17, mats17_sat,
    _, _, _, h1, _, _, _, _, h2, by decide, by decide, by simp, by decide, by decide⟩
  exact ⟨w, C101_sessions (pp17_eq true) gen17 false (gen1 := (1 : ZMod 17)) (gen2 := (1 : ZMod 17)) (fun g => ⟨g, by simp⟩) (fun g => ⟨g, by simp⟩)
    (fun _ => w) rng (fun _ => pair17) (fun _ => pair17_inj) (fun _ => pair17_lt) (fun _ o => o) 3⟩

end ZkSaas.Properties
