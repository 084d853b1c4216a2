import Verif.Properties.Coalition

/-!
# The opened proof

C59: what the client opens at the end of a session is the proof of the Groth16 paper. C60: the view of `l` servers together with the
opened proof does not depend on the witness.
-/

set_option linter.unusedSectionVars false

namespace ZkSaas.Properties

open Finset Polynomial Spec

variable {F : Type} [Field F] [FftField F] [DecidableEq F] [FixedWire F]
variable {G1 G2 : Type} [AddCommGroup G1] [Module F G1] [DecidableEq G1] [FixedWire G1] [AddCommGroup G2] [Module F G2] [DecidableEq G2]
  [FixedWire G2]

/-- The quotient polynomial of a satisfying assignment. -/
theorem program_divides {a b : Nat} {mats : ConstraintMatrices F} {z : List F} {dom dom2 : Domain F} (hcirc : Circuit a b mats z dom dom2)
    (hsat : Satisfies mats.numConstraints mats.a mats.b mats.c z) {pa pb pc : Nat → F[X]}
    (hqap : IsQap mats z.length dom.groupGen (2 ^ (a + b)) pa pb pc) :
    ∃ h : F[X], combine z pa * combine z pb - combine z pc = h * (X ^ 2 ^ (a + b) - 1) := by
  obtain ⟨q, eq, rfl, -, -, la, lb, lc, v1, v2, v3, vc⟩ :=
    C29_qap mats z hcirc.domain hcirc.rowsA hcirc.rowsB hcirc.colsA hcirc.colsB hcirc.wires
  have iA := combine_a hqap hcirc.colsA hcirc.wires (v := q.a) (fun i hi => (v1 i hi).1) (fun j hj => (v2 j hj).1) (fun i hi => (v3 i hi).1)
  have iB := combine_bc hqap.b hcirc.colsB
  have iC := combine_bc hqap.c hcirc.colsC
  refine quotient_exists (by positivity) hcirc.prim iA iB iC fun i _ => ?_
  by_cases hc : i < mats.numConstraints
  · rw [if_pos hc, if_pos hc, (v1 i hc).1, hsat i hc]
  · rw [if_neg hc, if_neg hc, mul_zero]

/-- **C59** The opened proof is the proof of the paper. For a satisfying assignment there is a quotient polynomial `h`, with
`(Σ zₖaₖ)(Σ zₖbₖ) - Σ zₖcₖ = h·(X^m - 1)`, such that every session of the servers, whatever the random tapes of client and king and
under every schedule, opens to exactly the proof that Groth16 assigns to the assignment and the prover's `r` and `s`. -/
theorem C59_groth16_proof {dbg₀ : Bool} {b : Nat} {pp : PSS F} (hpp : PSS.new dbg₀ (2 ^ b) = .ok pp) (dbg : Bool) (a : Nat) (ha : a < 64)
    {mats : ConstraintMatrices F} {z : List F} {dom dom2 : Domain F} (hcirc : Circuit a b mats z dom dom2)
    (hsat : Satisfies mats.numConstraints mats.a mats.b mats.c z) {pa pb pc : Nat → F[X]}
    (hqap : IsQap mats z.length dom.groupGen (2 ^ (a + b)) pa pb pc) {t : Toxic F} {g1 : G1} {g2 : G2} {pk : ProvingKey G1 G2}
    (hk : IsCircomKey t g1 g2 z.length mats.numInstanceVariables (2 ^ (a + b)) dom2.groupGen pa pb pc pk) (hγ : t.gamma ≠ 0)
    (hδ : t.delta ≠ 0) (hal : dbg = true → KeyAligned (2 ^ b) pk) (gen1 : G1) (gen2 : G2) :
    ∃ h : F[X], (∑ k ∈ range z.length, C (z.getD k 0) * pa k) * (∑ k ∈ range z.length, C (z.getD k 0) * pb k) -
        (∑ k ∈ range z.length, C (z.getD k 0) * pc k) = h * (X ^ 2 ^ (a + b) - 1) ∧
      ∀ (r s : F) (tape : ClientTape F G1 G2), ∃ ins : Nat → ServerInput F G1 G2,
        pp.deal dbg (2 ^ b) mats z pk gen1 gen2 r s tape = .ok ((List.range (4 * 2 ^ b)).map ins) ∧
        (((∀ p < 4 * 2 ^ b, (ins p).r ≠ 0) ∨ ∀ p < 4 * 2 ^ b, (ins p).r = 0) → ∀ rng : Nat → Nat → Nat → F,
          ∃ (outs : Nat → G1 × G2 × G1) (pA : G1) (pB : G2) (pC : G1),
            AlwaysYields (Net.init fun i : Fin (4 * 2 ^ b) => (ins i).run pp dbg (4 * 2 ^ b) i rng) (fun i => outs i) ∧
            pp.openProof dbg ((List.range (4 * 2 ^ b)).map outs) = .ok (pA, pB, pC) ∧
            IsGroth16Proof t g1 g2 mats.numInstanceVariables pa pb pc z (h.eval t.tau * (t.tau ^ 2 ^ (a + b) - 1)) r s pA pB pC) := by
  obtain ⟨h, hh⟩ := program_divides hcirc hsat hqap
  refine ⟨h, hh, fun r s tape => ?_⟩
  obtain ⟨ins, hins⟩ := deal_succeeds hpp dbg a hcirc hk hal gen1 gen2 r s tape
  refine ⟨ins, hins, fun hr0 rng => ?_⟩
  obtain ⟨rs, er, lr, hr⟩ := pack_holdsValue hpp dbg r tape.r
  obtain ⟨ss, es, ls, hs⟩ := pack_holdsValue hpp dbg s tape.s
  have hir : ∀ p < 4 * 2 ^ b, rs.getD p 0 = (ins p).r := by
    intro p hp
    obtain ⟨-, -, -, h, -⟩ := deal_parts (hins ▸ partOf_range ins hp)
    rw [er] at h
    rw [List.getD_eq_getElem?_getD, show rs[p]? = some (ins p).r from h]
    rfl
  obtain ⟨ins', outs, D, pA, pB, pC, h1, h2, -, -, h3, h4, -, -, -, h5⟩ := session (GT := F) hpp dbg a ha hcirc hqap hk hγ hδ hal gen1
    gen2 tape er es lr ls hr hs
    (hr0.imp (fun h p hp => by rw [hir p hp]; exact h p hp) (fun h p hp => by rw [hir p hp]; exact h p hp)) rng
  have hD : D = 0 := (errors_zero hcirc.prim hcirc.le h4).2 hsat
  have hii : ∀ i : Fin (4 * 2 ^ b), ins i = ins' i := by
    intro i
    rw [hins] at h1
    have := congrArg (fun l => partOf l i) h1
    rw [partOf_range _ i.2, partOf_range _ i.2] at this
    exact Option.some.inj this
  refine ⟨outs, pA, pB, pC, ?_, h3, ?_⟩
  · simpa only [hii] using h2
  · rw [hD, sub_zero, hh] at h5
    simpa using h5

/-- **C59** The same of the example as it is written, in a release build, with no condition on `r`. -/
theorem C59_example_release {dbg₀ : Bool} {b : Nat} {pp : PSS F} (hpp : PSS.new dbg₀ (2 ^ b) = .ok pp) (a : Nat) (ha : a < 64)
    {mats : ConstraintMatrices F} {z : List F} {dom dom2 : Domain F} (hcirc : Circuit a b mats z dom dom2)
    (hsat : Satisfies mats.numConstraints mats.a mats.b mats.c z) {pa pb pc : Nat → F[X]}
    (hqap : IsQap mats z.length dom.groupGen (2 ^ (a + b)) pa pb pc) {t : Toxic F} {g1 : G1} {g2 : G2} {pk : ProvingKey G1 G2}
    (hk : IsCircomKey t g1 g2 z.length mats.numInstanceVariables (2 ^ (a + b)) dom2.groupGen pa pb pc pk) (hγ : t.gamma ≠ 0)
    (hδ : t.delta ≠ 0) (gen1 : G1) (gen2 : G2) :
    ∃ h : F[X], (∑ k ∈ range z.length, C (z.getD k 0) * pa k) * (∑ k ∈ range z.length, C (z.getD k 0) * pb k) -
        (∑ k ∈ range z.length, C (z.getD k 0) * pc k) = h * (X ^ 2 ^ (a + b) - 1) ∧
      ∀ (r s : F) (tape : ClientTape F G1 G2) (rng : Nat → Nat → Nat → F),
        ∃ (ins : Nat → ServerInput F G1 G2) (outs : Nat → G1 × G2 × G1) (pA : G1) (pB : G2) (pC : G1),
          pp.deal false pp.n mats z pk gen1 gen2 r s tape = .ok ((List.range (4 * 2 ^ b)).map ins) ∧
          AlwaysYields (Net.init fun i : Fin (4 * 2 ^ b) => (ins i).run pp false (4 * 2 ^ b) i rng) (fun i => outs i) ∧
          pp.openProof false ((List.range (4 * 2 ^ b)).map outs) = .ok (pA, pB, pC) ∧
          IsGroth16Proof t g1 g2 mats.numInstanceVariables pa pb pc z (h.eval t.tau * (t.tau ^ 2 ^ (a + b) - 1)) r s pA pB pC := by
  obtain ⟨h, hh⟩ := program_divides hcirc hsat hqap
  refine ⟨h, hh, fun r s tape rng => ?_⟩
  obtain ⟨ins, outs, D, pA, pB, pC, h1, h2, -, -, h3, h4, -, -, -, h5⟩ :=
    example_session (GT := F) hpp a ha hcirc hqap hk hγ hδ gen1 gen2 r s tape rng
  have hD : D = 0 := (errors_zero hcirc.prim hcirc.le h4).2 hsat
  refine ⟨ins, outs, pA, pB, pC, h1, h2, h3, ?_⟩
  rw [hD, sub_zero, hh] at h5
  simpa using h5

/-- Two proofs whose first two parts agree, of assignments with the same public part, agree. -/
theorem proofs_agree {t : Toxic F} {g1 : G1} {g2 : G2} {ni : Nat} {a b c : Nat → F[X]} {z z' : List F} (hle : ni ≤ z.length)
    (hz : z.length = z'.length) (hpub : z.take ni = z'.take ni) (hδ : t.delta ≠ 0) {r s r' s' : F}
    (hr : (combine z a).eval t.tau + r * t.delta = (combine z' a).eval t.tau + r' * t.delta)
    (hs : (combine z b).eval t.tau + s * t.delta = (combine z' b).eval t.tau + s' * t.delta) {A A' C C' : G1} {B B' : G2}
    (h : IsGroth16Proof t g1 g2 ni a b c z ((combine z a * combine z b - combine z c).eval t.tau) r s A B C)
    (h' : IsGroth16Proof t g1 g2 ni a b c z' ((combine z' a * combine z' b - combine z' c).eval t.tau) r' s' A' B' C') :
    A = A' ∧ B = B' ∧ C = C' := by
  obtain ⟨eA, eB, eC⟩ := h
  obtain ⟨eA', eB', eC'⟩ := h'
  rw [← combine_eval] at eA eB eA' eB'
  rw [← combine_eval, ← combine_eval] at eC eC'
  have hx : ∀ {z : List F}, ni ≤ z.length → ∑ k ∈ Ico ni z.length, z.getD k 0 *
        (t.beta * (a k).eval t.tau + t.alpha * (b k).eval t.tau + (c k).eval t.tau) =
      t.beta * (combine z a).eval t.tau + t.alpha * (combine z b).eval t.tau + (combine z c).eval t.tau -
        ∑ k ∈ range ni, (z.take ni).getD k 0 * (t.beta * (a k).eval t.tau + t.alpha * (b k).eval t.tau + (c k).eval t.tau) := by
    intro z hle
    rw [eq_sub_iff_add_eq', sum_congr rfl (g := fun k => z.getD k 0 * (t.beta * (a k).eval t.tau + t.alpha * (b k).eval t.tau +
      (c k).eval t.tau)) (s₁ := range ni) fun k hk => by rw [getD_take, if_pos (mem_range.1 hk)],
      sum_range_add_sum_Ico _ hle, combine_eval, combine_eval, combine_eval, mul_sum, mul_sum, ← sum_add_distrib, ← sum_add_distrib]
    exact sum_congr rfl fun k _ => by ring
  refine ⟨?_, ?_, ?_⟩
  · rw [eA, eA', add_assoc, add_assoc, hr]
  · rw [eB, eB', add_assoc, add_assoc, hs]
  · rw [eC, eC', hx hle, hx (hz ▸ hle), hpub]
    congr 1
    simp only [eval_sub, eval_mul]
    generalize (∑ k ∈ range ni, (z'.take ni).getD k 0 * (t.beta * (a k).eval t.tau + t.alpha * (b k).eval t.tau + (c k).eval t.tau)) = S
    generalize (combine z a).eval t.tau = x at *
    generalize (combine z b).eval t.tau = y at *
    generalize (combine z' a).eval t.tau = x' at *
    generalize (combine z' b).eval t.tau = y' at *
    have e1 : x = x' + r' * t.delta - r * t.delta := by linear_combination hr
    have e2 : y = y' + s' * t.delta - s * t.delta := by linear_combination hs
    subst e1 e2
    field_simp
    ring

/-- **C60** Zero knowledge of a session, towards `l` servers and the verifier together. For two satisfying assignments with the same
public inputs and any `l` servers there are values such that adding them to everything the client draws (`r` and `s` among it) turns a
session on the first assignment into one on the second in which every server but the king is sent the same bytes in every round, the `l` servers
are dealt the same inputs and end with the same outputs, and the client opens the same proof. -/
theorem C60_zero_knowledge {dbg₀ : Bool} {b : Nat} {pp : PSS F} (hpp : PSS.new dbg₀ (2 ^ b) = .ok pp)
    (hgen : (FftField.GENERATOR : F) ^ (4 * 2 ^ b) ≠ 1) (dbg : Bool) (a : Nat) (ha : a < 64)
    {mats : ConstraintMatrices F} {z z' : List F} {dom dom2 : Domain F} (hcirc : Circuit a b mats z dom dom2)
    (hcirc' : Circuit a b mats z' dom dom2) (hsat : Satisfies mats.numConstraints mats.a mats.b mats.c z)
    (hsat' : Satisfies mats.numConstraints mats.a mats.b mats.c z') (hz : z.length = z'.length)
    (hpub : z.take mats.numInstanceVariables = z'.take mats.numInstanceVariables) {pa pb pc : Nat → F[X]}
    (hqap : IsQap mats z.length dom.groupGen (2 ^ (a + b)) pa pb pc) {t : Toxic F} {g1 : G1} {g2 : G2} {pk : ProvingKey G1 G2}
    (hk : IsCircomKey t g1 g2 z.length mats.numInstanceVariables (2 ^ (a + b)) dom2.groupGen pa pb pc pk) (hγ : t.gamma ≠ 0)
    (hδ : t.delta ≠ 0) (hal : dbg = true → KeyAligned (2 ^ b) pk) (gen1 : G1) (gen2 : G2)
    (hspan1 : ∀ g : G1, ∃ c : F, c • gen1 = g) (hspan2 : ∀ g : G2, ∃ c : F, c • gen2 = g)
    (P : Fin (2 ^ b) → Nat) (hinj : Function.Injective P) (hlt : ∀ i, P i < 4 * 2 ^ b) :
    ∃ (c d : F) (δ : ClientTape F G1 G2), ∀ (r s : F) (tape : ClientTape F G1 G2) (rng : Nat → Nat → Nat → F),
      ∃ ins ins' : Nat → ServerInput F G1 G2,
      pp.deal dbg (2 ^ b) mats z pk gen1 gen2 r s tape = .ok ((List.range (4 * 2 ^ b)).map ins) ∧
      pp.deal dbg (2 ^ b) mats z' pk gen1 gen2 (r + c) (s + d) (tape.add δ) = .ok ((List.range (4 * 2 ^ b)).map ins') ∧
      (∀ i, ins (P i) = ins' (P i)) ∧
      (((∀ p < 4 * 2 ^ b, (ins p).r ≠ 0) ∨ ∀ p < 4 * 2 ^ b, (ins p).r = 0) →
        ((∀ p < 4 * 2 ^ b, (ins' p).r ≠ 0) ∨ ∀ p < 4 * 2 ^ b, (ins' p).r = 0) →
        ∃ (outs outs' : Nat → G1 × G2 × G1) (views views' : Fin (4 * 2 ^ b) → Transcript) (π : G1 × G2 × G1),
          AlwaysYields (Net.init fun i : Fin (4 * 2 ^ b) => ((ins i).run pp dbg (4 * 2 ^ b) i rng).recorded)
            (fun i => (outs i, views i)) ∧
          AlwaysYields (Net.init fun i : Fin (4 * 2 ^ b) => ((ins' i).run pp dbg (4 * 2 ^ b) i rng).recorded)
            (fun i => (outs' i, views' i)) ∧ (∀ i, i.val ≠ 0 → views i = views' i) ∧
          (∀ i, outs (P i) = outs' (P i)) ∧
          pp.openProof dbg ((List.range (4 * 2 ^ b)).map outs) = .ok π ∧
          pp.openProof dbg ((List.range (4 * 2 ^ b)).map outs') = .ok π) := by
  have hqap' := hz ▸ hqap
  have hk' := hz ▸ hk
  obtain ⟨δ, hδ'⟩ := C58_session hpp hgen dbg a ha hcirc hcirc' hz (((combine z pa).eval t.tau - (combine z' pa).eval t.tau) / t.delta)
    (((combine z pb).eval t.tau - (combine z' pb).eval t.tau) / t.delta) pk (KeyFits.of_key hk) hal gen1 gen2 hspan1 hspan2 P hinj hlt
  refine ⟨((combine z pa).eval t.tau - (combine z' pa).eval t.tau) / t.delta,
    ((combine z pb).eval t.tau - (combine z' pb).eval t.tau) / t.delta, δ, fun r s tape rng => ?_⟩
  obtain ⟨ins, ins', e, e', hP, -, hrun⟩ := hδ' r s tape rng
  refine ⟨ins, ins', e, e', hP, fun hr0 hr0' => ?_⟩
  obtain ⟨outs, outs', views, views', h1, h2, hv, h3⟩ := hrun hr0 hr0'
  have link : ∀ {z : List F}, Circuit a b mats z dom dom2 → Satisfies mats.numConstraints mats.a mats.b mats.c z →
      IsQap mats z.length dom.groupGen (2 ^ (a + b)) pa pb pc →
      IsCircomKey t g1 g2 z.length mats.numInstanceVariables (2 ^ (a + b)) dom2.groupGen pa pb pc pk → ∀ {r s : F}
      {tape : ClientTape F G1 G2} {ins : Nat → ServerInput F G1 G2} {outs : Nat → G1 × G2 × G1}
      {vs : Fin (4 * 2 ^ b) → Transcript}, pp.deal dbg (2 ^ b) mats z pk gen1 gen2 r s tape = .ok ((List.range (4 * 2 ^ b)).map ins) →
      ((∀ p < 4 * 2 ^ b, (ins p).r ≠ 0) ∨ ∀ p < 4 * 2 ^ b, (ins p).r = 0) →
      AlwaysYields (Net.init fun i : Fin (4 * 2 ^ b) => ((ins i).run pp dbg (4 * 2 ^ b) i rng).recorded) (fun i => (outs i, vs i)) →
      ∃ pA pB pC, pp.openProof dbg ((List.range (4 * 2 ^ b)).map outs) = .ok (pA, pB, pC) ∧
        IsGroth16Proof t g1 g2 mats.numInstanceVariables pa pb pc z ((combine z pa * combine z pb - combine z pc).eval t.tau) r s
          pA pB pC := by
    intro z hcirc hsat hqap hk r s tape ins outs vs e hr0 hy
    obtain ⟨h, hh, H⟩ := C59_groth16_proof hpp dbg a ha hcirc hsat hqap hk hγ hδ hal gen1 gen2
    obtain ⟨ins₁, e₁, H⟩ := H r s tape
    have hii : ∀ p < 4 * 2 ^ b, ins₁ p = ins p := by
      intro p hp
      have := congrArg (fun l => partOf l p) (e₁.symm.trans e)
      rw [partOf_range _ hp, partOf_range _ hp] at this
      exact Option.some.inj this
    obtain ⟨outs₁, pA, pB, pC, k1, k2, k3⟩ := H (hr0.imp (fun h p hp => hii p hp ▸ h p hp) fun h p hp => hii p hp ▸ h p hp) rng
    simp only [fun i : Fin (4 * 2 ^ b) => hii i i.2] at k1
    have ho := AlwaysYields.unique k1 (AlwaysYields.of_recorded hy)
    refine ⟨pA, pB, pC, ?_, ?_⟩
    · rw [← k2]
      congr 1
      exact List.map_congr_left fun p hp => (congrFun ho ⟨p, List.mem_range.1 hp⟩).symm
    · have : (combine z pa * combine z pb - combine z pc).eval t.tau = h.eval t.tau * (t.tau ^ 2 ^ (a + b) - 1) := by
        rw [show combine z pa * combine z pb - combine z pc = h * (X ^ 2 ^ (a + b) - 1) from hh]
        simp
      rw [this]
      exact k3
  obtain ⟨pA, pB, pC, o, hpr⟩ := link hcirc hsat hqap hk e hr0 h1
  obtain ⟨pA', pB', pC', o', hpr'⟩ := link hcirc' hsat' hqap' hk' e' hr0' h2
  obtain ⟨rfl, rfl, rfl⟩ := proofs_agree hcirc.wires hz hpub hδ (by field_simp; ring) (by field_simp; ring) hpr hpr'
  exact ⟨outs, outs', views, views', _, h1, h2, hv, h3, o, o'⟩

/-! ### Examples -/

/-- Packing `r` with a tape of `r`s gives every server `r`. -/
theorem pack17_const : ∀ r : ZMod 17, ∀ p < 8, partOf (pp17.pack false (List.replicate (2 ^ 1) r) fun _ => r) p = some r := by
  decide +kernel

/-- C59: the servers' proof that 3 is a root of 9, with `r = 5` and `s = 6`. -/
example (tape : ClientTape (ZMod 17) (ZMod 17) (ZMod 17)) (ht : tape.r = fun _ => 5) : ∃ (pa pb pc : Nat → (ZMod 17)[X])
    (pk : ProvingKey (ZMod 17) (ZMod 17)) (h : (ZMod 17)[X]) (ins : Nat → ServerInput (ZMod 17) (ZMod 17) (ZMod 17))
    (outs : Nat → ZMod 17 × ZMod 17 × ZMod 17) (pA pB pC : ZMod 17),
    pp17.deal false 2 mats17 z17 pk 1 1 5 6 tape = .ok ((List.range 8).map ins) ∧
    AlwaysYields (Net.init fun i : Fin (4 * 2 ^ 1) => (ins i).run pp17 false (4 * 2 ^ 1) i fun _ i j => i + j) (fun i => outs i) ∧
    pp17.openProof false ((List.range 8).map outs) = .ok (pA, pB, pC) ∧
    IsGroth16Proof (⟨2, 3, 4, 5, 6⟩ : Toxic (ZMod 17)) (1 : ZMod 17) (1 : ZMod 17) 2 pa pb pc z17 (h.eval 6 * (6 ^ 4 - 1)) 5 6 pA pB pC := by
  obtain ⟨pa, pb, pc, pk, h1, h2⟩ := C35_key_exists circuit17 (⟨2, 3, 4, 5, 6⟩ : Toxic (ZMod 17)) (1 : ZMod 17) (1 : ZMod 17)
  obtain ⟨h, -, H⟩ := C59_groth16_proof (pp17_eq true) false 1 (by norm_num) circuit17 mats17_sat h1 h2 (by decide) (by decide) (by simp) 1 1
  obtain ⟨ins, e, H⟩ := H 5 6 tape
  have hr0 : ∀ p < 4 * 2 ^ 1, (ins p).r ≠ 0 := by
    intro p hp
    obtain ⟨-, -, -, h, -⟩ := deal_parts (e ▸ partOf_range ins hp)
    rw [ht, pack17_const 5 p hp] at h
    rw [← Option.some.inj h]
    decide
  obtain ⟨outs, pA, pB, pC, k1, k2, k3⟩ := H (.inl hr0) fun _ i j => i + j
  exact ⟨pa, pb, pc, pk, h, ins, outs, pA, pB, pC, e, k1, k2, k3⟩

theorem mats17_sat' : Satisfies mats17.numConstraints mats17.a mats17.b mats17.c [1, 9, 14] := by
  intro i hi
  have : i = 0 ∨ i = 1 := by simp [mats17] at hi; omega
  rcases this with rfl | rfl <;> decide +kernel

/-- C60: sessions with the roots 3 and 14 of 9 that look the same to servers 3 and 6 and end with the same proof. -/
example (t : ClientTape (ZMod 17) (ZMod 17) (ZMod 17)) : ∃ (pk : ProvingKey (ZMod 17) (ZMod 17)) (r r' s' : ZMod 17)
    (tape tape' : ClientTape (ZMod 17) (ZMod 17) (ZMod 17)) (ins ins' : Nat → ServerInput (ZMod 17) (ZMod 17) (ZMod 17))
    (outs outs' : Nat → ZMod 17 × ZMod 17 × ZMod 17) (views views' : Fin (4 * 2 ^ 1) → Transcript) (π : ZMod 17 × ZMod 17 × ZMod 17),
    pp17.deal false 2 mats17 z17 pk 1 1 r 6 tape = .ok ((List.range 8).map ins) ∧
    pp17.deal false 2 mats17 [1, 9, 14] pk 1 1 r' s' tape' = .ok ((List.range 8).map ins') ∧
    AlwaysYields (Net.init fun i : Fin (4 * 2 ^ 1) => ((ins i).run pp17 false (4 * 2 ^ 1) i fun _ i j => i + j).recorded)
      (fun i => (outs i, views i)) ∧
    AlwaysYields (Net.init fun i : Fin (4 * 2 ^ 1) => ((ins' i).run pp17 false (4 * 2 ^ 1) i fun _ i j => i + j).recorded)
      (fun i => (outs' i, views' i)) ∧ (∀ i, i.val ≠ 0 → views i = views' i) ∧
    (∀ i, ins (pair17 i) = ins' (pair17 i) ∧ outs (pair17 i) = outs' (pair17 i)) ∧
    pp17.openProof false ((List.range 8).map outs) = .ok π ∧ pp17.openProof false ((List.range 8).map outs') = .ok π := by
  obtain ⟨pa, pb, pc, pk, h1, h2⟩ := C35_key_exists circuit17 (⟨2, 3, 4, 5, 6⟩ : Toxic (ZMod 17)) (1 : ZMod 17) (1 : ZMod 17)
  obtain ⟨c, d, δ, H⟩ := C60_zero_knowledge (pp17_eq true) gen17 false 1 (by norm_num) circuit17 circuit17' mats17_sat mats17_sat' rfl rfl
    h1 h2 (by decide) (by decide) (by simp) 1 1 (fun g => ⟨g, by simp⟩) (fun g => ⟨g, by simp⟩) pair17 pair17_inj pair17_lt
  -- the shares of `c` with the tape `δ.r`, and an `r` that makes no sum zero
  have hg := PSS.good_of_new (pp17_eq true)
  let κ : Nat → ZMod 17 := fun p => (pp17.share.fft (pp17.packCoeffs (List.replicate (2 ^ 1) c) δ.r)).getD p 0
  obtain ⟨r, hr⟩ : ∃ r : ZMod 17, r ∉ insert 0 ((range 8).image fun p => -κ p) := by
    by_contra hcon
    push Not at hcon
    have h1 : Finset.univ ⊆ insert 0 ((range 8).image fun p => -κ p) := fun x _ => hcon x
    have h2 := card_le_card h1
    have h3 := (card_insert_le 0 ((range 8).image fun p => -κ p)).trans (Nat.succ_le_succ card_image_le)
    rw [card_univ, ZMod.card] at h2
    simp only [card_range] at h3
    omega
  rw [Finset.mem_insert, not_or] at hr
  obtain ⟨ins, ins', e, e', hP, hrun⟩ := H r 6 { t with r := fun _ => r } fun _ i j => i + j
  have hr0 : ∀ p < 4 * 2 ^ 1, (ins p).r ≠ 0 := by
    intro p hp
    obtain ⟨-, -, -, h, -⟩ := deal_parts (e ▸ partOf_range ins hp)
    rw [pack17_const r p hp] at h
    rw [← Option.some.inj h]
    exact hr.1
  have hr0' : ∀ p < 4 * 2 ^ 1, (ins' p).r ≠ 0 := by
    intro p hp
    obtain ⟨-, -, -, h, -⟩ := deal_parts (e' ▸ partOf_range ins' hp)
    have hc := pack17_const r p hp
    have key : ∀ {secs : List (ZMod 17)} {rng : Nat → ZMod 17} {x : ZMod 17}, secs.length = pp17.l →
        partOf (pp17.pack false secs rng) p = some x → (pp17.share.fft (pp17.packCoeffs secs rng)).getD p 0 = x := by
      intro secs rng x hl hx
      rw [PSS.pack_eq hg false hl] at hx
      rw [List.getD_eq_getElem?_getD, show (pp17.share.fft (pp17.packCoeffs secs rng))[p]? = some x from hx]
      rfl
    have k1 := key (by simp; rfl) hc
    have k2 := key (by simp; rfl) h
    have hadd := PSS.share_add hg (s := List.replicate (2 ^ 1) r) (s' := List.replicate (2 ^ 1) c) (by simp; rfl) (by simp; rfl)
      (fun _ => r) δ.r (p := p) hp
    rw [k1] at hadd
    rw [← k2]
    intro h0
    apply hr.2
    rw [mem_image]
    refine ⟨p, mem_range.2 hp, ?_⟩
    have : List.zipWith (· + ·) (List.replicate (2 ^ 1) r) (List.replicate (2 ^ 1) c) = List.replicate (2 ^ 1) (r + c) := rfl
    rw [this] at hadd
    have h0 : r + κ p = 0 := hadd.symm.trans h0
    exact (eq_neg_of_add_eq_zero_left h0).symm
  obtain ⟨outs, outs', views, views', π, k1, k2, hv, k3, k4, k5⟩ := hrun (.inl hr0) (.inl hr0')
  exact ⟨pk, r, r + c, 6 + d, _, _, ins, ins', outs, outs', views, views', π, e, e', k1, k2, hv, fun i => ⟨hP i, k3 i⟩, k4, k5⟩

/-- Example for C59: the release build of the example, with whatever tape. -/
example (tape : ClientTape (ZMod 17) (ZMod 17) (ZMod 17)) : ∃ (pa pb pc : Nat → (ZMod 17)[X])
    (pk : ProvingKey (ZMod 17) (ZMod 17)) (h : (ZMod 17)[X]) (ins : Nat → ServerInput (ZMod 17) (ZMod 17) (ZMod 17))
    (outs : Nat → ZMod 17 × ZMod 17 × ZMod 17) (pA pB pC : ZMod 17),
    pp17.deal false 8 mats17 z17 pk 1 1 5 6 tape = .ok ((List.range 8).map ins) ∧
    pp17.openProof false ((List.range 8).map outs) = .ok (pA, pB, pC) ∧
    IsGroth16Proof (⟨2, 3, 4, 5, 6⟩ : Toxic (ZMod 17)) (1 : ZMod 17) (1 : ZMod 17) 2 pa pb pc z17 (h.eval 6 * (6 ^ 4 - 1)) 5 6 pA pB pC := by
  obtain ⟨pa, pb, pc, pk, h1, h2⟩ := C35_key_exists circuit17 (⟨2, 3, 4, 5, 6⟩ : Toxic (ZMod 17)) (1 : ZMod 17) (1 : ZMod 17)
  obtain ⟨h, -, H⟩ := C59_example_release (pp17_eq true) 1 (by norm_num) circuit17 mats17_sat h1 h2 (by decide) (by decide) 1 1
  obtain ⟨ins, outs, pA, pB, pC, h3, -, h4, h5⟩ := H 5 6 tape fun _ i j => i + j
  exact ⟨pa, pb, pc, pk, h, ins, outs, pA, pB, pC, h3, h4, h5⟩

end ZkSaas.Properties
