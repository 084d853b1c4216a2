import Verif.Properties.Fresh
import Verif.Lemmas.Coalition

/-!
# C58: what `l` servers see of a whole proving session
-/

set_option linter.unusedSectionVars false

namespace ZkSaas.Properties

open Finset Polynomial Spec

variable {F : Type} [Field F] [FftField F] [DecidableEq F] [FixedWire F]

/-! ### Two runs of `circom_h` -/

/-- The values on the coset of the polynomial with the values `x` on the domain, as the two transforms compute them. -/
def cosetVals (dom : Domain F) (m : Nat) (root : F) (x : Nat → F) (k : Nat) : F :=
  ∑ u ∈ range m, (dom.groupGen ^ k) ^ u * (root ^ u * ∑ v ∈ range m, (dom.groupGenInv ^ u) ^ v * (x v * dom.sizeInv))

theorem toCoset_couple {dbg₀ : Bool} {b : Nat} {pp : PSS F} (hpp : PSS.new dbg₀ (2 ^ b) = .ok pp)
    (hgen : (FftField.GENERATOR : F) ^ (4 * 2 ^ b) ≠ 1) (dbg : Bool) (a : Nat)
    (ha : a < 64) {dom : Domain F} (hdom : Domain.new (2 ^ (a + b)) = some dom) (x x' : Nat → F) (g : F) (re : Bool)
    (P : Fin (2 ^ b) → Nat) (hinj : Function.Injective P) (hlt : ∀ i, P i < 4 * 2 ^ b) :
    ∃ δ ε : VecTape F,
      (∀ t i, pp.fftDealt a b true g dom.groupGenInv (t.add δ) (P i) = pp.fftDealt a b true g dom.groupGenInv t (P i)) ∧
      (∀ t i, pp.fftDealt a b re 1 dom.groupGen (t.add ε) (P i) = pp.fftDealt a b re 1 dom.groupGen t (P i)) ∧
      ∃ R R' : (Nat → List F) → Prop,
      (∀ (t : VecTape F) (sid : Sid) (rng : Nat → Nat → F) (sh sh' : Nat → List F),
        pp.SharedVec (2 * pp.l) (2 ^ a) sh (packed true a b x) → pp.SharedVec (2 * pp.l) (2 ^ a) sh' (packed true a b x') →
        Couple (only sid) P
          (fun i : Fin (4 * 2 ^ b) => pp.dIfft dbg (4 * 2 ^ b) i (sh i) (pp.fftDealt a b true g dom.groupGenInv t i) true dom g sid rng)
          (fun i : Fin (4 * 2 ^ b) => pp.dIfft dbg (4 * 2 ^ b) i (sh' i) (pp.fftDealt a b true g dom.groupGenInv (t.add δ) i) true dom g
            sid rng) R R') ∧
      (∀ (t : VecTape F) (sid : Sid) (rng : Nat → Nat → F) (sh sh' : Nat → List F), R sh → R' sh' →
        Couple (only sid) P
          (fun i : Fin (4 * 2 ^ b) => pp.dFft dbg (4 * 2 ^ b) i (sh i) (pp.fftDealt a b re 1 dom.groupGen t i) re dom sid rng)
          (fun i : Fin (4 * 2 ^ b) => pp.dFft dbg (4 * 2 ^ b) i (sh' i) (pp.fftDealt a b re 1 dom.groupGen (t.add ε) i) re dom
            sid rng)
          (fun o => pp.SharedVec (2 * pp.l) (2 ^ a) o (packed re a b (cosetVals dom (2 ^ (a + b)) g x)))
          (fun o => pp.SharedVec (2 * pp.l) (2 ^ a) o (packed re a b (cosetVals dom (2 ^ (a + b)) g x')))) := by
  have hle := l_eq hpp
  have hg := PSS.good_of_new hpp
  have hl := hg.lpos
  have hoff := offset_eq hpp
  obtain ⟨hwf, -, -, hsize⟩ := Domain.new_pow2 hdom
  have hprim : IsPrimitiveRoot dom.groupGen (2 ^ (a + b)) := by rw [← hsize]; exact hwf.prim
  have hprim' : IsPrimitiveRoot dom.groupGenInv (2 ^ (a + b)) := by rw [hwf.ginv]; exact hprim.inv
  rw [← hoff] at hgen
  obtain ⟨δ, hδ, h1⟩ := PSS.dIfft_couple (n := 4 * 2 ^ b) hg dbg (by rw [hle]) ha hle hgen hsize hprim' x x' g true P hinj hlt
  obtain ⟨ε, hε, h2⟩ := PSS.dFft_couple (n := 4 * 2 ^ b) hg dbg (by rw [hle]) ha hle hgen hsize hprim
    (fun k => g ^ k * ∑ u ∈ range (2 ^ (a + b)), (dom.groupGenInv ^ k) ^ u * (x u * dom.sizeInv))
    (fun k => g ^ k * ∑ u ∈ range (2 ^ (a + b)), (dom.groupGenInv ^ k) ^ u * (x' u * dom.sizeInv)) re P hinj hlt
  exact ⟨δ, ε, hδ, hε, _, _, fun t sid rng sh sh' h h' => h1 t sid rng _ sh sh' le_rfl (by omega) h h',
    fun t sid rng sh sh' h h' => h2 t sid rng _ sh sh' le_rfl (by omega) h h'⟩

/-- The masks of `circom_h` are dealt with the tapes `t 0`, …, `t 5`. -/
def CircomDealt (pp : PSS F) (a b : Nat) (root : F) (dom : Domain F) (t : Nat → VecTape F) (masks : Nat → Nat → FftMask F) : Prop :=
  (∀ p, ∀ k < 3, masks p k = pp.fftDealt a b true root dom.groupGenInv (t k) p) ∧
  ∀ p, ∀ k < 3, masks p (3 + k) = pp.fftDealt a b false 1 dom.groupGen (t (3 + k)) p

/-- The shares of a program. -/
def SharesProgram (pp : PSS F) (a b : Nat) (dom : Domain F) (q : Nat → PackedQAPShare F) (xa xb xc : Nat → F) : Prop :=
  (∀ p < 4 * 2 ^ b, (q p).domain = dom) ∧ pp.SharedVec (2 * pp.l) (2 ^ a) (fun p => (q p).a) (packed true a b xa) ∧
  pp.SharedVec (2 * pp.l) (2 ^ a) (fun p => (q p).b) (packed true a b xb) ∧
  pp.SharedVec (2 * pp.l) (2 ^ a) (fun p => (q p).c) (packed true a b xc)

theorem circomH_couple {dbg₀ : Bool} {b : Nat} {pp : PSS F} (hpp : PSS.new dbg₀ (2 ^ b) = .ok pp)
    (hgen : (FftField.GENERATOR : F) ^ (4 * 2 ^ b) ≠ 1) (dbg : Bool) (a : Nat)
    (ha : a < 64) {dom dom2 : Domain F} (hdom : Domain.new (2 ^ (a + b)) = some dom)
    (hdom2 : Domain.new (2 ^ (a + b + 1)) = some dom2) (xa xb xc xa' xb' xc' : Nat → F)
    (P : Fin (2 ^ b) → Nat) (hinj : Function.Injective P) (hlt : ∀ i, P i < 4 * 2 ^ b) :
    ∃ (δ : Nat → VecTape F) (ε : VecTape F) (y y' : List F),
      y.length = 2 ^ (a + b) ∧ y'.length = 2 ^ (a + b) ∧
      (∀ k < 3, ∀ t i, pp.fftDealt a b true dom2.groupGen dom.groupGenInv (t.add (δ k)) (P i) =
        pp.fftDealt a b true dom2.groupGen dom.groupGenInv t (P i)) ∧
      (∀ k < 3, ∀ t i, pp.fftDealt a b false 1 dom.groupGen (t.add (δ (3 + k))) (P i) =
        pp.fftDealt a b false 1 dom.groupGen t (P i)) ∧
      (∀ t i, pp.degDealt (2 ^ a) (t.add ε) (P i) = pp.degDealt (2 ^ a) t (P i)) ∧
      ∀ (tf : Nat → VecTape F) (td : VecTape F) (rng : Nat → Nat → Nat → F) (q q' : Nat → PackedQAPShare F)
        (masks masks' : Nat → Nat → FftMask F), SharesProgram pp a b dom q xa xb xc → SharesProgram pp a b dom q' xa' xb' xc' →
        CircomDealt pp a b dom2.groupGen dom tf masks →
        CircomDealt pp a b dom2.groupGen dom (fun k => (tf k).add (δ k)) masks' →
        Couple (fun _ => True) P
          (fun i : Fin (4 * 2 ^ b) => pp.circomH dbg (4 * 2 ^ b) i (q i) (masks i) (pp.degDealt (2 ^ a) td i) rng)
          (fun i : Fin (4 * 2 ^ b) => pp.circomH dbg (4 * 2 ^ b) i (q' i) (masks' i) (pp.degDealt (2 ^ a) (td.add ε) i) rng)
          (fun o => HoldsChunks pp b o y) (fun o => HoldsChunks pp b o y') := by
  have hle := l_eq hpp
  have hg := PSS.good_of_new hpp
  have hl := hg.lpos
  obtain ⟨hwf, hoff, -, hsize⟩ := Domain.new_pow2 hdom
  obtain ⟨-, hoff2, -, hsize2⟩ := Domain.new_pow2 hdom2
  obtain ⟨δa, εa, da, ea, Ra, Ra', a1, a2⟩ := toCoset_couple hpp hgen dbg a ha hdom xa xa' dom2.groupGen false P hinj hlt
  obtain ⟨δb, εb, db, eb, Rb, Rb', b1, b2⟩ := toCoset_couple hpp hgen dbg a ha hdom xb xb' dom2.groupGen false P hinj hlt
  obtain ⟨δc, εc, dc, ec, Rc, Rc', c1, c2⟩ := toCoset_couple hpp hgen dbg a ha hdom xc xc' dom2.groupGen false P hinj hlt
  let e := fun x => cosetVals dom (2 ^ (a + b)) dom2.groupGen x
  obtain ⟨ε, dε, h3⟩ := PSS.degRed_couple (n := 4 * 2 ^ b) hg dbg hle (by rw [hle]) (by rw [offset_eq hpp]; exact hgen) (N := 2 ^ a)
    (by positivity) (Nat.pow_lt_pow_right (by omega) ha) (packed false a b fun i => e xa i * e xb i - e xc i)
    (packed false a b fun i => e xa' i * e xb' i - e xc' i) (fun c _ => packed_length _ _ _ _ _) (fun c _ => packed_length _ _ _ _ _)
    P hinj hlt
  refine ⟨fun k => if k = 0 then δa else if k = 1 then δb else if k = 2 then δc else if k = 3 then εa else if k = 4 then εb else εc, ε,
    (List.range (2 ^ (a + b))).map fun i => e xa i * e xb i - e xc i,
    (List.range (2 ^ (a + b))).map fun i => e xa' i * e xb' i - e xc' i, by simp, by simp, ?_, ?_, dε, ?_⟩
  · intro k hk
    obtain rfl | rfl | rfl : k = 0 ∨ k = 1 ∨ k = 2 := by omega
    exacts [da, db, dc]
  · intro k hk
    obtain rfl | rfl | rfl : k = 0 ∨ k = 1 ∨ k = 2 := by omega
    exacts [ea, eb, ec]
  · rintro tf td rng q q' masks masks' ⟨hq, hqa, hqb, hqc⟩ ⟨hq', hqa', hqb', hqc'⟩ ⟨hm1, hm2⟩ ⟨hm1', hm2'⟩
    have unfolded : ∀ (q : Nat → PackedQAPShare F) (masks : Nat → Nat → FftMask F) (dm : Nat → DegRedMask F),
        (∀ p < 4 * 2 ^ b, (q p).domain = dom) → ∀ i : Fin (4 * 2 ^ b), pp.circomH dbg (4 * 2 ^ b) i (q i) (masks i) (dm i) rng =
      tryJoin3 (pp.dIfft dbg (4 * 2 ^ b) i (q i).a (masks i 0) true dom dom2.groupGen .zero (rng 0))
        (pp.dIfft dbg (4 * 2 ^ b) i (q i).b (masks i 1) true dom dom2.groupGen .one (rng 1))
        (pp.dIfft dbg (4 * 2 ^ b) i (q i).c (masks i 2) true dom dom2.groupGen .two (rng 2)) fun aCoeff bCoeff cCoeff =>
      tryJoin3 (pp.dFft dbg (4 * 2 ^ b) i aCoeff (masks i 3) false dom .zero (rng 3))
        (pp.dFft dbg (4 * 2 ^ b) i bCoeff (masks i 4) false dom .one (rng 4))
        (pp.dFft dbg (4 * 2 ^ b) i cCoeff (masks i 5) false dom .two (rng 5)) fun aEval bEval cEval =>
      pp.degRed dbg (4 * 2 ^ b) i (List.zipWith (fun ab c => ab.1 * ab.2 - c) (List.zip aEval bEval) cEval) (dm i) .zero (rng 6) := by
      intro q masks dm hq i
      have hroot : dom2.element 1 = dom2.groupGen := by rw [Domain.element, hoff2, one_mul, pow_one]
      rw [PSS.circomH, hq i i.2, hsize, ← pow_succ', hdom2, ← hroot]
      rfl
    refine (Couple.congr ?_ (unfolded q masks (pp.degDealt (2 ^ a) td) hq)
      (unfolded q' masks' (pp.degDealt (2 ^ a) (td.add ε)) hq')).imp (R := fun o => pp.SharedVec (2 * pp.l) (2 ^ a) o
        (packed false a b fun i => e xa i * e xb i - e xc i)) (R' := fun o => pp.SharedVec (2 * pp.l) (2 ^ a) o
        (packed false a b fun i => e xa' i * e xb' i - e xc' i)) ?_ ?_
    · have k0 := fun i => hm1 i 0 (by omega)
      have k1 := fun i => hm1 i 1 (by omega)
      have k2 := fun i => hm1 i 2 (by omega)
      have k3 := fun i => hm2 i 0 (by omega)
      have k4 := fun i => hm2 i 1 (by omega)
      have k5 := fun i => hm2 i 2 (by omega)
      have k0' := fun i => hm1' i 0 (by omega)
      have k1' := fun i => hm1' i 1 (by omega)
      have k2' := fun i => hm1' i 2 (by omega)
      have k3' := fun i => hm2' i 0 (by omega)
      have k4' := fun i => hm2' i 1 (by omega)
      have k5' := fun i => hm2' i 2 (by omega)
      simp only [Nat.add_zero, Nat.reduceAdd, if_true, one_ne_zero, OfNat.ofNat_ne_zero, OfNat.ofNat_ne_one, if_false, Nat.reduceEqDiff]
        at k3 k4 k5 k0' k1' k2' k3' k4' k5'
      simp only [k0, k1, k2, k3, k4, k5, k0', k1', k2', k3', k4', k5']
      refine Couple.tryJoin3 (a1 (tf 0) .zero (rng 0) _ _ hqa hqa') (b1 (tf 1) .one (rng 1) _ _ hqb hqb')
        (c1 (tf 2) .two (rng 2) _ _ hqc hqc') (fun _ _ => trivial) (fun _ _ => trivial) (fun _ _ => trivial) ?_
      rintro oa oa' ob ob' oc oc' ra ra' - rb rb' - rc rc' -
      refine Couple.tryJoin3 (a2 (tf 3) .zero (rng 3) _ _ ra ra') (b2 (tf 4) .one (rng 4) _ _ rb rb')
        (c2 (tf 5) .two (rng 5) _ _ rc rc') (fun _ _ => trivial) (fun _ _ => trivial) (fun _ _ => trivial) ?_
      rintro pa pa' pb pb' pc pc' ra ra' - rb rb' - rc rc' -
      exact (h3 td .zero (rng 6) (4 * pp.l - 1) _ _ (by omega) le_rfl (SharedVec.mulSub hg hle false rfl ra rb rc)
        (SharedVec.mulSub hg hle false rfl ra' rb' rc')).mono fun _ _ => trivial
    · intro o ho
      refine HoldsOutput.chunks (a := a) ⟨by simp, ?_⟩
      rw [← hle]
      refine SharedVec.congr ho (fun _ _ => rfl) fun c hc => packed_congr _ hc fun i hi => ?_
      rw [getD_map_range, if_pos hi]
    · intro o ho
      refine HoldsOutput.chunks (a := a) ⟨by simp, ?_⟩
      rw [← hle]
      refine SharedVec.congr ho (fun _ _ => rfl) fun c hc => packed_congr _ hc fun i hi => ?_
      rw [getD_map_range, if_pos hi]

/-! ### Two runs of the parts of the proof -/

section groups

variable {G : Type} [AddCommGroup G] [Module F G] [DecidableEq G] [FixedWire G]

theorem dMsm_chunks_couple {dbg₀ : Bool} {b : Nat} {pp : PSS F} (hpp : PSS.new dbg₀ (2 ^ b) = .ok pp)
    (hgen : (FftField.GENERATOR : F) ^ (4 * 2 ^ b) ≠ 1) (dbg : Bool) (gen : G) (hspan : ∀ g : G, ∃ c : F, c • gen = g)
    {y : List G} {x x' : List F} (hlen : x.length = y.length) (hlen' : x'.length = y.length)
    (P : Fin (2 ^ b) → Nat) (hinj : Function.Injective P) (hlt : ∀ i, P i < 4 * 2 ^ b) :
    ∃ δ : MsmTape F G, (∀ t i, pp.msmDealt gen (t.add δ) (P i) = pp.msmDealt gen t (P i)) ∧
      ∀ (t : MsmTape F G) (sid : Sid) (bs : Nat → List G) (ss ss' : Nat → List F), HoldsChunks pp b bs y →
        HoldsChunks pp b ss x → HoldsChunks pp b ss' x' →
        Couple (only sid) P
          (fun i : Fin (4 * 2 ^ b) => pp.dMsm dbg (4 * 2 ^ b) i (bs i) (ss i) (pp.msmDealt gen t i) sid)
          (fun i : Fin (4 * 2 ^ b) => pp.dMsm dbg (4 * 2 ^ b) i (bs i) (ss' i) (pp.msmDealt gen (t.add δ) i) sid)
          (fun _ => True) (fun _ => True) := by
  have hle := l_eq hpp
  have hg := PSS.good_of_new hpp
  have hl := hg.lpos
  obtain ⟨δ, hδ, h⟩ := PSS.dMsm_couple (n := 4 * 2 ^ b) hg dbg hle (by rw [hle]) (by rw [offset_eq hpp]; exact hgen) gen
    (∑ i ∈ range y.length, x.getD i 0 • y.getD i 0) (∑ i ∈ range y.length, x'.getD i 0 • y.getD i 0) (hspan _) P hinj hlt
  refine ⟨δ, hδ, fun t sid bs ss ss' hb hs hs' => ?_⟩
  rw [HoldsChunks, ← hle] at hb hs hs'
  rw [hlen] at hs
  rw [hlen'] at hs'
  refine (h t sid _ _ _ bs bs _ _ ss ss' _ _ (by omega) (by omega) hb hb hs hs' ?_ ?_).imp (fun _ _ => trivial) fun _ _ => trivial
  · rw [sum_chunks, sum_padded (N := (y.length + pp.l - 1) / pp.l * pp.l) _ _ rfl (numChunks_mul y hl)]
  · rw [sum_chunks, sum_padded (N := (y.length + pp.l - 1) / pp.l * pp.l) _ _ rfl (numChunks_mul y hl)]

theorem proveA_couple {dbg₀ : Bool} {b : Nat} {pp : PSS F} (hpp : PSS.new dbg₀ (2 ^ b) = .ok pp)
    (hgen : (FftField.GENERATOR : F) ^ (4 * 2 ^ b) ≠ 1) (dbg : Bool) (gen : G) (hspan : ∀ g : G, ∃ c : F, c • gen = g)
    {S : List G} {z z' : List F} (hlen : z.length = S.length) (hlen' : z'.length = S.length)
    (P : Fin (2 ^ b) → Nat) (hinj : Function.Injective P) (hlt : ∀ i, P i < 4 * 2 ^ b) :
    ∃ δ : MsmTape F G, (∀ t i, pp.msmDealt gen (t.add δ) (P i) = pp.msmDealt gen t (P i)) ∧
      ∀ (t : MsmTape F G) (sid : Sid) (L N AG : G) (Ssh : Nat → List G) (zsh zsh' : Nat → List F) (rsh rsh' : Nat → F),
        HoldsChunks pp b Ssh S → HoldsChunks pp b zsh z → HoldsChunks pp b zsh' z' → (∀ i, rsh (P i) = rsh' (P i)) →
        Couple (only sid) P
          (fun i : Fin (4 * 2 ^ b) => pp.proveA dbg (4 * 2 ^ b) i L N AG (Ssh i) (zsh i) (rsh i) (pp.msmDealt gen t i) sid)
          (fun i : Fin (4 * 2 ^ b) => pp.proveA dbg (4 * 2 ^ b) i L N AG (Ssh i) (zsh' i) (rsh' i) (pp.msmDealt gen (t.add δ) i) sid)
          (fun _ => True) (fun _ => True) := by
  obtain ⟨δ, hδ, h⟩ := dMsm_chunks_couple hpp hgen dbg gen hspan hlen hlen' P hinj hlt
  refine ⟨δ, hδ, fun t sid L N AG Ssh zsh zsh' rsh rsh' hS hz hz' hr => ?_⟩
  refine Couple.bind (h t sid Ssh zsh zsh' hS hz hz') (fun _ h => h) fun o o' _ _ he => ?_
  exact Couple.done (fun p => (L + rsh p • N) + o p + AG) (fun p => (L + rsh' p • N) + o' p + AG) trivial trivial
    fun i => by simp only [hr, he]

theorem proveC_couple {dbg₀ : Bool} {b : Nat} {pp : PSS F} (hpp : PSS.new dbg₀ (2 ^ b) = .ok pp)
    (hgen : (FftField.GENERATOR : F) ^ (4 * 2 ^ b) ≠ 1) (dbg : Bool) (gen : G) (hspan : ∀ g : G, ∃ c : F, c • gen = g)
    {W U : List G} {ax ax' h h' : List F} (hW : ax.length = W.length) (hW' : ax'.length = W.length)
    (hU : h.length = U.length) (hU' : h'.length = U.length)
    (P : Fin (2 ^ b) → Nat) (hinj : Function.Injective P) (hlt : ∀ i, P i < 4 * 2 ^ b) :
    ∃ δ ε : MsmTape F G, (∀ t i, pp.msmDealt gen (t.add δ) (P i) = pp.msmDealt gen t (P i)) ∧
      (∀ t i, pp.msmDealt gen (t.add ε) (P i) = pp.msmDealt gen t (P i)) ∧
      ∀ (t u : MsmTape F G) (M : G) (Wsh Ush : Nat → List G) (axsh axsh' hsh hsh' : Nat → List F) (rsh rsh' ssh ssh' : Nat → F)
        (Ash Ash' Bsh Bsh' : Nat → G),
        HoldsChunks pp b Wsh W → HoldsChunks pp b Ush U → HoldsChunks pp b axsh ax → HoldsChunks pp b axsh' ax' →
        HoldsChunks pp b hsh h → HoldsChunks pp b hsh' h' → (∀ i, rsh (P i) = rsh' (P i)) → (∀ i, ssh (P i) = ssh' (P i)) →
        (∀ i, Ash (P i) = Ash' (P i)) → (∀ i, Bsh (P i) = Bsh' (P i)) →
        Couple (fun _ => True) P
          (fun i : Fin (4 * 2 ^ b) => pp.proveC dbg (4 * 2 ^ b) i (Ash i) (Bsh i) (ssh i) (rsh i) M (Wsh i) (Ush i) (axsh i) (hsh i)
            (pp.msmDealt gen t i) (pp.msmDealt gen u i))
          (fun i : Fin (4 * 2 ^ b) => pp.proveC dbg (4 * 2 ^ b) i (Ash' i) (Bsh' i) (ssh' i) (rsh' i) M (Wsh i) (Ush i) (axsh' i) (hsh' i)
            (pp.msmDealt gen (t.add δ) i) (pp.msmDealt gen (u.add ε) i))
          (fun _ => True) (fun _ => True) := by
  obtain ⟨δ, hδ, h1⟩ := dMsm_chunks_couple hpp hgen dbg gen hspan hW hW' P hinj hlt
  obtain ⟨ε, hε, h2⟩ := dMsm_chunks_couple hpp hgen dbg gen hspan hU hU' P hinj hlt
  refine ⟨δ, ε, hδ, hε, fun t u M Wsh Ush axsh axsh' hsh hsh' rsh rsh' ssh ssh' Ash Ash' Bsh Bsh' w u' x x' y y' er es eA eB => ?_⟩
  refine Couple.par (h1 t .zero Wsh axsh axsh' w x x') (h2 u .one Ush hsh hsh' u' y y') (fun _ _ => trivial) (fun _ _ => trivial) ?_
  intro o o' v v' _ _ eo _ _ ev
  exact Couple.done (fun p => ssh p • Ash p + rsh p • Bsh p - (rsh p * ssh p) • M + o p + v p)
    (fun p => ssh' p • Ash' p + rsh' p • Bsh' p - (rsh' p * ssh' p) • M + o' p + v' p) trivial trivial
    fun i => by simp only [er, es, eA, eB, eo, ev]

end groups

/-! ### Two runs of `dsha256` -/

section servers

variable {G1 G2 : Type} [AddCommGroup G1] [Module F G1] [DecidableEq G1] [FixedWire G1]
  [AddCommGroup G2] [Module F G2] [DecidableEq G2] [FixedWire G2]

theorem dsha256_couple {dbg₀ : Bool} {b : Nat} {pp : PSS F} (hpp : PSS.new dbg₀ (2 ^ b) = .ok pp)
    (hgen : (FftField.GENERATOR : F) ^ (4 * 2 ^ b) ≠ 1) (dbg : Bool) (a : Nat)
    (ha : a < 64) {dom dom2 : Domain F} (hdom : Domain.new (2 ^ (a + b)) = some dom)
    (hdom2 : Domain.new (2 ^ (a + b + 1)) = some dom2) (gen1 : G1) (gen2 : G2) (hspan1 : ∀ g : G1, ∃ c : F, c • gen1 = g)
    (hspan2 : ∀ g : G2, ∃ c : F, c • gen2 = g) (xa xb xc xa' xb' xc' : Nat → F)
    {crs : Nat → PackedProvingKeyShare G1 G2} {a0 b0 α1 β1 δ1 : G1} {v0 β2 δ2 : G2}
    (hpub : ∀ p, (crs p).aQuery0 = a0 ∧ (crs p).bG1Query0 = b0 ∧ (crs p).bG2Query0 = v0 ∧ (crs p).deltaG1 = δ1 ∧
        (crs p).deltaG2 = δ2 ∧ (crs p).alphaG1 = α1 ∧ (crs p).betaG1 = β1 ∧ (crs p).betaG2 = β2)
    {S H W U : List G1} {V : List G2} (hS : HoldsChunks pp b (fun p => (crs p).s) S) (hU : HoldsChunks pp b (fun p => (crs p).u) U)
    (hW : HoldsChunks pp b (fun p => (crs p).w) W) (hH : HoldsChunks pp b (fun p => (crs p).h) H)
    (hV : HoldsChunks pp b (fun p => (crs p).v) V) {z z' ax ax' : List F} (hzS : z.length = S.length) (hzS' : z'.length = S.length)
    (hzH : z.length = H.length) (hzV : z.length = V.length) (hax : ax.length = W.length) (hax' : ax'.length = W.length)
    (hUl : U.length = 2 ^ (a + b)) (P : Fin (2 ^ b) → Nat) (hinj : Function.Injective P) (hlt : ∀ i, P i < 4 * 2 ^ b) :
    ∃ (δ : Nat → VecTape F) (ε : VecTape F) (ζ : Nat → MsmTape F G1) (η : MsmTape F G2),
      (∀ k < 3, ∀ t i, pp.fftDealt a b true dom2.groupGen dom.groupGenInv (t.add (δ k)) (P i) =
        pp.fftDealt a b true dom2.groupGen dom.groupGenInv t (P i)) ∧
      (∀ k < 3, ∀ t i, pp.fftDealt a b false 1 dom.groupGen (t.add (δ (3 + k))) (P i) =
        pp.fftDealt a b false 1 dom.groupGen t (P i)) ∧
      (∀ t i, pp.degDealt (2 ^ a) (t.add ε) (P i) = pp.degDealt (2 ^ a) t (P i)) ∧
      (∀ k < 4, ∀ t i, pp.msmDealt gen1 (t.add (ζ k)) (P i) = pp.msmDealt gen1 t (P i)) ∧
      (∀ t i, pp.msmDealt gen2 (t.add η) (P i) = pp.msmDealt gen2 t (P i)) ∧
      ∀ (tf : Nat → VecTape F) (td : VecTape F) (tm : Nat → MsmTape F G1) (tn : MsmTape F G2) (rng : Nat → Nat → Nat → F)
        (q q' : Nat → PackedQAPShare F) (masks masks' : Nat → Nat → FftMask F) (zsh zsh' axsh axsh' : Nat → List F)
        (rsh rsh' ssh ssh' : Nat → F) (m1 m1' : Nat → Nat → MsmMask G1),
        SharesProgram pp a b dom q xa xb xc → SharesProgram pp a b dom q' xa' xb' xc' →
        HoldsChunks pp b zsh z → HoldsChunks pp b zsh' z' → HoldsChunks pp b axsh ax → HoldsChunks pp b axsh' ax' →
        CircomDealt pp a b dom2.groupGen dom tf masks →
        CircomDealt pp a b dom2.groupGen dom (fun k => (tf k).add (δ k)) masks' →
        (∀ p, ∀ k < 4, m1 p k = pp.msmDealt gen1 (tm k) p) → (∀ p, ∀ k < 4, m1' p k = pp.msmDealt gen1 ((tm k).add (ζ k)) p) →
        (∀ i, rsh (P i) = rsh' (P i)) → (∀ i, ssh (P i) = ssh' (P i)) →
        ((∀ p < 4 * 2 ^ b, rsh p ≠ 0) ∨ ∀ p < 4 * 2 ^ b, rsh p = 0) →
        ((∀ p < 4 * 2 ^ b, rsh' p ≠ 0) ∨ ∀ p < 4 * 2 ^ b, rsh' p = 0) →
        Couple (fun _ => True) P
          (fun i : Fin (4 * 2 ^ b) => pp.dsha256 dbg (4 * 2 ^ b) i (crs i) (q i) (zsh i) (axsh i) (rsh i) (ssh i) (masks i)
            (pp.degDealt (2 ^ a) td i) (m1 i) (pp.msmDealt gen2 tn i) rng)
          (fun i : Fin (4 * 2 ^ b) => pp.dsha256 dbg (4 * 2 ^ b) i (crs i) (q' i) (zsh' i) (axsh' i) (rsh' i) (ssh' i) (masks' i)
            (pp.degDealt (2 ^ a) (td.add ε) i) (m1' i) (pp.msmDealt gen2 (tn.add η) i) rng)
          (fun _ => True) (fun _ => True) := by
  obtain ⟨δ, ε, y, y', ly, ly', hδ, hδ', hε, hh⟩ := circomH_couple hpp hgen dbg a ha hdom hdom2 xa xb xc xa' xb' xc' P hinj hlt
  obtain ⟨ζ0, hζ0, hA⟩ := proveA_couple hpp hgen dbg gen1 hspan1 hzS hzS' P hinj hlt
  obtain ⟨ζ1, hζ1, hB1⟩ := proveA_couple hpp hgen dbg gen1 hspan1 hzH (hzS'.trans (hzS.symm.trans hzH)) P hinj hlt
  obtain ⟨η, hη, hB2⟩ := proveA_couple hpp hgen dbg gen2 hspan2 hzV (hzS'.trans (hzS.symm.trans hzV)) P hinj hlt
  obtain ⟨ζ2, ζ3, hζ2, hζ3, hC⟩ := proveC_couple hpp hgen dbg gen1 hspan1 hax hax' (ly.trans hUl.symm) (ly'.trans hUl.symm) P hinj hlt
  refine ⟨δ, ε, fun k => if k = 0 then ζ0 else if k = 1 then ζ1 else if k = 2 then ζ2 else ζ3, η, hδ, hδ', hε, ?_, hη, ?_⟩
  · intro k hk
    obtain rfl | rfl | rfl | rfl : k = 0 ∨ k = 1 ∨ k = 2 ∨ k = 3 := by omega
    exacts [hζ0, hζ1, hζ2, hζ3]
  intro tf td tm tn rng q q' masks masks' zsh zsh' axsh axsh' rsh rsh' ssh ssh' m1 m1' hq hq' hz hz' hx hx' hm hm' hm1 hm1' er es hr0 hr0'
  have k0 := fun i => hm1 i 0 (by omega)
  have k1 := fun i => hm1 i 1 (by omega)
  have k2 := fun i => hm1 i 2 (by omega)
  have k3 := fun i => hm1 i 3 (by omega)
  have k0' := fun i => hm1' i 0 (by omega)
  have k1' := fun i => hm1' i 1 (by omega)
  have k2' := fun i => hm1' i 2 (by omega)
  have k3' := fun i => hm1' i 3 (by omega)
  simp only [if_true, one_ne_zero, OfNat.ofNat_ne_zero, OfNat.ofNat_ne_one, if_false, Nat.reduceEqDiff] at k0' k1' k2' k3'
  have hB1' : Couple (only .zero) P
      (fun i : Fin (4 * 2 ^ b) => pp.proveBInG1 dbg (4 * 2 ^ b) i b0 δ1 β1 (crs i).h (zsh i) (ssh i) (rsh i)
        (pp.msmDealt gen1 (tm 1) i) .zero)
      (fun i : Fin (4 * 2 ^ b) => pp.proveBInG1 dbg (4 * 2 ^ b) i b0 δ1 β1 (crs i).h (zsh' i) (ssh' i) (rsh' i)
        (pp.msmDealt gen1 ((tm 1).add ζ1) i) .zero) (fun _ => True) (fun _ => True) := by
    have hp0 : 0 < 2 ^ b := by positivity
    have hone := er ⟨0, hp0⟩
    rcases hr0 with hr0 | hr0 <;> rcases hr0' with hr0' | hr0'
    · exact (hB1 (tm 1) .zero b0 δ1 β1 _ zsh zsh' ssh ssh' hH hz hz' es).congr
        (fun i => proveBInG1_eq_A _ _ _ _ _ _ _ _ _ (hr0 i i.2) _ _) (fun i => proveBInG1_eq_A _ _ _ _ _ _ _ _ _ (hr0' i i.2) _ _)
    · exact absurd (hone.trans (hr0' _ (hlt _))) (hr0 _ (hlt _))
    · exact absurd (hone.symm.trans (hr0 _ (hlt _))) (hr0' _ (hlt _))
    · refine (Couple.done (fun _ => 0) (fun _ => 0) trivial trivial fun _ => rfl).congr (fun i => ?_) fun i => ?_
      · rw [PSS.proveBInG1, if_pos (hr0 i i.2)]
      · rw [PSS.proveBInG1, if_pos (hr0' i i.2)]
  have unfolded : ∀ (q : Nat → PackedQAPShare F) (zsh axsh : Nat → List F) (rsh ssh : Nat → F) (masks : Nat → Nat → FftMask F)
      (dm : Nat → DegRedMask F) (m1 : Nat → Nat → MsmMask G1) (m2 : Nat → MsmMask G2) (i : Fin (4 * 2 ^ b)),
      pp.dsha256 dbg (4 * 2 ^ b) i (crs i) (q i) (zsh i) (axsh i) (rsh i) (ssh i) (masks i) (dm i) (m1 i) (m2 i) rng =
      (pp.circomH dbg (4 * 2 ^ b) i (q i) (masks i) (dm i) rng).bind fun h =>
      (pp.proveA dbg (4 * 2 ^ b) i a0 δ1 α1 (crs i).s (zsh i) (rsh i) (m1 i 0) .zero).bind fun piA =>
      (pp.proveBInG1 dbg (4 * 2 ^ b) i b0 δ1 β1 (crs i).h (zsh i) (ssh i) (rsh i) (m1 i 1) .zero).bind fun piB1 =>
      (pp.proveA dbg (4 * 2 ^ b) i v0 δ2 β2 (crs i).v (zsh i) (ssh i) (m2 i) .zero).bind fun piB2 =>
      (pp.proveC dbg (4 * 2 ^ b) i piA piB1 (ssh i) (rsh i) δ1 (crs i).w (crs i).u (axsh i) h (m1 i 2) (m1 i 3)).bind fun piC =>
      Proc.done (.ok (piA, piB2, piC)) := by
    intro q zsh axsh rsh ssh masks dm m1 m2 i
    obtain ⟨e1, e2, e3, e4, e5, e6, e7, e8⟩ := hpub i
    unfold PSS.dsha256
    rw [e1, e2, e3, e4, e5, e6, e7, e8]
    rfl
  refine Couple.congr ?_ (unfolded q zsh axsh rsh ssh masks (pp.degDealt (2 ^ a) td) m1 (pp.msmDealt gen2 tn))
    (unfolded q' zsh' axsh' rsh' ssh' masks' (pp.degDealt (2 ^ a) (td.add ε)) m1' (pp.msmDealt gen2 (tn.add η)))
  simp only [k0, k1, k2, k3, k0', k1', k2', k3']
  refine Couple.bind (hh tf td rng q q' masks masks' hq hq' hm hm') (fun _ _ => trivial) fun h h' hh hh' _ => ?_
  refine Couple.bind (hA (tm 0) .zero a0 δ1 α1 _ zsh zsh' rsh rsh' hS hz hz' er) (fun _ _ => trivial) fun oA oA' _ _ eA => ?_
  refine Couple.bind hB1' (fun _ _ => trivial) fun oB1 oB1' _ _ eB1 => ?_
  refine Couple.bind (hB2 tn .zero v0 δ2 β2 _ zsh zsh' ssh ssh' hV hz hz' es) (fun _ _ => trivial) fun oB oB' _ _ eB => ?_
  refine Couple.bind (hC (tm 2) (tm 3) δ1 _ _ axsh axsh' h h' rsh rsh' ssh ssh' oA oA' oB1 oB1' hW hU hx hx' hh hh' er es eA eB1)
    (fun _ _ => trivial) fun oC oC' _ _ eC => ?_
  exact Couple.done (fun p => (oA p, oB p, oC p)) (fun p => (oA' p, oB' p, oC' p)) trivial trivial
    fun i => by simp only [eA, eB, eC]

/-! ### The dealing -/

/-- Adding values to all the tapes of the client. -/
def _root_.ZkSaas.ClientTape.add (t δ : ClientTape F G1 G2) : ClientTape F G1 G2 where
  r := fun i => t.r i + δ.r i
  s := fun i => t.s i + δ.s i
  qapA := fun c i => t.qapA c i + δ.qapA c i
  qapB := fun c i => t.qapB c i + δ.qapB c i
  qapC := fun c i => t.qapC c i + δ.qapC c i
  a := fun c i => t.a c i + δ.a c i
  ax := fun c i => t.ax c i + δ.ax c i
  fft := fun k => (t.fft k).add (δ.fft k)
  degred := t.degred.add δ.degred
  msm1 := fun k => (t.msm1 k).add (δ.msm1 k)
  msm2 := t.msm2.add δ.msm2

/-- What server `p` is given. -/
def dealtInput (pp : PSS F) (a b ni : Nat) (q : QAP F) (z : List F) (root : F) (dom : Domain F)
    (crs : Nat → PackedProvingKeyShare G1 G2) (gen1 : G1) (gen2 : G2) (r s : F) (t : ClientTape F G1 G2) (p : Nat) :
    ServerInput F G1 G2 :=
  ⟨crs p, ⟨q.numInputs, q.numConstraints, pp.freshVec (2 ^ a) (qapSecrets a b q.a) t.qapA p,
      pp.freshVec (2 ^ a) (qapSecrets a b q.b) t.qapB p, pp.freshVec (2 ^ a) (qapSecrets a b q.c) t.qapC p, q.domain⟩,
    pp.freshVec (numChunks (z.drop 1) (2 ^ b)) (fun c => chunks (2 ^ b) (fun i => (z.drop 1).getD i 0) c) t.a p,
    pp.freshVec (numChunks (z.drop ni) (2 ^ b)) (fun c => chunks (2 ^ b) (fun i => (z.drop ni).getD i 0) c) t.ax p,
    (pp.freshVec 1 (fun _ => List.replicate (2 ^ b) r) (fun _ => t.r) p).getD 0 0,
    (pp.freshVec 1 (fun _ => List.replicate (2 ^ b) s) (fun _ => t.s) p).getD 0 0,
    [pp.fftDealt a b true root dom.groupGenInv (t.fft 0) p, pp.fftDealt a b true root dom.groupGenInv (t.fft 1) p,
      pp.fftDealt a b true root dom.groupGenInv (t.fft 2) p, pp.fftDealt a b false 1 dom.groupGen (t.fft 3) p,
      pp.fftDealt a b false 1 dom.groupGen (t.fft 4) p, pp.fftDealt a b false 1 dom.groupGen (t.fft 5) p],
    pp.degDealt (2 ^ a) t.degred p,
    [pp.msmDealt gen1 (t.msm1 0) p, pp.msmDealt gen1 (t.msm1 1) p, pp.msmDealt gen1 (t.msm1 2) p, pp.msmDealt gen1 (t.msm1 3) p],
    pp.msmDealt gen2 t.msm2 p⟩

theorem deal_dealt {dbg₀ : Bool} {b : Nat} {pp : PSS F} (hpp : PSS.new dbg₀ (2 ^ b) = .ok pp) (dbg : Bool) (a : Nat)
    {mats : ConstraintMatrices F} {z : List F} {dom dom2 : Domain F} (hcirc : Circuit a b mats z dom dom2) {q : QAP F}
    (eq : qap mats z = .ok (some q)) (hd : q.domain = dom) (la : q.a.length = 2 ^ (a + b)) (lb : q.b.length = 2 ^ (a + b))
    (lc : q.c.length = 2 ^ (a + b)) {pk : ProvingKey G1 G2} {crs : Nat → PackedProvingKeyShare G1 G2}
    (ec : packFromArkworksProvingKey dbg pk pp = .ok ((List.range (4 * 2 ^ b)).map crs)) (gen1 : G1) (gen2 : G2) (r s : F)
    (t : ClientTape F G1 G2) :
    pp.deal dbg (2 ^ b) mats z pk gen1 gen2 r s t = .ok ((List.range (4 * 2 ^ b)).map
      (dealtInput pp a b mats.numInstanceVariables q z dom2.groupGen dom crs gen1 gen2 r s t)) := by
  obtain ⟨hdom, hsize, hdom2, -, -, -, -, -, hin, hz, -⟩ := hcirc
  subst hd
  have hg := PSS.good_of_new hpp
  have hle := l_eq hpp
  have hb0 : 0 < 2 ^ b := by positivity
  have hdom' : Domain.new (2 ^ (a + b)) = some q.domain := hsize ▸ Domain.new_size hdom
  obtain ⟨hwf, -, -, -⟩ := Domain.new_pow2 hdom'
  obtain ⟨-, hoff2, -, -⟩ := Domain.new_pow2 hdom2
  have hprim : IsPrimitiveRoot q.domain.groupGen (2 ^ (a + b)) := by rw [← hsize]; exact hwf.prim
  have hprim' : IsPrimitiveRoot q.domain.groupGenInv (2 ^ (a + b)) := by rw [hwf.ginv]; exact hprim.inv
  have hdiv : 2 ^ (a + b) / 2 ^ b = 2 ^ a := by rw [pow_add, Nat.mul_div_cancel _ hb0]
  have fm := fun t => FftMask.sample_dealt hg dbg hle hprim' true dom2.groupGen t
  have fm' := fun t => FftMask.sample_dealt hg dbg hle hprim false 1 t
  have dm := fun t => DegRedMask.sample_dealt hg dbg (N := 2 ^ a) (by positivity) t
  have mm1 := fun t => MsmMask.sample_dealt hg dbg gen1 t
  have mm2 := fun t => MsmMask.sample_dealt hg dbg gen2 t
  rw [hle] at fm fm' dm mm1 mm2
  unfold PSS.deal
  simp only [eq, ok_bind, unwrap_some, pack_fresh hpp, QAP.pss_fresh hg dbg hle q la lb lc, PSS.packFromWitness_fresh hg, ec, hle]
  rw [assert_of (by simpa using hz), ok_bind, assert_of (by simp; omega), ok_bind, rd_range _ (by omega), ok_bind]
  simp only [hsize]
  rw [show 2 * 2 ^ (a + b) = 2 ^ (a + b + 1) by rw [pow_succ, mul_comm], hdom2]
  simp only [unwrap_some, ok_bind, Domain.element, hoff2, pow_one, one_mul, hdiv, fm, fm', dm, mm1, mm2]
  rw [hg.n_eq, hle]
  refine mapM_ok fun p hp => ?_
  have hp := List.mem_range.1 hp
  simp only [rd_range _ hp, ok_bind, List.mapM_cons, List.mapM_nil, pure_ok]
  rfl

/-- The lengths of the vectors of a proving key for `nw` wires, `ni` of them public, and a domain of `m` points. -/
structure KeyFits (nw ni m : Nat) (pk : ProvingKey G1 G2) : Prop where
  aQuery : pk.aQuery.length = nw
  bG1Query : pk.bG1Query.length = nw
  bG2Query : pk.bG2Query.length = nw
  lQuery : pk.lQuery.length = nw - ni
  hQuery : pk.hQuery.length = m

theorem freshVec_holdsChunks {dbg₀ : Bool} {b : Nat} {pp : PSS F} (hpp : PSS.new dbg₀ (2 ^ b) = .ok pp) (v : List F)
    (rng : Nat → Nat → F) :
    HoldsChunks pp b (pp.freshVec (numChunks v (2 ^ b)) (fun c => chunks (2 ^ b) (fun i => v.getD i 0) c) rng) v := by
  have hle := l_eq hpp
  rw [HoldsChunks, ← hle]
  exact PSS.freshVec_shared (PSS.good_of_new hpp) (fun c _ => chunks_length _ _ _) rng

theorem dealt_shares {dbg₀ : Bool} {b : Nat} {pp : PSS F} (hpp : PSS.new dbg₀ (2 ^ b) = .ok pp) (a ni : Nat) (q : QAP F) (z : List F)
    (root : F) (dom : Domain F) (hd : q.domain = dom) (crs : Nat → PackedProvingKeyShare G1 G2) (gen1 : G1) (gen2 : G2) (r s : F)
    (t : ClientTape F G1 G2) :
    SharesProgram pp a b dom (fun p => (dealtInput pp a b ni q z root dom crs gen1 gen2 r s t p).q)
      (fun i => q.a.getD i 0) (fun i => q.b.getD i 0) (fun i => q.c.getD i 0) := by
  have hle := l_eq hpp
  have hg := PSS.good_of_new hpp
  have key : ∀ (v : List F) (rng : Nat → Nat → F), pp.SharedVec (2 * pp.l) (2 ^ a) (pp.freshVec (2 ^ a) (qapSecrets a b v) rng)
      (packed true a b fun i => v.getD i 0) := fun v rng =>
    SharedVec.congr (PSS.freshVec_shared hg (fun c _ => by simp [qapSecrets, hle]) rng) (fun _ _ => rfl) fun c _ => rfl
  exact ⟨fun p _ => hd, key _ _, key _ _, key _ _⟩

/-- What is needed of the dealt inputs. -/
structure Dealt (pp : PSS F) (a b ni : Nat) (q : QAP F) (z : List F) (root : F) (dom : Domain F)
    (crs : Nat → PackedProvingKeyShare G1 G2) (gen1 : G1) (gen2 : G2) (t : ClientTape F G1 G2) (I : Nat → ServerInput F G1 G2) : Prop where
  crs : ∀ p, (I p).crs = crs p
  degred : ∀ p, (I p).degredMask = pp.degDealt (2 ^ a) t.degred p
  msm2 : ∀ p, (I p).g2Mask = pp.msmDealt gen2 t.msm2 p
  program : SharesProgram pp a b dom (fun p => (I p).q) (fun i => q.a.getD i 0) (fun i => q.b.getD i 0) (fun i => q.c.getD i 0)
  shA : HoldsChunks pp b (fun p => (I p).a) (z.drop 1)
  shAx : HoldsChunks pp b (fun p => (I p).ax) (z.drop ni)
  masks : CircomDealt pp a b root dom t.fft fun p k => (I p).fftMask.getD k (FftMask.zero 0)
  msm1 : ∀ p, ∀ k < 4, (I p).g1Mask.getD k MsmMask.zero = pp.msmDealt gen1 (t.msm1 k) p

theorem dealt_facts {dbg₀ : Bool} {b : Nat} {pp : PSS F} (hpp : PSS.new dbg₀ (2 ^ b) = .ok pp) (a ni : Nat) (q : QAP F) (z : List F)
    (root : F) (dom : Domain F) (hd : q.domain = dom) (crs : Nat → PackedProvingKeyShare G1 G2) (gen1 : G1) (gen2 : G2) (r s : F)
    (t : ClientTape F G1 G2) :
    Dealt pp a b ni q z root dom crs gen1 gen2 t (dealtInput pp a b ni q z root dom crs gen1 gen2 r s t) where
  crs := fun _ => rfl
  degred := fun _ => rfl
  msm2 := fun _ => rfl
  program := dealt_shares hpp a ni q z root dom hd crs gen1 gen2 r s t
  shA := freshVec_holdsChunks hpp (z.drop 1) t.a
  shAx := freshVec_holdsChunks hpp (z.drop ni) t.ax
  masks := ⟨fun p k hk => by
      obtain rfl | rfl | rfl : k = 0 ∨ k = 1 ∨ k = 2 := by omega
      all_goals rfl, fun p k hk => by
      obtain rfl | rfl | rfl : k = 0 ∨ k = 1 ∨ k = 2 := by omega
      all_goals rfl⟩
  msm1 := fun p k hk => by
    obtain rfl | rfl | rfl | rfl : k = 0 ∨ k = 1 ∨ k = 2 ∨ k = 3 := by omega
    all_goals rfl

/-! ### C58 -/

/-- **C58** Recording changes nothing: every execution of the programs is matched, step by step and with the same messages on the
way, by one of the recorded programs and conversely; a party that has finished has the same result in both. -/
theorem C58_recording_faithful {n : Nat} {α : Type} (ps : Fin n → Proc α) (ok : Act → Prop) (k : Nat) :
    (∀ c, GSteps ok k (Net.init ps) c → ∃ d, GSteps ok k (Net.init fun i => (ps i).recorded) d ∧ d.queues = c.queues ∧
      ∀ i v, c.procs i = .done (.ok v) ↔ ∃ l, d.procs i = .done (.ok (v, l))) ∧
    ∀ d, GSteps ok k (Net.init fun i => (ps i).recorded) d → ∃ c, GSteps ok k (Net.init ps) c ∧ d.queues = c.queues ∧
      ∀ i v, c.procs i = .done (.ok v) ↔ ∃ l, d.procs i = .done (.ok (v, l)) := by
  have key : ∀ {p : Proc α} {q : Proc (α × Transcript)}, Rec p q → ∀ v, p = .done (.ok v) ↔ ∃ l, q = .done (.ok (v, l)) := by
    intro p q h v
    constructor
    · rintro rfl; exact h.done_ok
    · rintro ⟨l, rfl⟩; exact h.of_done_ok
  constructor
  · intro c hc
    obtain ⟨d, h1, h2, h3⟩ := Rec.steps hc (Net.init fun i => (ps i).recorded) (fun i => Rec.recorded _) rfl
    exact ⟨d, h1, h3, fun i v => key (h2 i) v⟩
  · intro d hd
    obtain ⟨c, h1, h2, h3⟩ := Rec.steps' hd (Net.init ps) (fun i => Rec.recorded _) rfl
    exact ⟨c, h1, h3, fun i v => key (h2 i) v⟩

theorem AlwaysYields.of_recorded {n : Nat} {α : Type} {ps : Fin n → Proc α} {rs : Fin n → α} {vs : Fin n → Transcript}
    (h : AlwaysYields (Net.init fun i => (ps i).recorded) fun i => (rs i, vs i)) : AlwaysYields (Net.init ps) rs := by
  obtain ⟨⟨m, hm⟩, h⟩ := h
  refine ⟨⟨m, fun k c hc => ?_⟩, fun k c hc hst i => ?_⟩
  · obtain ⟨d, hd, -⟩ := Rec.steps hc (Net.init fun i => (ps i).recorded) (fun i => Rec.recorded _) rfl
    exact hm k d hd
  · obtain ⟨d, hd, hr, hq⟩ := Rec.steps hc (Net.init fun i => (ps i).recorded) (fun i => Rec.recorded _) rfl
    have := h k d hd (fun ⟨d', hd'⟩ => by
      obtain ⟨c', hc', -⟩ := Rec.steps' (.step hd' (.refl _)) c hr hq
      cases hc' with
      | step h1 _ => exact hst ⟨_, h1⟩) i
    have hi := hr i
    rw [this] at hi
    exact hi.of_done_ok

/-- **C58** `d_fft`: for two vectors and any `l` parties there are values such that adding them to the tape of the masks turns a run on
the first vector into a run on the second in which every party but the king is sent the same bytes, and the `l` parties hold the same masks and
end with the same outputs. -/
theorem C58_d_fft {dbg₀ : Bool} {b : Nat} {pp : PSS F} (hpp : PSS.new dbg₀ (2 ^ b) = .ok pp)
    (hgen : (FftField.GENERATOR : F) ^ (4 * 2 ^ b) ≠ 1) (dbg : Bool) (a : Nat) (ha : a < 64)
    {dom : Domain F} (hdom : Domain.new (2 ^ (a + b)) = some dom) (v v' : List F) (rearrange : Bool)
    (P : Fin (2 ^ b) → Nat) (hinj : Function.Injective P) (hlt : ∀ i, P i < 4 * 2 ^ b) :
    ∃ δ : VecTape F, ∀ t : VecTape F, ∃ masks masks' : Nat → FftMask F,
      FftMask.sample pp dbg rearrange 1 dom.groupGen (2 ^ (a + b)) t.vals t.rngIn t.rngOut =
        .ok ((List.range (4 * 2 ^ b)).map masks) ∧
      FftMask.sample pp dbg rearrange 1 dom.groupGen (2 ^ (a + b)) (t.add δ).vals (t.add δ).rngIn (t.add δ).rngOut =
        .ok ((List.range (4 * 2 ^ b)).map masks') ∧
      (∀ i, masks (P i) = masks' (P i)) ∧
      ∀ sh sh' : Nat → List F, HoldsInput pp a b sh v → HoldsInput pp a b sh' v' → ∀ (sid : Sid) (rng : Nat → Nat → F),
        ∃ (outs outs' : Nat → List F) (views views' : Fin (4 * 2 ^ b) → Transcript),
          AlwaysYields (Net.init fun i : Fin (4 * 2 ^ b) =>
            (pp.dFft dbg (4 * 2 ^ b) i (sh i) (masks i) rearrange dom sid rng).recorded) (fun i => (outs i, views i)) ∧
          AlwaysYields (Net.init fun i : Fin (4 * 2 ^ b) =>
            (pp.dFft dbg (4 * 2 ^ b) i (sh' i) (masks' i) rearrange dom sid rng).recorded) (fun i => (outs' i, views' i)) ∧ (∀ i, i.val ≠ 0 → views i = views' i) ∧
          ∀ i, outs (P i) = outs' (P i) := by
  have hle := l_eq hpp
  have hg := PSS.good_of_new hpp
  obtain ⟨hwf, -, -, hsize⟩ := Domain.new_pow2 hdom
  have hprim : IsPrimitiveRoot dom.groupGen (2 ^ (a + b)) := by rw [← hsize]; exact hwf.prim
  rw [← offset_eq hpp] at hgen
  obtain ⟨δ, hδ, h⟩ := PSS.dFft_couple (n := 4 * 2 ^ b) hg dbg (by rw [hle]) ha hle hgen hsize hprim (fun i => v.getD i 0)
    (fun i => v'.getD i 0) rearrange P hinj hlt
  have fm := fun t => FftMask.sample_dealt hg dbg hle hprim rearrange 1 t
  rw [hle] at fm
  refine ⟨δ, fun t => ⟨_, _, fm t, fm (t.add δ), fun i => (hδ t i).symm, ?_⟩⟩
  rintro sh sh' ⟨-, d, hd2, hd4, hsh⟩ ⟨-, d', hd2', hd4', hsh'⟩ sid rng
  rw [← hle] at hd2 hd4 hsh hd2' hd4' hsh'
  obtain ⟨outs, outs', views, views', h1, h2, hv, -, -, h3⟩ := h t sid rng (4 * pp.l - 1) sh sh' (by omega) le_rfl (SharedVec.mono hd4 hsh)
    (SharedVec.mono hd4' hsh')
  exact ⟨outs, outs', views, views', h1.alwaysYields fun i => PSS.dFft_wf _ (by positivity) _ _ _ _ _ _ _,
    h2.alwaysYields fun i => PSS.dFft_wf _ (by positivity) _ _ _ _ _ _ _, hv, h3⟩

/-- **C58** `d_ifft`: the same. -/
theorem C58_d_ifft {dbg₀ : Bool} {b : Nat} {pp : PSS F} (hpp : PSS.new dbg₀ (2 ^ b) = .ok pp)
    (hgen : (FftField.GENERATOR : F) ^ (4 * 2 ^ b) ≠ 1) (dbg : Bool) (a : Nat) (ha : a < 64)
    {dom : Domain F} (hdom : Domain.new (2 ^ (a + b)) = some dom) (v v' : List F) (g : F) (rearrange : Bool)
    (P : Fin (2 ^ b) → Nat) (hinj : Function.Injective P) (hlt : ∀ i, P i < 4 * 2 ^ b) :
    ∃ δ : VecTape F, ∀ t : VecTape F, ∃ masks masks' : Nat → FftMask F,
      FftMask.sample pp dbg rearrange g dom.groupGenInv (2 ^ (a + b)) t.vals t.rngIn t.rngOut =
        .ok ((List.range (4 * 2 ^ b)).map masks) ∧
      FftMask.sample pp dbg rearrange g dom.groupGenInv (2 ^ (a + b)) (t.add δ).vals (t.add δ).rngIn (t.add δ).rngOut =
        .ok ((List.range (4 * 2 ^ b)).map masks') ∧
      (∀ i, masks (P i) = masks' (P i)) ∧
      ∀ sh sh' : Nat → List F, HoldsInput pp a b sh v → HoldsInput pp a b sh' v' → ∀ (sid : Sid) (rng : Nat → Nat → F),
        ∃ (outs outs' : Nat → List F) (views views' : Fin (4 * 2 ^ b) → Transcript),
          AlwaysYields (Net.init fun i : Fin (4 * 2 ^ b) =>
            (pp.dIfft dbg (4 * 2 ^ b) i (sh i) (masks i) rearrange dom g sid rng).recorded) (fun i => (outs i, views i)) ∧
          AlwaysYields (Net.init fun i : Fin (4 * 2 ^ b) =>
            (pp.dIfft dbg (4 * 2 ^ b) i (sh' i) (masks' i) rearrange dom g sid rng).recorded) (fun i => (outs' i, views' i)) ∧ (∀ i, i.val ≠ 0 → views i = views' i) ∧
          ∀ i, outs (P i) = outs' (P i) := by
  have hle := l_eq hpp
  have hg := PSS.good_of_new hpp
  obtain ⟨hwf, -, -, hsize⟩ := Domain.new_pow2 hdom
  have hprim : IsPrimitiveRoot dom.groupGenInv (2 ^ (a + b)) := by rw [hwf.ginv, ← hsize]; exact hwf.prim.inv
  rw [← offset_eq hpp] at hgen
  obtain ⟨δ, hδ, h⟩ := PSS.dIfft_couple (n := 4 * 2 ^ b) hg dbg (by rw [hle]) ha hle hgen hsize hprim (fun i => v.getD i 0)
    (fun i => v'.getD i 0) g rearrange P hinj hlt
  have fm := fun t => FftMask.sample_dealt hg dbg hle hprim rearrange g t
  rw [hle] at fm
  refine ⟨δ, fun t => ⟨_, _, fm t, fm (t.add δ), fun i => (hδ t i).symm, ?_⟩⟩
  rintro sh sh' ⟨-, d, hd2, hd4, hsh⟩ ⟨-, d', hd2', hd4', hsh'⟩ sid rng
  rw [← hle] at hd2 hd4 hsh hd2' hd4' hsh'
  obtain ⟨outs, outs', views, views', h1, h2, hv, -, -, h3⟩ := h t sid rng (4 * pp.l - 1) sh sh' (by omega) le_rfl (SharedVec.mono hd4 hsh)
    (SharedVec.mono hd4' hsh')
  exact ⟨outs, outs', views, views', h1.alwaysYields fun i => PSS.dIfft_wf _ (by positivity) _ _ _ _ _ _ _ _,
    h2.alwaysYields fun i => PSS.dIfft_wf _ (by positivity) _ _ _ _ _ _ _ _, hv, h3⟩

/-- **C58** `deg_red`: the same, for vectors of field elements shared with at most `4l-1` coefficients. -/
theorem C58_deg_red {dbg₀ : Bool} {b : Nat} {pp : PSS F} (hpp : PSS.new dbg₀ (2 ^ b) = .ok pp)
    (hgen : (FftField.GENERATOR : F) ^ (4 * 2 ^ b) ≠ 1) (dbg : Bool) {N : Nat} (hN : 0 < N) (hN64 : N < 2 ^ 64)
    (sec sec' : Nat → List F) (hs : ∀ c < N, (sec c).length = 2 ^ b) (hs' : ∀ c < N, (sec' c).length = 2 ^ b)
    (P : Fin (2 ^ b) → Nat) (hinj : Function.Injective P) (hlt : ∀ i, P i < 4 * 2 ^ b) :
    ∃ δ : VecTape F, ∀ t : VecTape F, ∃ masks masks' : Nat → DegRedMask F,
      DegRedMask.sample pp dbg (1 : F) N t.vals t.rngIn t.rngOut = .ok ((List.range (4 * 2 ^ b)).map masks) ∧
      DegRedMask.sample pp dbg (1 : F) N (t.add δ).vals (t.add δ).rngIn (t.add δ).rngOut =
        .ok ((List.range (4 * 2 ^ b)).map masks') ∧
      (∀ i, masks (P i) = masks' (P i)) ∧
      ∀ sh sh' : Nat → List F, Spec.SharedVec pp.share.groupGen pp.secret.offset (2 ^ b) (4 * 2 ^ b - 1) N sh sec →
        Spec.SharedVec pp.share.groupGen pp.secret.offset (2 ^ b) (4 * 2 ^ b - 1) N sh' sec' →
        ∀ (sid : Sid) (rng : Nat → Nat → F),
        ∃ (outs outs' : Nat → List F) (views views' : Fin (4 * 2 ^ b) → Transcript),
          AlwaysYields (Net.init fun i : Fin (4 * 2 ^ b) => (pp.degRed dbg (4 * 2 ^ b) i (sh i) (masks i) sid rng).recorded)
            (fun i => (outs i, views i)) ∧
          AlwaysYields (Net.init fun i : Fin (4 * 2 ^ b) => (pp.degRed dbg (4 * 2 ^ b) i (sh' i) (masks' i) sid rng).recorded)
            (fun i => (outs' i, views' i)) ∧ (∀ i, i.val ≠ 0 → views i = views' i) ∧
          ∀ i, outs (P i) = outs' (P i) := by
  have hle := l_eq hpp
  have hg := PSS.good_of_new hpp
  have hl := hg.lpos
  rw [← offset_eq hpp] at hgen
  obtain ⟨δ, hδ, h⟩ := PSS.degRed_couple (n := 4 * 2 ^ b) hg dbg hle (by rw [hle]) hgen hN hN64 sec sec' hs hs' P hinj hlt
  have dm := fun t => DegRedMask.sample_dealt hg dbg hN t
  rw [hle] at dm
  refine ⟨δ, fun t => ⟨_, _, dm t, dm (t.add δ), fun i => (hδ t i).symm, fun sh sh' hsh hsh' sid rng => ?_⟩⟩
  rw [← hle] at hsh hsh'
  obtain ⟨outs, outs', views, views', h1, h2, hv, -, -, h3⟩ := h t sid rng (4 * pp.l - 1) sh sh' (by omega) le_rfl hsh hsh'
  exact ⟨outs, outs', views, views', h1.alwaysYields fun i => PSS.degRed_wf _ (by positivity) _ _ _ _ _,
    h2.alwaysYields fun i => PSS.degRed_wf _ (by positivity) _ _ _ _ _, hv, h3⟩

/-- **C58** `d_msm`: the same, for any bases and scalars of any lengths. -/
theorem C58_d_msm {dbg₀ : Bool} {b : Nat} {pp : PSS F} (hpp : PSS.new dbg₀ (2 ^ b) = .ok pp)
    (hgen : (FftField.GENERATOR : F) ^ (4 * 2 ^ b) ≠ 1) (dbg : Bool) (gen : G1) (hspan : ∀ g : G1, ∃ c : F, c • gen = g)
    {y : List G1} {x x' : List F} (hlen : x.length = y.length) (hlen' : x'.length = y.length)
    (P : Fin (2 ^ b) → Nat) (hinj : Function.Injective P) (hlt : ∀ i, P i < 4 * 2 ^ b) :
    ∃ δ : MsmTape F G1, ∀ t : MsmTape F G1, ∃ masks masks' : Nat → MsmMask G1,
      MsmMask.sample pp dbg gen t.vals t.rngIn t.rngOut = .ok ((List.range (4 * 2 ^ b)).map masks) ∧
      MsmMask.sample pp dbg gen (t.add δ).vals (t.add δ).rngIn (t.add δ).rngOut = .ok ((List.range (4 * 2 ^ b)).map masks') ∧
      (∀ i, masks (P i) = masks' (P i)) ∧
      ∀ (bs : Nat → List G1) (ss ss' : Nat → List F), HoldsChunks pp b bs y → HoldsChunks pp b ss x → HoldsChunks pp b ss' x' →
        ∀ sid : Sid, ∃ (outs outs' : Nat → G1) (views views' : Fin (4 * 2 ^ b) → Transcript),
          AlwaysYields (Net.init fun i : Fin (4 * 2 ^ b) => (pp.dMsm dbg (4 * 2 ^ b) i (bs i) (ss i) (masks i) sid).recorded)
            (fun i => (outs i, views i)) ∧
          AlwaysYields (Net.init fun i : Fin (4 * 2 ^ b) => (pp.dMsm dbg (4 * 2 ^ b) i (bs i) (ss' i) (masks' i) sid).recorded)
            (fun i => (outs' i, views' i)) ∧ (∀ i, i.val ≠ 0 → views i = views' i) ∧
          ∀ i, outs (P i) = outs' (P i) := by
  have hle := l_eq hpp
  have hg := PSS.good_of_new hpp
  obtain ⟨δ, hδ, h⟩ := dMsm_chunks_couple hpp hgen dbg gen hspan hlen hlen' P hinj hlt
  have mm := fun t => MsmMask.sample_dealt hg dbg gen t
  rw [hle] at mm
  refine ⟨δ, fun t => ⟨_, _, mm t, mm (t.add δ), fun i => (hδ t i).symm, fun bs ss ss' hb hs hs' sid => ?_⟩⟩
  obtain ⟨outs, outs', views, views', h1, h2, hv, -, -, h3⟩ := h t sid bs ss ss' hb hs hs'
  exact ⟨outs, outs', views, views', h1.alwaysYields fun i => PSS.dMsm_wf _ (by positivity) _ _ _ _ _,
    h2.alwaysYields fun i => PSS.dMsm_wf _ (by positivity) _ _ _ _ _, hv, h3⟩

/-- **C58** What `l` servers see of a whole proving session. For two assignments of the same circuit, two field elements `c` and
`d` and any `l` servers, there are values such that adding them to everything the client draws, and `c` and `d` to `r` and `s`, turns
a session on the first assignment into one on the second in which, whatever the king draws: every server but the king is sent the
same bytes in every round, and the `l` servers are dealt the same inputs and end with the same outputs. So the joint distribution
of the inputs, the received messages and the outputs of `l` servers (other than what the king gathers) does not depend on the assignment. -/
theorem C58_session {dbg₀ : Bool} {b : Nat} {pp : PSS F} (hpp : PSS.new dbg₀ (2 ^ b) = .ok pp)
    (hgen : (FftField.GENERATOR : F) ^ (4 * 2 ^ b) ≠ 1) (dbg : Bool) (a : Nat) (ha : a < 64)
    {mats : ConstraintMatrices F} {z z' : List F} {dom dom2 : Domain F} (hcirc : Circuit a b mats z dom dom2)
    (hcirc' : Circuit a b mats z' dom dom2) (hz : z.length = z'.length) (c d : F) (pk : ProvingKey G1 G2)
    (hk : KeyFits z.length mats.numInstanceVariables (2 ^ (a + b)) pk) (hal : dbg = true → KeyAligned (2 ^ b) pk) (gen1 : G1) (gen2 : G2)
    (hspan1 : ∀ g : G1, ∃ c : F, c • gen1 = g) (hspan2 : ∀ g : G2, ∃ c : F, c • gen2 = g)
    (P : Fin (2 ^ b) → Nat) (hinj : Function.Injective P) (hlt : ∀ i, P i < 4 * 2 ^ b) :
    ∃ δ : ClientTape F G1 G2, ∀ (r s : F) (t : ClientTape F G1 G2) (rng : Nat → Nat → Nat → F), ∃ ins ins' : Nat → ServerInput F G1 G2,
      pp.deal dbg (2 ^ b) mats z pk gen1 gen2 r s t = .ok ((List.range (4 * 2 ^ b)).map ins) ∧
      pp.deal dbg (2 ^ b) mats z' pk gen1 gen2 (r + c) (s + d) (t.add δ) = .ok ((List.range (4 * 2 ^ b)).map ins') ∧
      (∀ i, ins (P i) = ins' (P i)) ∧ (c = 0 → ∀ p, (ins p).r = (ins' p).r) ∧
      (((∀ p < 4 * 2 ^ b, (ins p).r ≠ 0) ∨ ∀ p < 4 * 2 ^ b, (ins p).r = 0) →
        ((∀ p < 4 * 2 ^ b, (ins' p).r ≠ 0) ∨ ∀ p < 4 * 2 ^ b, (ins' p).r = 0) →
        ∃ (outs outs' : Nat → G1 × G2 × G1) (views views' : Fin (4 * 2 ^ b) → Transcript),
          AlwaysYields (Net.init fun i : Fin (4 * 2 ^ b) => ((ins i).run pp dbg (4 * 2 ^ b) i rng).recorded)
            (fun i => (outs i, views i)) ∧
          AlwaysYields (Net.init fun i : Fin (4 * 2 ^ b) => ((ins' i).run pp dbg (4 * 2 ^ b) i rng).recorded)
            (fun i => (outs' i, views' i)) ∧ (∀ i, i.val ≠ 0 → views i = views' i) ∧
          ∀ i, outs (P i) = outs' (P i)) := by
  have hg := PSS.good_of_new hpp
  have hle := l_eq hpp
  have hb0 : 0 < 2 ^ b := by positivity
  have hin := hcirc.inputs
  have hwi := hcirc.wires
  have hdom' : Domain.new (2 ^ (a + b)) = some dom := hcirc.size ▸ Domain.new_size hcirc.domain
  obtain ⟨q, eq, hd, hni, hnc, la, lb, lc, -⟩ := C29_qap mats z hcirc.domain hcirc.rowsA hcirc.rowsB hcirc.colsA hcirc.colsB hcirc.wires
  obtain ⟨q', eq', hd', hni', hnc', la', lb', lc', -⟩ :=
    C29_qap mats z' hcirc'.domain hcirc'.rowsA hcirc'.rowsB hcirc'.colsA hcirc'.colsB hcirc'.wires
  rw [hcirc.size] at la lb lc la' lb' lc'
  have hcons : ∀ {T : Type} {v : List T}, v.length = z.length → ∃ x xs, v = x :: xs ∧ xs.length = z.length - 1 := by
    intro T v h
    cases v with
    | nil => simp at h; omega
    | cons x xs => exact ⟨x, xs, rfl, by simp at h; omega⟩
  obtain ⟨a0, as, hqa, las⟩ := hcons hk.aQuery
  obtain ⟨b0, bs, hqb, lbs⟩ := hcons hk.bG1Query
  obtain ⟨v0, vs, hqv, lvs⟩ := hcons hk.bG2Query
  obtain ⟨crs, ec, hpub, hS, hU, hW, hH, hV⟩ := C33_pack_key hpp dbg pk hal hqa hqb hqv
  -- the tapes of the masks
  obtain ⟨δf, δd, δm, δn, ef, ef', ed, em, en, hrun⟩ := dsha256_couple hpp hgen dbg a ha hdom' hcirc.double gen1 gen2 hspan1 hspan2
    (fun i => q.a.getD i 0) (fun i => q.b.getD i 0) (fun i => q.c.getD i 0) (fun i => q'.a.getD i 0) (fun i => q'.b.getD i 0)
    (fun i => q'.c.getD i 0) hpub hS hU hW hH hV (z := z.drop 1) (z' := z'.drop 1) (ax := z.drop mats.numInstanceVariables)
    (ax' := z'.drop mats.numInstanceVariables) (by simp [las]) (by simp [las, hz]) (by simp [lbs]) (by simp [lvs])
    (by simp [hk.lQuery]) (by simp [hk.lQuery, hz]) hk.hQuery P hinj hlt
  -- the tapes of the shares
  have key : ∀ {N : Nat} {sec sec' : Nat → List F}, (∀ c < N, (sec c).length = 2 ^ b) → (∀ c < N, (sec' c).length = 2 ^ b) → _ :=
    fun {N sec sec'} h h' => PSS.freshVec_shift hg hle (by rwa [offset_eq hpp]) (N := N) (sec := sec) (sec' := sec') h h' P hinj hlt
  have lq : ∀ (v : List F), ∀ c < 2 ^ a, (qapSecrets a b v c).length = 2 ^ b := fun v c _ => by simp [qapSecrets]
  have lw : ∀ (N : Nat) (v : List F), ∀ c < N, (chunks (2 ^ b) (fun i => v.getD i 0) c).length = 2 ^ b := fun N v c _ => by
    simp [chunks]
  have one : ∀ c : F, ∃ d : Nat → F, (c = 0 → d = 0) ∧ ∀ (x : F) (rng : Nat → F) (i : Fin (2 ^ b)),
      (pp.freshVec 1 (fun _ => List.replicate (2 ^ b) (x + c)) (fun _ j => rng j + d j) (P i)).getD 0 0 =
        (pp.freshVec 1 (fun _ => List.replicate (2 ^ b) x) (fun _ => rng) (P i)).getD 0 0 := by
    intro c
    by_cases hc : c = 0
    · subst hc
      exact ⟨0, fun _ => rfl, fun x rng i => by simp⟩
    · obtain ⟨d, hd⟩ := PSS.freshVec_shift_add hg hle (by rwa [offset_eq hpp]) (N := 1) (D := fun _ => List.replicate (2 ^ b) c)
        (fun c _ => by simp) P hinj hlt
      refine ⟨d 0, fun h => absurd h hc, fun x rng i => ?_⟩
      have hp : P i < 4 * pp.l := by rw [hle]; exact hlt i
      rw [← hd (fun _ => List.replicate (2 ^ b) x) (fun _ => List.replicate (2 ^ b) (x + c)) (fun _ => rng) i (fun c _ => by simp)
        (fun _ _ => by simp), PSS.freshVec_getD hg _ _ _ hp one_pos, PSS.freshVec_getD hg _ _ _ hp one_pos]
  obtain ⟨dr, hdr0, hdr⟩ := one c
  obtain ⟨ds, -, hds⟩ := one d
  obtain ⟨dA, hdA⟩ := key (lq q.a) (lq q'.a)
  obtain ⟨dB, hdB⟩ := key (lq q.b) (lq q'.b)
  obtain ⟨dC, hdC⟩ := key (lq q.c) (lq q'.c)
  have nx : numChunks (z'.drop mats.numInstanceVariables) (2 ^ b) = numChunks (z.drop mats.numInstanceVariables) (2 ^ b) := by
    simp [numChunks, hz]
  have n1 : numChunks (z'.drop 1) (2 ^ b) = numChunks (z.drop 1) (2 ^ b) := by simp [numChunks, hz]
  obtain ⟨dx, hdx⟩ := key (lw (numChunks (z.drop mats.numInstanceVariables) (2 ^ b)) (z.drop mats.numInstanceVariables))
    (lw _ (z'.drop mats.numInstanceVariables))
  obtain ⟨da, hda⟩ := key (lw (numChunks (z.drop 1) (2 ^ b)) (z.drop 1)) (lw _ (z'.drop 1))
  refine ⟨⟨dr, ds, dA, dB, dC, da, dx, δf, δd, δm, δn⟩, fun r s t rng => ⟨_, _,
    deal_dealt hpp dbg a hcirc eq hd la lb lc ec gen1 gen2 r s t, deal_dealt hpp dbg a hcirc' eq' hd' la' lb' lc' ec gen1 gen2 (r + c) (s + d) _,
    ?_, ?_, ?_⟩⟩
  · intro i
    unfold dealtInput ClientTape.add
    dsimp only
    rw [hdA, hdB, hdC, n1, nx, hda, hdx, hdr, hds, hd, hd', hni, hni', hnc, hnc', ed, en, em 0 (by omega), em 1 (by omega),
      em 2 (by omega), em 3 (by omega), ef 0 (by omega), ef 1 (by omega), ef 2 (by omega), ef' 0 (by omega), ef' 1 (by omega),
      ef' 2 (by omega)]
  · intro h p
    have : (fun i => t.r i + dr i) = t.r := by rw [hdr0 h]; funext i; simp
    unfold dealtInput ClientTape.add
    dsimp only
    rw [this, h, add_zero]
  · have f := dealt_facts hpp a mats.numInstanceVariables q z dom2.groupGen dom hd crs gen1 gen2 r s t
    have f' := dealt_facts hpp a mats.numInstanceVariables q' z' dom2.groupGen dom hd' crs gen1 gen2 (r + c) (s + d)
      (t.add ⟨dr, ds, dA, dB, dC, da, dx, δf, δd, δm, δn⟩)
    have hr : ∀ i, (dealtInput pp a b mats.numInstanceVariables q z dom2.groupGen dom crs gen1 gen2 r s t (P i)).r =
      (dealtInput pp a b mats.numInstanceVariables q' z' dom2.groupGen dom crs gen1 gen2 (r + c) (s + d)
        (t.add ⟨dr, ds, dA, dB, dC, da, dx, δf, δd, δm, δn⟩) (P i)).r := fun i => (hdr r t.r i).symm
    have hs : ∀ i, (dealtInput pp a b mats.numInstanceVariables q z dom2.groupGen dom crs gen1 gen2 r s t (P i)).s =
      (dealtInput pp a b mats.numInstanceVariables q' z' dom2.groupGen dom crs gen1 gen2 (r + c) (s + d)
        (t.add ⟨dr, ds, dA, dB, dC, da, dx, δf, δd, δm, δn⟩) (P i)).s := fun i => (hds s t.s i).symm
    generalize dealtInput pp a b mats.numInstanceVariables q z dom2.groupGen dom crs gen1 gen2 r s t = I at f hr hs ⊢
    generalize dealtInput pp a b mats.numInstanceVariables q' z' dom2.groupGen dom crs gen1 gen2 (r + c) (s + d)
        (t.add ⟨dr, ds, dA, dB, dC, da, dx, δf, δd, δm, δn⟩) = I' at f' hr hs ⊢
    intro hr0 hr0'
    have hc := hrun t.fft t.degred t.msm1 t.msm2 rng (fun p => (I p).q) (fun p => (I' p).q)
      (fun p k => (I p).fftMask.getD k (FftMask.zero 0)) (fun p k => (I' p).fftMask.getD k (FftMask.zero 0))
      (fun p => (I p).a) (fun p => (I' p).a) (fun p => (I p).ax) (fun p => (I' p).ax) (fun p => (I p).r) (fun p => (I' p).r)
      (fun p => (I p).s) (fun p => (I' p).s) (fun p k => (I p).g1Mask.getD k MsmMask.zero)
      (fun p k => (I' p).g1Mask.getD k MsmMask.zero) f.program f'.program f.shA f'.shA f.shAx f'.shAx f.masks f'.masks f.msm1 f'.msm1
      hr hs hr0 hr0'
    obtain ⟨outs, outs', views, views', h1, h2, hv, -, -, h3⟩ := hc
    refine ⟨outs, outs', views, views', RunsV.alwaysYields (P := All) (S := fun _ => True) (h1.congr (fun i => ?_) (fun _ => rfl) fun _ => rfl)
      fun i => dsha256_wf _ (by positivity) _ _ _ _ _ _ _ _ _ _ _ _, RunsV.alwaysYields (P := All) (S := fun _ => True)
      (h2.congr (fun i => ?_) (fun _ => rfl) fun _ => rfl) fun i => dsha256_wf _ (by positivity) _ _ _ _ _ _ _ _ _ _ _ _, hv, h3⟩
    · rw [ServerInput.run, f.crs, f.degred, f.msm2]
    · rw [ServerInput.run, f'.crs, f'.degred, f'.msm2]
      rfl

end servers

/-! ### Examples -/

/-- A client that sends and waits for an answer: the answer is recorded. -/
example : (Proc.send 0 .zero [1] (.recv 0 .zero fun b => .done (.ok b.length)) : Proc Nat).recorded =
    .send 0 .zero [1] (.recv 0 .zero fun b => .done (.ok (b.length, [(0, b)]))) := rfl

/-- A king that gathers the messages of three parties and then receives one more: all are recorded, the gathered ones by sender. -/
example : (Proc.gather .zero 3 [7] (fun _ => none) fun L => .recv 2 .zero fun b => .done (.ok (L.length + b.length)) : Proc Nat).recorded =
    .gather .zero 3 [7] (fun _ => none) fun L => .recv 2 .zero fun b =>
      .done (.ok (L.length + b.length, bySender 3 L ++ [(2, b)])) := rfl

example : bySender 3 [(2, [5]), (0, [7]), (1, [6])] = [(0, [7]), (1, [6]), (2, [5])] := by decide

/-- The transforms of `[3, 5, 7, 11]` and of `[0, 0, 0, 1]` look the same to parties 3 and 6. -/
example (t : VecTape (ZMod 17)) : ∃ (sh sh' : Nat → List (ZMod 17)) (masks masks' : Nat → FftMask (ZMod 17)) (outs outs' : Nat → List (ZMod 17))
    (views views' : Fin (4 * 2 ^ 1) → Transcript), HoldsInput pp17 1 1 sh [3, 5, 7, 11] ∧ HoldsInput pp17 1 1 sh' [0, 0, 0, 1] ∧
    AlwaysYields (Net.init fun i : Fin (4 * 2 ^ 1) =>
      (pp17.dFft true (4 * 2 ^ 1) i (sh i) (masks i) false dom17 .zero fun i j => i + j).recorded) (fun i => (outs i, views i)) ∧
    AlwaysYields (Net.init fun i : Fin (4 * 2 ^ 1) =>
      (pp17.dFft true (4 * 2 ^ 1) i (sh' i) (masks' i) false dom17 .zero fun i j => i + j).recorded) (fun i => (outs' i, views' i)) ∧ (∀ i, i.val ≠ 0 → views i = views' i) ∧
    ∀ i, masks (pair17 i) = masks' (pair17 i) ∧ outs (pair17 i) = outs' (pair17 i) := by
  obtain ⟨sh, -, h⟩ := C27_fresh_input (pp17_eq true) true 1 [3, 5, 7, 11] rfl fun _ _ => 1
  obtain ⟨sh', -, h'⟩ := C27_fresh_input (pp17_eq true) true 1 [0, 0, 0, 1] rfl fun _ _ => 1
  obtain ⟨δ, hδ⟩ := C58_d_fft (pp17_eq true) gen17 true 1 (by norm_num) dom17_eq [3, 5, 7, 11] [0, 0, 0, 1] false pair17 pair17_inj
    pair17_lt
  obtain ⟨masks, masks', -, -, hm, hr⟩ := hδ t
  obtain ⟨outs, outs', views, views', h1, h2, hv, h3⟩ := hr _ _ h.input h'.input .zero fun i j => i + j
  exact ⟨_, _, masks, masks', outs, outs', views, views', h.input, h'.input, h1, h2, hv, fun i => ⟨hm i, h3 i⟩⟩

/-- The same for the inverse transform. -/
example (t : VecTape (ZMod 17)) : ∃ (sh sh' : Nat → List (ZMod 17)) (masks masks' : Nat → FftMask (ZMod 17)) (outs outs' : Nat → List (ZMod 17))
    (views views' : Fin (4 * 2 ^ 1) → Transcript), HoldsInput pp17 1 1 sh [3, 5, 7, 11] ∧ HoldsInput pp17 1 1 sh' [0, 0, 0, 1] ∧
    AlwaysYields (Net.init fun i : Fin (4 * 2 ^ 1) =>
      (pp17.dIfft true (4 * 2 ^ 1) i (sh i) (masks i) true dom17 3 .zero fun i j => i + j).recorded) (fun i => (outs i, views i)) ∧
    AlwaysYields (Net.init fun i : Fin (4 * 2 ^ 1) =>
      (pp17.dIfft true (4 * 2 ^ 1) i (sh' i) (masks' i) true dom17 3 .zero fun i j => i + j).recorded) (fun i => (outs' i, views' i)) ∧ (∀ i, i.val ≠ 0 → views i = views' i) ∧
    ∀ i, masks (pair17 i) = masks' (pair17 i) ∧ outs (pair17 i) = outs' (pair17 i) := by
  obtain ⟨sh, -, h⟩ := C27_fresh_input (pp17_eq true) true 1 [3, 5, 7, 11] rfl fun _ _ => 1
  obtain ⟨sh', -, h'⟩ := C27_fresh_input (pp17_eq true) true 1 [0, 0, 0, 1] rfl fun _ _ => 1
  obtain ⟨δ, hδ⟩ := C58_d_ifft (pp17_eq true) gen17 true 1 (by norm_num) dom17_eq [3, 5, 7, 11] [0, 0, 0, 1] 3 true pair17 pair17_inj
    pair17_lt
  obtain ⟨masks, masks', -, -, hm, hr⟩ := hδ t
  obtain ⟨outs, outs', views, views', h1, h2, hv, h3⟩ := hr _ _ h.input h'.input .zero fun i j => i + j
  exact ⟨_, _, masks, masks', outs, outs', views, views', h.input, h'.input, h1, h2, hv, fun i => ⟨hm i, h3 i⟩⟩

/-- Reducing the degree of shares of `[3, 5]` and of `[0, 1]`. -/
example (t : VecTape (ZMod 17)) : ∃ (sh sh' : Nat → List (ZMod 17)) (masks masks' : Nat → DegRedMask (ZMod 17)) (outs outs' : Nat → List (ZMod 17))
    (views views' : Fin (4 * 2 ^ 1) → Transcript), HoldsChunks pp17 1 sh [3, 5] ∧ HoldsChunks pp17 1 sh' [0, 1] ∧
    AlwaysYields (Net.init fun i : Fin (4 * 2 ^ 1) =>
      (pp17.degRed true (4 * 2 ^ 1) i (sh i) (masks i) .zero fun i j => i + j).recorded) (fun i => (outs i, views i)) ∧
    AlwaysYields (Net.init fun i : Fin (4 * 2 ^ 1) =>
      (pp17.degRed true (4 * 2 ^ 1) i (sh' i) (masks' i) .zero fun i j => i + j).recorded) (fun i => (outs' i, views' i)) ∧ (∀ i, i.val ≠ 0 → views i = views' i) ∧
    ∀ i, masks (pair17 i) = masks' (pair17 i) ∧ outs (pair17 i) = outs' (pair17 i) := by
  obtain ⟨sh, -, h⟩ := packFromWitness_holds (b := 1) (pp17_eq true) true ([3, 5] : List (ZMod 17)) fun _ _ => 1
  obtain ⟨sh', -, h'⟩ := packFromWitness_holds (b := 1) (pp17_eq true) true ([0, 1] : List (ZMod 17)) fun _ _ => 1
  obtain ⟨δ, hδ⟩ := C58_deg_red (pp17_eq true) gen17 true (N := 1) (by norm_num) (by norm_num)
    (fun c => chunks (2 ^ 1) (fun i => [3, 5].getD i 0) c) (fun c => chunks (2 ^ 1) (fun i => [0, 1].getD i 0) c) (fun c _ => by simp [chunks])
    (fun c _ => by simp [chunks]) pair17 pair17_inj pair17_lt
  obtain ⟨masks, masks', -, -, hm, hr⟩ := hδ t
  obtain ⟨outs, outs', views, views', h1, h2, hv, h3⟩ := hr sh sh' (SharedVec.mono (by norm_num) h) (SharedVec.mono (by norm_num) h') .zero fun i j => i + j
  exact ⟨_, _, masks, masks', outs, outs', views, views', h, h', h1, h2, hv, fun i => ⟨hm i, h3 i⟩⟩

/-- The sums `3·1 + 5·4` and `0·1 + 1·4`. -/
example (t : MsmTape (ZMod 17) (ZMod 17)) : ∃ (bs ss ss' : Nat → List (ZMod 17)) (masks masks' : Nat → MsmMask (ZMod 17))
    (outs outs' : Nat → ZMod 17) (views views' : Fin (4 * 2 ^ 1) → Transcript),
    HoldsChunks pp17 1 bs [1, 4] ∧ HoldsChunks pp17 1 ss [3, 5] ∧ HoldsChunks pp17 1 ss' [0, 1] ∧
    AlwaysYields (Net.init fun i : Fin (4 * 2 ^ 1) => (pp17.dMsm true (4 * 2 ^ 1) i (bs i) (ss i) (masks i) .zero).recorded)
      (fun i => (outs i, views i)) ∧
    AlwaysYields (Net.init fun i : Fin (4 * 2 ^ 1) => (pp17.dMsm true (4 * 2 ^ 1) i (bs i) (ss' i) (masks' i) .zero).recorded)
      (fun i => (outs' i, views' i)) ∧ (∀ i, i.val ≠ 0 → views i = views' i) ∧
    ∀ i, masks (pair17 i) = masks' (pair17 i) ∧ outs (pair17 i) = outs' (pair17 i) := by
  obtain ⟨bs, -, hb⟩ := packFromWitness_holds (b := 1) (pp17_eq true) true ([1, 4] : List (ZMod 17)) fun _ _ => 1
  obtain ⟨sh, -, h⟩ := packFromWitness_holds (b := 1) (pp17_eq true) true ([3, 5] : List (ZMod 17)) fun _ _ => 1
  obtain ⟨sh', -, h'⟩ := packFromWitness_holds (b := 1) (pp17_eq true) true ([0, 1] : List (ZMod 17)) fun _ _ => 1
  obtain ⟨δ, hδ⟩ := C58_d_msm (pp17_eq true) gen17 true (1 : ZMod 17) (fun g => ⟨g, by simp⟩) (y := [1, 4]) (x := [3, 5]) (x' := [0, 1])
    rfl rfl pair17 pair17_inj pair17_lt
  obtain ⟨masks, masks', -, -, hm, hr⟩ := hδ t
  obtain ⟨outs, outs', views, views', h1, h2, hv, h3⟩ := hr bs sh sh' hb h h' .zero
  exact ⟨_, _, _, masks, masks', outs, outs', views, views', hb, h, h', h1, h2, hv, fun i => ⟨hm i, h3 i⟩⟩

theorem KeyFits.of_key {F G1 G2 : Type} [Field F] [AddCommGroup G1] [Module F G1] [AddCommGroup G2] [Module F G2] {t : Toxic F} {g1 : G1}
    {g2 : G2} {nw ni m : Nat} {w : F} {a b c : Nat → F[X]} {pk : ProvingKey G1 G2} (h : IsCircomKey t g1 g2 nw ni m w a b c pk) :
    KeyFits nw ni m pk :=
  ⟨by rw [h.aQuery]; simp, by rw [h.bG1Query]; simp, by rw [h.bG2Query]; simp, by rw [h.lQuery]; simp, by rw [h.hQuery]; simp⟩

/-- Proofs of `x·x = 9` with the roots 3 and 14 look the same to servers 3 and 6, when the tape of `r` is such that no share of `r` is
zero. -/
example (t : ClientTape (ZMod 17) (ZMod 17) (ZMod 17)) (ht : t.r = fun _ => 1) : ∃ (pk : ProvingKey (ZMod 17) (ZMod 17))
    (t' : ClientTape (ZMod 17) (ZMod 17) (ZMod 17)) (ins ins' : Nat → ServerInput (ZMod 17) (ZMod 17) (ZMod 17))
    (outs outs' : Nat → ZMod 17 × ZMod 17 × ZMod 17) (views views' : Fin (4 * 2 ^ 1) → Transcript),
    pp17.deal false 2 mats17 z17 pk 1 1 5 6 t = .ok ((List.range 8).map ins) ∧
    pp17.deal false 2 mats17 [1, 9, 14] pk 1 1 5 8 t' = .ok ((List.range 8).map ins') ∧
    AlwaysYields (Net.init fun i : Fin (4 * 2 ^ 1) => ((ins i).run pp17 false (4 * 2 ^ 1) i fun _ i j => i + j).recorded)
      (fun i => (outs i, views i)) ∧
    AlwaysYields (Net.init fun i : Fin (4 * 2 ^ 1) => ((ins' i).run pp17 false (4 * 2 ^ 1) i fun _ i j => i + j).recorded)
      (fun i => (outs' i, views' i)) ∧ (∀ i, i.val ≠ 0 → views i = views' i) ∧
    ∀ i, ins (pair17 i) = ins' (pair17 i) ∧ outs (pair17 i) = outs' (pair17 i) := by
  obtain ⟨pa, pb, pc, pk, h1, h2⟩ := C35_key_exists circuit17 (⟨2, 3, 4, 5, 6⟩ : Toxic (ZMod 17)) (1 : ZMod 17) (1 : ZMod 17)
  obtain ⟨δ, hδ⟩ := C58_session (pp17_eq true) gen17 false 1 (by norm_num) circuit17 circuit17' rfl 0 2 pk (KeyFits.of_key h2) (by simp) 1 1
    (fun g => ⟨g, by simp⟩) (fun g => ⟨g, by simp⟩) pair17 pair17_inj pair17_lt
  obtain ⟨ins, ins', e, e', hP, hr, hrun⟩ := hδ 5 6 t fun _ i j => i + j
  have hr0 : ∀ p < 4 * 2 ^ 1, (ins p).r ≠ 0 := by
    intro p hp
    obtain ⟨-, -, -, h, -⟩ := deal_parts (e ▸ partOf_range ins hp)
    rw [ht] at h
    intro h0
    rw [h0] at h
    revert h
    have : ∀ p < 8, partOf (pp17.pack false (List.replicate (2 ^ 1) (5 : ZMod 17)) fun _ => 1) p ≠ some 0 := by decide +kernel
    exact this p hp
  have hr0' : ∀ p < 4 * 2 ^ 1, (ins' p).r ≠ 0 := fun p hp => hr rfl p ▸ hr0 p hp
  obtain ⟨outs, outs', views, views', k1, k2, hv, k3⟩ := hrun (.inl hr0) (.inl hr0')
  exact ⟨pk, t.add δ, ins, ins', outs, outs', views, views', e, e', k1, k2, hv, fun i => ⟨hP i, k3 i⟩⟩

/-- Example for C58: recording three parties that send their number to the king. -/
example (k : Nat) (c : Net 3 Nat) (hc : GSteps (fun _ => True) k (Net.init fun i : Fin 3 =>
    if i.val = 0 then .gather .zero 3 [7] (fun _ => none) fun L => .done (.ok L.length) else .send 0 .zero [5] (.done (.ok 0))) c) :
    ∃ d, GSteps (fun _ => True) k (Net.init fun i : Fin 3 => Proc.recorded
      (if i.val = 0 then .gather .zero 3 [7] (fun _ => none) fun L => .done (.ok L.length) else .send 0 .zero [5] (.done (.ok 0)))) d ∧
      d.queues = c.queues :=
  let ⟨d, h1, h2, _⟩ := (C58_recording_faithful _ _ k).1 c hc
  ⟨d, h1, h2⟩

end ZkSaas.Properties
