import Verif.Lemmas.EvilProof
import Verif.Lemmas.SilentProof
import Verif.Lemmas.Groth16Math
import Verif.Lemmas.Frame
import Verif.Lemmas.Volume
import Verif.Lemmas.Traffic
import Verif.Model.Example

/-!
# C35: the distributed proof verifies
-/

set_option linter.unusedSectionVars false

namespace ZkSaas.Properties

open Finset Spec Polynomial

variable {F : Type} [Field F] [DecidableEq F] [FftField F] [FixedWire F]

section groups
variable {G1 G2 : Type} [AddCommGroup G1] [Module F G1] [DecidableEq G1] [FixedWire G1]
  [AddCommGroup G2] [Module F G2] [DecidableEq G2] [FixedWire G2]

theorem dsha256_wf {pp : PSS F} (dbg : Bool) {n : Nat} (hn : 0 < n) (me : Nat) (crs : PackedProvingKeyShare G1 G2)
    (q : PackedQAPShare F) (a ax : List F) (r s : F) (fftMask : Nat → FftMask F) (degredMask : DegRedMask F)
    (g1Mask : Nat → MsmMask G1) (g2Mask : MsmMask G2) (rng : Nat → Nat → Nat → F) :
    (pp.dsha256 dbg n me crs q a ax r s fftMask degredMask g1Mask g2Mask rng).WF fun _ => True := by
  refine (circomH_wf _ hn _ _ _ _ _).bind fun _ => ((proveA_wf _ hn _ _ _ _ _ _ _ _ _).mono fun _ _ => trivial).bind fun _ =>
    Proc.WF.bind ?_ fun _ => ((proveA_wf _ hn _ _ _ _ _ _ _ _ _).mono fun _ _ => trivial).bind fun _ =>
    (proveC_wf _ hn _ _ _ _ _ _ _ _ _ _ _ _).bind fun _ => .done _ _
  by_cases h : r = 0
  · rw [PSS.proveBInG1, if_pos h]; exact .done _ _
  · rw [proveBInG1_eq_A _ _ _ _ _ _ _ _ _ h]; exact (proveA_wf _ hn _ _ _ _ _ _ _ _ _).mono fun _ _ => trivial

/-- The bytes that a server sends to the king in a session: seven vectors of `2^a` field elements, one element of `G2` and four of
`G1`, or three if the shares of `r` are zero. -/
def sessionBytes (F G1 G2 : Type) [Field F] [DecidableEq F] [FixedWire F] [FixedWire G1] [FixedWire G2] (a : Nat) (r : F) : Nat :=
  7 * (8 + 2 ^ a * FixedWire.width F) + (if r = 0 then 3 else 4) * FixedWire.width G1 + FixedWire.width G2

/-- The lengths of the messages that a server sends to the king, and receives from the king, on each stream in a session: the vectors of
`circom_h`, then one group element for each of `A`, `B` in `G1` (unless the shares of `r` are zero), `B` in `G2`, and two for `C`. -/
def sessionLengths (F G1 G2 : Type) [Field F] [DecidableEq F] [FixedWire F] [FixedWire G1] [FixedWire G2] (a : Nat) (r : F) : Sid → List Nat
  | .zero => List.replicate 3 (8 + 2 ^ a * FixedWire.width F) ++ [FixedWire.width G1] ++ (if r = 0 then [] else [FixedWire.width G1]) ++
      [FixedWire.width G2, FixedWire.width G1]
  | .one => List.replicate 2 (8 + 2 ^ a * FixedWire.width F) ++ [FixedWire.width G1]
  | .two => List.replicate 2 (8 + 2 ^ a * FixedWire.width F)

/-- What the servers compute, for any key, with `4l` or `4l - 1` servers. -/
theorem dsha256_few {dbg₀ : Bool} {b : Nat} {pp : PSS F} (hpp : PSS.new dbg₀ (2 ^ b) = .ok pp) (dbg : Bool) {n : Nat}
    (hn : n = 4 * 2 ^ b ∨ n + 1 = 4 * 2 ^ b) (a : Nat)
    (ha : a < 64) {dom dom2 : Domain F} (hdom : Domain.new (2 ^ (a + b)) = some dom)
    (hdom2 : Domain.new (2 ^ (a + b + 1)) = some dom2) {q : Nat → PackedQAPShare F} (hq : ∀ p < 4 * 2 ^ b, (q p).domain = dom)
    {va vb vc : List F} (hva : HoldsInput pp a b (fun p => (q p).a) va) (hvb : HoldsInput pp a b (fun p => (q p).b) vb)
    (hvc : HoldsInput pp a b (fun p => (q p).c) vc) {A B C : F[X]}
    (hA : Interpolates dom.groupGen (2 ^ (a + b)) (fun i => va.getD i 0) A)
    (hB : Interpolates dom.groupGen (2 ^ (a + b)) (fun i => vb.getD i 0) B)
    (hC : Interpolates dom.groupGen (2 ^ (a + b)) (fun i => vc.getD i 0) C)
    {crs : Nat → PackedProvingKeyShare G1 G2} {a0 b0 α1 β1 δ1 : G1} {v0 β2 δ2 : G2}
    (hpub : ∀ p, (crs p).aQuery0 = a0 ∧ (crs p).bG1Query0 = b0 ∧ (crs p).bG2Query0 = v0 ∧ (crs p).deltaG1 = δ1 ∧
        (crs p).deltaG2 = δ2 ∧ (crs p).alphaG1 = α1 ∧ (crs p).betaG1 = β1 ∧ (crs p).betaG2 = β2)
    {S H W U : List G1} {V : List G2} (hS : HoldsChunks pp b (fun p => (crs p).s) S) (hU : HoldsChunks pp b (fun p => (crs p).u) U)
    (hW : HoldsChunks pp b (fun p => (crs p).w) W) (hH : HoldsChunks pp b (fun p => (crs p).h) H)
    (hV : HoldsChunks pp b (fun p => (crs p).v) V) {z ax : List F} (hzS : z.length = S.length) (hzH : z.length = H.length)
    (hzV : z.length = V.length) (hax : ax.length = W.length) (hUl : U.length = 2 ^ (a + b)) {zsh axsh : Nat → List F}
    (hz : HoldsChunks pp b zsh z) (hx : HoldsChunks pp b axsh ax) {rsh ssh : Nat → F} {r s : F} (hr : HoldsValue pp b rsh r)
    (hs : HoldsValue pp b ssh s) (hr0 : (∀ p < 4 * 2 ^ b, rsh p ≠ 0) ∨ ∀ p < 4 * 2 ^ b, rsh p = 0)
    {masks : Nat → Nat → FftMask F} (hm : IsCircomMasks pp dom2.groupGen dom masks)
    {dmask : Nat → DegRedMask F} (hd : IsDegRedMasks pp (2 ^ a) dmask) {m1 : Nat → Nat → MsmMask G1}
    (hm1 : ∀ k < 4, IsMsmMasks pp fun p => m1 p k) {m2 : Nat → MsmMask G2} (hm2 : IsMsmMasks pp m2) (rng : Nat → Nat → Nat → F) :
    ∃ (oA : Nat → G1) (oB : Nat → G2) (oC : Nat → G1) (pA pB1 : G1),
      Runs (Upto (max (8 + 2 ^ a * FixedWire.width F) (max (FixedWire.width G1) (FixedWire.width G2)))) (fun _ => True)
        (fun i : Fin n => pp.dsha256 dbg n i (crs i) (q i) (zsh i) (axsh i) (rsh i) (ssh i)
        (masks i) (dmask i) (m1 i) (m2 i) rng) (fun i => (oA i, oB i, oC i)) ∧
      RunsB All (fun _ => True)
        (fun i : Fin n => pp.dsha256 dbg n i (crs i) (q i) (zsh i) (axsh i) (rsh i) (ssh i)
        (masks i) (dmask i) (m1 i) (m2 i) rng) (fun i => (oA i, oB i, oC i)) (sessionBytes F G1 G2 a (rsh 0)) (sessionBytes F G1 G2 a (rsh 0)) ∧
      RunsT (fun i : Fin n => pp.dsha256 dbg n i (crs i) (q i) (zsh i) (axsh i) (rsh i) (ssh i)
        (masks i) (dmask i) (m1 i) (m2 i) rng) (fun i => (oA i, oB i, oC i)) (sessionLengths F G1 G2 a (rsh 0)) (sessionLengths F G1 G2 a (rsh 0)) ∧
      pA = a0 + r • δ1 + (∑ i ∈ range S.length, z.getD i 0 • S.getD i 0) + α1 ∧
      pB1 = b0 + s • δ1 + (∑ i ∈ range H.length, z.getD i 0 • H.getD i 0) + β1 ∧
      HoldsValue pp b oA pA ∧
      HoldsValue pp b oB (v0 + s • δ2 + (∑ i ∈ range V.length, z.getD i 0 • V.getD i 0) + β2) ∧
      HoldsProduct pp b oC (s • pA + r • pB1 - (r * s) • δ1 + (∑ i ∈ range W.length, ax.getD i 0 • W.getD i 0) +
        ∑ i ∈ range U.length, (A * B - C).eval (dom2.groupGen ^ (2 * i + 1)) • U.getD i 0) := by
  have hn0 : 0 < n := by have := four_pos b; have : 0 < 2 ^ b := by positivity
                         omega
  have h2 := Domain.new_double hdom hdom2
  obtain ⟨oh, rh, hh⟩ := circomH_few hpp dbg hn a ha hdom hdom2 hq hva hvb hvc hA hB hC hm hd rng
  have hp : ∀ i, dom2.groupGen * dom.groupGen ^ i = dom2.groupGen ^ (2 * i + 1) := fun i => by
    rw [← h2, ← pow_mul, pow_succ, mul_comm]
  simp only [hp] at hh
  obtain ⟨oA, rA, hoA⟩ := proveA_few hpp dbg hn a0 δ1 α1 hzS hS hz hr (hm1 0 (by omega)) .zero
  obtain ⟨oB, rB, hoB⟩ := proveA_few hpp dbg hn v0 δ2 β2 hzV hV hz hs hm2 .zero
  have hB1 : ∃ oB1 : Nat → G1,
      Runs (Sized (FixedWire.width G1)) (only .zero) (fun i : Fin n => pp.proveBInG1 dbg n i b0 δ1 β1 (crs i).h (zsh i) (ssh i) (rsh i) (m1 i 1)
        .zero) (fun i => oB1 i) ∧
      RunsB All (fun _ => True) (fun i : Fin n => pp.proveBInG1 dbg n i b0 δ1 β1 (crs i).h (zsh i) (ssh i) (rsh i) (m1 i 1)
        .zero) (fun i => oB1 i) ((if rsh 0 = 0 then 0 else 1) * FixedWire.width G1) ((if rsh 0 = 0 then 0 else 1) * FixedWire.width G1) ∧
      RunsT (fun i : Fin n => pp.proveBInG1 dbg n i b0 δ1 β1 (crs i).h (zsh i) (ssh i) (rsh i) (m1 i 1)
        .zero) (fun i => oB1 i) (fun s => List.replicate (if rsh 0 = 0 then 0 else once .zero s) (FixedWire.width G1))
          (fun s => List.replicate (if rsh 0 = 0 then 0 else once .zero s) (FixedWire.width G1)) ∧
      HoldsProduct pp b (fun p => rsh p • oB1 p) (r • (b0 + s • δ1 + (∑ i ∈ range H.length, z.getD i 0 • H.getD i 0) + β1)) := by
    rcases hr0 with hr0 | hr0
    · obtain ⟨o, ro, ho⟩ := proveA_few hpp dbg hn b0 δ1 β1 hzH hH hz hs (hm1 1 (by omega)) .zero
      rw [if_neg (hr0 0 (four_pos b))]
      refine ⟨o, ro.congr (fun i => ?_) (fun _ => rfl), ((ro.mono fun _ _ => trivial).runsB (R := once .zero)
        (fun i => (proveA_wf _ hn0 _ _ _ _ _ _ _ _ _).mono fun _ _ => trivial) (fun i => pp.proveA_rounds ..)
        fun i j hj => pp.proveA_unheard _ hj ..).congr (fun i => ?_) fun _ => rfl, ((ro.mono fun _ _ => trivial).runsT (R := once .zero)
        (fun i => pp.proveA_rounds ..)).congr (fun i => ?_) (fun _ => rfl) (fun _ => by rw [if_neg (hr0 0 (four_pos b))])
          (fun _ => by rw [if_neg (hr0 0 (four_pos b))]), hr.mul hpp ho⟩
      · exact proveBInG1_eq_A _ _ _ _ _ _ _ _ _ (hr0 i (by omega)) _ _
      · exact proveBInG1_eq_A _ _ _ _ _ _ _ _ _ (hr0 i (by omega)) _ _
      · exact proveBInG1_eq_A _ _ _ _ _ _ _ _ _ (hr0 i (by omega)) _ _
    · have hz : r = 0 := by
        by_contra h
        obtain ⟨p, hp, h'⟩ := hr.exists_ne_zero hpp h
        exact h' (hr0 p hp)
      rw [if_pos (hr0 0 (four_pos b)), zero_mul]
      refine ⟨fun _ => 0, (Runs.done _).congr (fun i => ?_) (fun _ => rfl), (RunsB.done _).congr (fun i => ?_) (fun _ => rfl),
        (RunsT.done _).congr (fun i => ?_) (fun _ => rfl) (fun _ => by rw [if_pos (hr0 0 (four_pos b))]; rfl)
          (fun _ => by rw [if_pos (hr0 0 (four_pos b))]; rfl), ?_⟩
      · rw [PSS.proveBInG1, if_pos (hr0 i (by omega))]
      · rw [PSS.proveBInG1, if_pos (hr0 i (by omega))]
      · rw [PSS.proveBInG1, if_pos (hr0 i (by omega))]
      · have := SharedValue.const (pp := pp) (d := 4 * 2 ^ b - 1) (by have : 0 < 2 ^ b := by positivity
                                                                      omega) (0 : G1)
        rw [PSS.SharedValue, l_eq hpp] at this
        simp only [smul_zero, hz, zero_smul]
        exact this
  obtain ⟨oB1, rB1, vB1, tB1, hoB1⟩ := hB1
  obtain ⟨oC, rC, hoC⟩ := proveC_few hpp dbg hn δ1 hoA hr hs hoB1 hax (by simp [hUl]) hW hU hx hh.chunks
    (hm1 2 (by omega)) (hm1 3 (by omega))
  have w1 : FixedWire.width G1 ≤ max (8 + 2 ^ a * FixedWire.width F) (max (FixedWire.width G1) (FixedWire.width G2)) :=
    le_trans (le_max_left _ _) (le_max_right _ _)
  have w2 : FixedWire.width G2 ≤ max (8 + 2 ^ a * FixedWire.width F) (max (FixedWire.width G1) (FixedWire.width G2)) :=
    le_trans (le_max_right _ _) (le_max_right _ _)
  have vh := rh.runsB (R := rounds322) (fun i => circomH_wf _ hn0 ..) (fun i => pp.circomH_rounds ..) fun i j hj => pp.circomH_unheard _ hj ..
  have vA := (rA.mono fun _ _ => trivial).runsB (R := once .zero) (fun i => (proveA_wf _ hn0 _ _ _ _ _ _ _ _ _).mono fun _ _ => trivial)
    (fun i => pp.proveA_rounds ..) fun i j hj => pp.proveA_unheard _ hj ..
  have vB := (rB.mono fun _ _ => trivial).runsB (R := once .zero) (fun i => (proveA_wf _ hn0 _ _ _ _ _ _ _ _ _).mono fun _ _ => trivial)
    (fun i => pp.proveA_rounds ..) fun i j hj => pp.proveA_unheard _ hj ..
  have vC := rC.runsB (R := once .zero + once .one) (fun i => proveC_wf _ hn0 ..) (fun i => pp.proveC_rounds ..)
    fun i j hj => pp.proveC_unheard _ hj ..
  have th := rh.runsT (R := rounds322) fun i => pp.circomH_rounds ..
  have tA := (rA.mono fun _ _ => trivial).runsT (R := once .zero) fun i => pp.proveA_rounds ..
  have tB := (rB.mono fun _ _ => trivial).runsT (R := once .zero) fun i => pp.proveA_rounds ..
  have tC := rC.runsT (R := once .zero + once .one) fun i => pp.proveC_rounds ..
  have hprog : ∀ i : Fin n, pp.dsha256 dbg n i (crs i) (q i) (zsh i) (axsh i) (rsh i) (ssh i)
      (masks i) (dmask i) (m1 i) (m2 i) rng = (pp.circomH dbg n i (q i) (masks i) (dmask i) rng).bind fun h =>
        (pp.proveA dbg n i a0 δ1 α1 (crs i).s (zsh i) (rsh i) (m1 i 0) .zero).bind fun piA =>
        (pp.proveBInG1 dbg n i b0 δ1 β1 (crs i).h (zsh i) (ssh i) (rsh i) (m1 i 1) .zero).bind fun piB1 =>
        (pp.proveBInG2 dbg n i v0 δ2 β2 (crs i).v (zsh i) (ssh i) (m2 i) .zero).bind fun piB2 =>
        (pp.proveC dbg n i piA piB1 (ssh i) (rsh i) δ1 (crs i).w (crs i).u (axsh i) h (m1 i 2) (m1 i 3)).bind fun piC =>
        Proc.done (.ok (piA, piB2, piC)) := by
    intro i
    obtain ⟨e1, e2, e3, e4, e5, e6, e7, e8⟩ := hpub i
    unfold PSS.dsha256
    rw [e1, e2, e3, e4, e5, e6, e7, e8]
    rfl
  refine ⟨oA, oB, oC, _, _, ?_, ?_, ?_, rfl, rfl, hoA, hoB, ?_⟩
  · refine Runs.congr (Runs.bind (rh.upto (le_max_left _ _))
      (Runs.bind ((rA.mono fun _ _ => trivial).upto w1) (Runs.bind ((rB1.mono fun _ _ => trivial).upto w1)
        (Runs.bind ((rB.mono fun _ _ => trivial).upto w2) (Runs.bind (rC.upto w1) (Runs.done _))))))
      hprog (fun _ => rfl)
  · have hsum : sessionBytes F G1 G2 a (rsh 0) = (rounds322 .zero + rounds322 .one + rounds322 .two) * (8 + 2 ^ a * FixedWire.width F) +
        ((once .zero .zero + once .zero .one + once .zero .two) * FixedWire.width G1 + ((if rsh 0 = 0 then 0 else 1) * FixedWire.width G1 +
        ((once .zero .zero + once .zero .one + once .zero .two) * FixedWire.width G2 + (((once .zero + once .one) .zero +
          (once .zero + once .one) .one + (once .zero + once .one) .two) * FixedWire.width G1 + 0)))) := by
      have e1 : rounds322 .zero + rounds322 .one + rounds322 .two = 7 := by decide
      have e2 : once .zero .zero + once .zero .one + once .zero .two = 1 := by decide
      have e3 : (once .zero + once .one) .zero + (once .zero + once .one) .one + (once .zero + once .one) .two = 2 := by decide
      rw [e1, e2, e3, sessionBytes]
      split_ifs <;> ring
    rw [hsum]
    exact RunsB.congr (RunsB.bind vh (RunsB.bind vA (RunsB.bind vB1 (RunsB.bind vB (RunsB.bind vC (RunsB.done _)))))) hprog (fun _ => rfl)
  · have hlen : ∀ s, sessionLengths F G1 G2 a (rsh 0) s = List.replicate (rounds322 s) (8 + 2 ^ a * FixedWire.width F) ++
        (List.replicate (once .zero s) (FixedWire.width G1) ++ (List.replicate (if rsh 0 = 0 then 0 else once .zero s) (FixedWire.width G1) ++
        (List.replicate (once .zero s) (FixedWire.width G2) ++ (List.replicate ((once .zero + once .one) s) (FixedWire.width G1) ++ [])))) := by
      intro s
      by_cases h : rsh 0 = 0 <;> cases s <;> simp only [sessionLengths, h, if_true, if_false] <;> rfl
    exact RunsT.congr (RunsT.bind th (RunsT.bind tA (RunsT.bind tB1 (RunsT.bind tB (RunsT.bind tC (RunsT.done _)))))) hprog (fun _ => rfl) hlen hlen
  · refine cast ?_ hoC
    congr 2
    apply sum_congr rfl
    intro i hi
    rw [getD_map_range, if_pos (by rw [← hUl]; exact mem_range.1 hi)]

/-- What the servers compute, for any key. -/
theorem dsha256_runs {dbg₀ : Bool} {b : Nat} {pp : PSS F} (hpp : PSS.new dbg₀ (2 ^ b) = .ok pp) (dbg : Bool) (a : Nat)
    (ha : a < 64) {dom dom2 : Domain F} (hdom : Domain.new (2 ^ (a + b)) = some dom)
    (hdom2 : Domain.new (2 ^ (a + b + 1)) = some dom2) {q : Nat → PackedQAPShare F} (hq : ∀ p < 4 * 2 ^ b, (q p).domain = dom)
    {va vb vc : List F} (hva : HoldsInput pp a b (fun p => (q p).a) va) (hvb : HoldsInput pp a b (fun p => (q p).b) vb)
    (hvc : HoldsInput pp a b (fun p => (q p).c) vc) {A B C : F[X]}
    (hA : Interpolates dom.groupGen (2 ^ (a + b)) (fun i => va.getD i 0) A)
    (hB : Interpolates dom.groupGen (2 ^ (a + b)) (fun i => vb.getD i 0) B)
    (hC : Interpolates dom.groupGen (2 ^ (a + b)) (fun i => vc.getD i 0) C)
    {crs : Nat → PackedProvingKeyShare G1 G2} {a0 b0 α1 β1 δ1 : G1} {v0 β2 δ2 : G2}
    (hpub : ∀ p, (crs p).aQuery0 = a0 ∧ (crs p).bG1Query0 = b0 ∧ (crs p).bG2Query0 = v0 ∧ (crs p).deltaG1 = δ1 ∧
        (crs p).deltaG2 = δ2 ∧ (crs p).alphaG1 = α1 ∧ (crs p).betaG1 = β1 ∧ (crs p).betaG2 = β2)
    {S H W U : List G1} {V : List G2} (hS : HoldsChunks pp b (fun p => (crs p).s) S) (hU : HoldsChunks pp b (fun p => (crs p).u) U)
    (hW : HoldsChunks pp b (fun p => (crs p).w) W) (hH : HoldsChunks pp b (fun p => (crs p).h) H)
    (hV : HoldsChunks pp b (fun p => (crs p).v) V) {z ax : List F} (hzS : z.length = S.length) (hzH : z.length = H.length)
    (hzV : z.length = V.length) (hax : ax.length = W.length) (hUl : U.length = 2 ^ (a + b)) {zsh axsh : Nat → List F}
    (hz : HoldsChunks pp b zsh z) (hx : HoldsChunks pp b axsh ax) {rsh ssh : Nat → F} {r s : F} (hr : HoldsValue pp b rsh r)
    (hs : HoldsValue pp b ssh s) (hr0 : (∀ p < 4 * 2 ^ b, rsh p ≠ 0) ∨ ∀ p < 4 * 2 ^ b, rsh p = 0)
    {masks : Nat → Nat → FftMask F} (hm : IsCircomMasks pp dom2.groupGen dom masks)
    {dmask : Nat → DegRedMask F} (hd : IsDegRedMasks pp (2 ^ a) dmask) {m1 : Nat → Nat → MsmMask G1}
    (hm1 : ∀ k < 4, IsMsmMasks pp fun p => m1 p k) {m2 : Nat → MsmMask G2} (hm2 : IsMsmMasks pp m2) (rng : Nat → Nat → Nat → F) :
    ∃ (oA : Nat → G1) (oB : Nat → G2) (oC : Nat → G1) (pA pB1 : G1),
      Runs (Upto (max (8 + 2 ^ a * FixedWire.width F) (max (FixedWire.width G1) (FixedWire.width G2)))) (fun _ => True)
        (fun i : Fin (4 * 2 ^ b) => pp.dsha256 dbg (4 * 2 ^ b) i (crs i) (q i) (zsh i) (axsh i) (rsh i) (ssh i)
        (masks i) (dmask i) (m1 i) (m2 i) rng) (fun i => (oA i, oB i, oC i)) ∧
      RunsB All (fun _ => True)
        (fun i : Fin (4 * 2 ^ b) => pp.dsha256 dbg (4 * 2 ^ b) i (crs i) (q i) (zsh i) (axsh i) (rsh i) (ssh i)
        (masks i) (dmask i) (m1 i) (m2 i) rng) (fun i => (oA i, oB i, oC i)) (sessionBytes F G1 G2 a (rsh 0)) (sessionBytes F G1 G2 a (rsh 0)) ∧
      RunsT (fun i : Fin (4 * 2 ^ b) => pp.dsha256 dbg (4 * 2 ^ b) i (crs i) (q i) (zsh i) (axsh i) (rsh i) (ssh i)
        (masks i) (dmask i) (m1 i) (m2 i) rng) (fun i => (oA i, oB i, oC i)) (sessionLengths F G1 G2 a (rsh 0)) (sessionLengths F G1 G2 a (rsh 0)) ∧
      pA = a0 + r • δ1 + (∑ i ∈ range S.length, z.getD i 0 • S.getD i 0) + α1 ∧
      pB1 = b0 + s • δ1 + (∑ i ∈ range H.length, z.getD i 0 • H.getD i 0) + β1 ∧
      HoldsValue pp b oA pA ∧
      HoldsValue pp b oB (v0 + s • δ2 + (∑ i ∈ range V.length, z.getD i 0 • V.getD i 0) + β2) ∧
      HoldsProduct pp b oC (s • pA + r • pB1 - (r * s) • δ1 + (∑ i ∈ range W.length, ax.getD i 0 • W.getD i 0) +
        ∑ i ∈ range U.length, (A * B - C).eval (dom2.groupGen ^ (2 * i + 1)) • U.getD i 0) :=
  dsha256_few hpp dbg (Or.inl rfl) a ha hdom hdom2 hq hva hvb hvc hA hB hC hpub hS hU hW hH hV hzS hzH hzV hax hUl hz hx hr hs hr0 hm hd hm1 hm2 rng

end groups

/-! ### The whole session -/

theorem rd_range {α : Type} {n i : Nat} (f : Nat → α) (hi : i < n) : rd ((List.range n).map f) i = .ok (f i) := by
  unfold rd
  rw [List.getElem?_map, List.getElem?_range hi]
  rfl

theorem rd_getD {α : Type} {v : List α} {i : Nat} (d : α) (hi : i < v.length) : rd v i = .ok (v.getD i d) := by
  unfold rd
  rw [List.getElem?_eq_getElem hi, List.getD_eq_getElem _ _ hi]

theorem getElem?_getD {α : Type} {v : List α} {i : Nat} (d : α) (hi : i < v.length) : v[i]? = some (v.getD i d) := by
  rw [List.getElem?_eq_getElem hi, List.getD_eq_getElem _ _ hi]

/-- Polynomials of the program combined with the assignment take on the domain the values `qap` computes. -/
theorem combine_a {mats : ConstraintMatrices F} {z : List F} {ω : F} {m : Nat} {a b c : Nat → F[X]}
    (h : IsQap mats z.length ω m a b c) (hc : ColumnsBelow z.length mats.a) (hz : mats.numInstanceVariables ≤ z.length) {v : List F}
    (h1 : ∀ i < mats.numConstraints, v.getD i 0 = dot (mats.a.getD i []) z)
    (h2 : ∀ j < mats.numInstanceVariables, v.getD (mats.numConstraints + j) 0 = z.getD j 0)
    (h3 : ∀ i, mats.numConstraints + mats.numInstanceVariables ≤ i → v.getD i 0 = 0) :
    Interpolates ω m (fun i => v.getD i 0) (combine z a) := by
  refine ZkSaas.Interpolates.congr (combine_interpolates h.a) fun i _ => ?_
  by_cases hi : i < mats.numConstraints
  · simp only [if_pos hi]; rw [h1 i hi, dot_row hc]
  simp only [if_neg hi]
  by_cases hj : i < mats.numConstraints + mats.numInstanceVariables
  · obtain ⟨j, rfl⟩ : ∃ j, i = mats.numConstraints + j := ⟨i - mats.numConstraints, by omega⟩
    rw [h2 j (by omega), sum_eq_single j (fun k _ hk => by rw [if_neg (by omega), mul_zero])
      (fun hk => absurd (mem_range.2 (by omega)) hk), if_pos ⟨rfl, by omega⟩, mul_one]
  · rw [h3 i (by omega)]
    exact sum_eq_zero fun k _ => by rw [if_neg (by omega), mul_zero]

theorem combine_bc {M : List (List (F × Nat))} {nc : Nat} {z : List F} {ω : F} {m : Nat} {b : Nat → F[X]}
    (h : ∀ k < z.length, Interpolates ω m (fun i => if i < nc then entry M i k else 0) (b k)) (hc : ColumnsBelow z.length M) :
    Interpolates ω m (fun i => if i < nc then dot (M.getD i []) z else 0) (combine z b) := by
  refine ZkSaas.Interpolates.congr (combine_interpolates h) fun i _ => ?_
  by_cases hi : i < nc
  · simp only [if_pos hi]; rw [dot_row hc]
  · simp only [if_neg hi, mul_zero, sum_const_zero]

theorem Interpolates.sub {ω : F} {m : Nat} {v w : Nat → F} {A B : F[X]} (h : Interpolates ω m v A) (h' : Interpolates ω m w B) :
    Interpolates ω m (fun i => v i - w i) (A - B) :=
  ⟨lt_of_le_of_lt (degree_sub_le A B) (max_lt h.1 h'.1), fun i hi => by rw [eval_sub, h.2 i hi, h'.2 i hi]⟩

section session
variable {G1 G2 GT : Type} [AddCommGroup G1] [Module F G1] [DecidableEq G1] [FixedWire G1]
  [AddCommGroup G2] [Module F G2] [DecidableEq G2] [FixedWire G2] [AddCommGroup GT] [Module F GT]

/-- A circuit of the shape the example handles: the domain of its program has `2^(a+b)` points (`l = 2^b`) and the field has roots
of unity for twice as many; the matrices have one row per constraint and no column beyond the assignment, whose first entry is the
constant one. -/
structure Circuit (a b : Nat) (mats : ConstraintMatrices F) (z : List F) (dom dom2 : Domain F) : Prop where
  domain : Domain.new (mats.numConstraints + mats.numInstanceVariables) = some dom
  size : dom.size = 2 ^ (a + b)
  double : Domain.new (2 ^ (a + b + 1)) = some dom2
  rowsA : mats.a.length = mats.numConstraints
  rowsB : mats.b.length = mats.numConstraints
  colsA : ColumnsBelow z.length mats.a
  colsB : ColumnsBelow z.length mats.b
  colsC : ColumnsBelow z.length mats.c
  inputs : 1 ≤ mats.numInstanceVariables
  wires : mats.numInstanceVariables ≤ z.length
  one : z.getD 0 0 = 1

theorem Circuit.prim {a b : Nat} {mats : ConstraintMatrices F} {z : List F} {dom dom2 : Domain F} (h : Circuit a b mats z dom dom2) :
    IsPrimitiveRoot dom.groupGen (2 ^ (a + b)) := by rw [← h.size]; exact (Domain.new_wf h.domain).1.prim

theorem Circuit.le {a b : Nat} {mats : ConstraintMatrices F} {z : List F} {dom dom2 : Domain F} (h : Circuit a b mats z dom dom2) :
    mats.numConstraints ≤ 2 ^ (a + b) := by
  have h1 := h.domain
  rw [← h.size]
  rw [Domain.new] at h1
  split at h1
  · cases h1
  · cases h1; exact le_trans (Nat.le_add_right _ _) (Nat.le_pow_clog (by omega) _)

theorem ServerInput.run_blocked {lim n me : Nat} (x : ServerInput F G1 G2) (pp : PSS F) (dbg : Bool) (hme : me ≠ 0)
    (rng : Nat → Nat → Nat → F)
    (h : lim < 8 + min x.q.a.length (x.fftMask.getD 0 (FftMask.zero 0)).inMask.length * FixedWire.width F) :
    Blocked lim (x.run pp dbg n me rng) :=
  PSS.dsha256_blocked pp dbg hme _ _ _ _ _ _ _ _ _ _ _ h

/-- The session of the example, for any assignment. The proof fails the equation by `D(τ)·e(g₁, g₂)`, where `D` interpolates the
errors `⟨Aᵢ,z⟩⟨Bᵢ,z⟩ - ⟨Cᵢ,z⟩`. In a debug build the same holds if one of the clients does what it likes, and in
any build if one of them falls silent. The client is of build `dbg`, the servers of build `dbgS`. -/
theorem session_mixed {dbg₀ : Bool} {b : Nat} {pp : PSS F} (hpp : PSS.new dbg₀ (2 ^ b) = .ok pp) (dbg dbgS : Bool) (a : Nat) (ha : a < 64)
    {mats : ConstraintMatrices F} {z : List F} {dom dom2 : Domain F} (hcirc : Circuit a b mats z dom dom2)
    {pa pb pc : Nat → F[X]} (hqap : IsQap mats z.length dom.groupGen (2 ^ (a + b)) pa pb pc) {t : Toxic F} {g1 : G1} {g2 : G2}
    {pk : ProvingKey G1 G2}
    (hk : IsCircomKey t g1 g2 z.length mats.numInstanceVariables (2 ^ (a + b)) dom2.groupGen pa pb pc pk) (hγ : t.gamma ≠ 0)
    (hδ : t.delta ≠ 0) (hal : dbg = true → KeyAligned (2 ^ b) pk) (gen1 : G1) (gen2 : G2) {copies : Nat} {r s : F}
    (tape : ClientTape F G1 G2) {rs ss : List F} (hrs : pp.pack dbg (List.replicate copies r) tape.r = .ok rs)
    (hss : pp.pack dbg (List.replicate copies s) tape.s = .ok ss) (hrl : rs.length = 4 * 2 ^ b) (hsl : ss.length = 4 * 2 ^ b)
    (hr : HoldsValue pp b (fun p => rs.getD p 0) r) (hs : HoldsValue pp b (fun p => ss.getD p 0) s)
    (hr0 : (∀ p < 4 * 2 ^ b, rs.getD p 0 ≠ 0) ∨ ∀ p < 4 * 2 ^ b, rs.getD p 0 = 0) (rng : Nat → Nat → Nat → F) :
    ∃ (ins : Nat → ServerInput F G1 G2) (outs : Nat → G1 × G2 × G1) (D : F[X]) (pA : G1) (pB : G2) (pC : G1),
      pp.deal dbg copies mats z pk gen1 gen2 r s tape = .ok ((List.range (4 * 2 ^ b)).map ins) ∧
      AlwaysYields (Net.init fun i : Fin (4 * 2 ^ b) => (ins i).run pp dbgS (4 * 2 ^ b) i rng) (fun i => outs i) ∧
      (∀ lim, max (8 + 2 ^ a * FixedWire.width F) (max (FixedWire.width G1) (FixedWire.width G2)) ≤ lim →
        AlwaysYieldsWithin lim (Net.init fun i : Fin (4 * 2 ^ b) => (ins i).run pp dbgS (4 * 2 ^ b) i rng) (fun i => outs i)) ∧
      (∀ lim, lim < 8 + 2 ^ a * FixedWire.width F → ∀ i : Fin (4 * 2 ^ b), i.val ≠ 0 →
        NeverFinishes lim (Net.init fun i : Fin (4 * 2 ^ b) => (ins i).run pp dbgS (4 * 2 ^ b) i rng) i) ∧
      pp.openProof dbg ((List.range (4 * 2 ^ b)).map outs) = .ok (pA, pB, pC) ∧
      Interpolates dom.groupGen (2 ^ (a + b)) (fun i => if i < mats.numConstraints then
        dot (mats.a.getD i []) z * dot (mats.b.getD i []) z - dot (mats.c.getD i []) z else 0) D ∧
      ((z.take mats.numInstanceVariables).drop 1).length + 1 = pk.vk.gammaAbcG1.length ∧
      (∀ e : G1 →ₗ[F] G2 →ₗ[F] GT, e pA pB = e pk.vk.alphaG1 pk.vk.betaG2 +
        e (pk.vk.gammaAbcG1.getD 0 0 + ∑ i ∈ range ((z.take mats.numInstanceVariables).drop 1).length,
          ((z.take mats.numInstanceVariables).drop 1).getD i 0 • pk.vk.gammaAbcG1.getD (i + 1) 0) pk.vk.gammaG2 +
        e pC pk.vk.deltaG2 + D.eval t.tau • e g1 g2) ∧
      (∀ i < 2 ^ (a + b), (combine z pa * combine z pb - combine z pc - D).eval (dom.groupGen ^ i) = 0) ∧
      IsGroth16Proof t g1 g2 mats.numInstanceVariables pa pb pc z
        ((combine z pa * combine z pb - combine z pc - D).eval t.tau) r s pA pB pC ∧
      (∀ p₀, p₀ ≠ 0 → dbgS = true → dbg = true →
        Session (four_pos b) (Cheater p₀) (fun _ => True) (fun i : Fin (4 * 2 ^ b) => (ins i).run pp dbgS (4 * 2 ^ b) i rng) (fun i => outs i) ∧
        ∀ (res : Nat → G1 × G2 × G1) (π : G1 × G2 × G1), (∀ i < 4 * 2 ^ b, i ≠ p₀ → res i = outs i) →
          pp.openProof dbg ((List.range (4 * 2 ^ b)).map res) = .ok π → π = (pA, pB, pC)) ∧
      (∀ Q : Nat → Prop, ¬ Q 0 → Remain (4 * 2 ^ b) Q (4 * 2 ^ b - 1) →
        SurvivesSilence Q (Net.init fun i : Fin (4 * 2 ^ b) => (ins i).run pp dbgS (4 * 2 ^ b) i rng) (fun i => outs i)) ∧
      HoldsValue pp b (fun p => (outs p).1) pA ∧ HoldsValue pp b (fun p => (outs p).2.1) pB ∧
      HoldsProduct pp b (fun p => (outs p).2.2) pC ∧
      Exchanges (Net.init fun i : Fin (4 * 2 ^ b) => (ins i).run pp dbgS (4 * 2 ^ b) i rng)
        (sessionBytes F G1 G2 a (rs.getD 0 0)) (sessionBytes F G1 G2 a (rs.getD 0 0)) ∧
      SendsLengths (Net.init fun i : Fin (4 * 2 ^ b) => (ins i).run pp dbgS (4 * 2 ^ b) i rng)
        (starLengths (4 * 2 ^ b) (sessionLengths F G1 G2 a (rs.getD 0 0)) (sessionLengths F G1 G2 a (rs.getD 0 0))) ∧
      (∀ n, n + 1 = 4 * 2 ^ b → ∃ outs' : Nat → G1 × G2 × G1,
        AlwaysYields (Net.init fun i : Fin n => (ins i).run pp dbgS n i rng) (fun i => outs' i) ∧
        (∀ lim, max (8 + 2 ^ a * FixedWire.width F) (max (FixedWire.width G1) (FixedWire.width G2)) ≤ lim →
          AlwaysYieldsWithin lim (Net.init fun i : Fin n => (ins i).run pp dbgS n i rng) (fun i => outs' i)) ∧
        HoldsValue pp b (fun p => (outs' p).1) pA ∧ HoldsValue pp b (fun p => (outs' p).2.1) pB ∧
        HoldsProduct pp b (fun p => (outs' p).2.2) pC) := by
  obtain ⟨hdom, hsize, hdom2, hA, hB, hcA, hcB, hcC, hin, hz, hz0⟩ := hcirc
  have hg := PSS.good_of_new hpp
  have hle := l_eq hpp
  have hb0 : 0 < 2 ^ b := by positivity
  have hm0 : 0 < 2 ^ (a + b) := by positivity
  have hdom' : Domain.new (2 ^ (a + b)) = some dom := hsize ▸ Domain.new_size hdom
  obtain ⟨hwf, hoff, -, -⟩ := Domain.new_pow2 hdom'
  obtain ⟨hwf2, hoff2, -, hsize2⟩ := Domain.new_pow2 hdom2
  have hprim : IsPrimitiveRoot dom.groupGen (2 ^ (a + b)) := by rw [← hsize]; exact hwf.prim
  have hprim' : IsPrimitiveRoot dom.groupGenInv (2 ^ (a + b)) := by rw [hwf.ginv]; exact hprim.inv
  -- the dealt shares
  obtain ⟨q, eq, rfl, -, -, la, lb, lc, v1, v2, v3, vc⟩ := C29_qap mats z hdom hA hB hcA hcB hz
  obtain ⟨sh, es, hdm, i1, i2, i3⟩ := C30_pss hpp dbg a q (la.trans hsize) (lb.trans hsize) (lc.trans hsize) tape.qapA tape.qapB tape.qapC
  have hcons : ∀ {T : Type} {v : List T} {f : Nat → T}, v = (List.range z.length).map f → ∃ x xs, v = x :: xs := by
    intro T v f h
    cases v with
    | nil => have := congrArg List.length h; simp at this; omega
    | cons x xs => exact ⟨x, xs, rfl⟩
  obtain ⟨a0, as, hqa⟩ := hcons hk.aQuery
  obtain ⟨b0, bs, hqb⟩ := hcons hk.bG1Query
  obtain ⟨v0, vs, hqv⟩ := hcons hk.bG2Query
  obtain ⟨crs, ec, hpub, hS, hU, hW, hH, hV⟩ := C33_pack_key hpp dbg pk hal hqa hqb hqv
  obtain ⟨zsh, ez, hzs⟩ := packFromWitness_holds hpp dbg (z.drop 1) tape.a
  obtain ⟨axsh, ex, hxs⟩ := packFromWitness_holds hpp dbg (z.drop mats.numInstanceVariables) tape.ax
  -- the masks
  have hdiv : 2 ^ (a + b) / pp.l = 2 ^ a := by rw [hle, pow_add, Nat.mul_div_cancel _ hb0]
  have fm : ∀ (rearrange : Bool) (g gen : F), IsPrimitiveRoot gen (2 ^ (a + b)) → ∀ vt : VecTape F,
      ∃ ms, FftMask.sample pp dbg rearrange g gen (2 ^ (a + b)) vt.vals vt.rngIn vt.rngOut = .ok ms ∧ ms.length = 4 * 2 ^ b ∧
        IsFftMasks pp rearrange g gen (2 ^ (a + b)) fun p => ms.getD p (FftMask.zero 0) := by
    intro rearrange g gen hp vt
    obtain ⟨ms, e, hl, -⟩ := MasksOk.of_sample hg dbg hle hp rearrange g vt.vals vt.rngIn vt.rngOut
    exact ⟨ms, e, by rw [hl, hle], .inl ⟨dbg, _, _, _, ms, e, fun p hp => getElem?_getD _ (by rw [hl]; exact hp)⟩⟩
  have mm : ∀ {T : Type} [AddCommGroup T] [Module F T] [DecidableEq T] (gen : T) (mt : MsmTape F T),
      ∃ ms, MsmMask.sample pp dbg gen mt.vals mt.rngIn mt.rngOut = .ok ms ∧ ms.length = 4 * 2 ^ b ∧
        IsMsmMasks pp fun p => ms.getD p MsmMask.zero := by
    intro T _ _ _ gen mt
    obtain ⟨ms, e, hl, -⟩ := MsmMasksOk.of_sample hg dbg gen mt.vals mt.rngIn mt.rngOut
    exact ⟨ms, e, by rw [hl, hle], .inl ⟨dbg, gen, _, _, _, ms, e, fun p hp => getElem?_getD _ (by rw [hl]; exact hp)⟩⟩
  obtain ⟨m0, em0, lm0, hm0'⟩ := fm true dom2.groupGen q.domain.groupGenInv hprim' (tape.fft 0)
  obtain ⟨m1, em1, lm1, hm1'⟩ := fm true dom2.groupGen q.domain.groupGenInv hprim' (tape.fft 1)
  obtain ⟨m2, em2, lm2, hm2'⟩ := fm true dom2.groupGen q.domain.groupGenInv hprim' (tape.fft 2)
  obtain ⟨m3, em3, lm3, hm3'⟩ := fm false 1 q.domain.groupGen hprim (tape.fft 3)
  obtain ⟨m4, em4, lm4, hm4'⟩ := fm false 1 q.domain.groupGen hprim (tape.fft 4)
  obtain ⟨m5, em5, lm5, hm5'⟩ := fm false 1 q.domain.groupGen hprim (tape.fft 5)
  obtain ⟨n0, en0, ln0, hn0⟩ := mm gen1 (tape.msm1 0)
  obtain ⟨n1, en1, ln1, hn1⟩ := mm gen1 (tape.msm1 1)
  obtain ⟨n2, en2, ln2, hn2⟩ := mm gen1 (tape.msm1 2)
  obtain ⟨n3, en3, ln3, hn3⟩ := mm gen1 (tape.msm1 3)
  obtain ⟨k, ek, lk, hk2⟩ := mm gen2 tape.msm2
  obtain ⟨dr, ed, ld, -⟩ := DegRedMasksOk.of_sample hg dbg (1 : F) (N := 2 ^ a) (by positivity) tape.degred.vals tape.degred.rngIn
    tape.degred.rngOut
  have hd : IsDegRedMasks pp (2 ^ a) fun p => dr.getD p (DegRedMask.zero 0) :=
    .inl ⟨dbg, 1, _, _, _, dr, ed, fun p hp => getElem?_getD _ (by rw [ld]; exact hp)⟩
  rw [hle] at ld
  -- the polynomials
  have iA := combine_a hqap hcA hz (v := q.a) (fun i hi => (v1 i hi).1) (fun j hj => (v2 j hj).1) (fun i hi => (v3 i hi).1)
  have hvb : ∀ i, q.b.getD i 0 = if i < mats.numConstraints then dot (mats.b.getD i []) z else 0 := by
    intro i
    by_cases hi : i < mats.numConstraints
    · rw [if_pos hi, (v1 i hi).2]
    rw [if_neg hi]
    by_cases hj : i < mats.numConstraints + mats.numInstanceVariables
    · obtain ⟨j, rfl⟩ : ∃ j, i = mats.numConstraints + j := ⟨i - mats.numConstraints, by omega⟩
      exact (v2 j (by omega)).2
    · exact (v3 i (by omega)).2
  have iB : Interpolates q.domain.groupGen (2 ^ (a + b)) (fun i => q.b.getD i 0) (combine z pb) :=
    ZkSaas.Interpolates.congr (combine_bc hqap.b hcB) fun i _ => (hvb i).symm
  have iC := combine_bc hqap.c hcC
  obtain ⟨C', iC'⟩ := Interpolates.exists hwf hoff q.c lc
  rw [hsize] at iC'
  -- the run
  let ins : Nat → ServerInput F G1 G2 := fun p => ⟨crs p, sh p, zsh p, axsh p, rs.getD p 0, ss.getD p 0,
    [m0.getD p (FftMask.zero 0), m1.getD p (FftMask.zero 0), m2.getD p (FftMask.zero 0), m3.getD p (FftMask.zero 0),
      m4.getD p (FftMask.zero 0), m5.getD p (FftMask.zero 0)], dr.getD p (DegRedMask.zero 0),
    [n0.getD p MsmMask.zero, n1.getD p MsmMask.zero, n2.getD p MsmMask.zero, n3.getD p MsmMask.zero], k.getD p MsmMask.zero⟩
  have hqlen : ∀ {T : Type} {x : T} {xs : List T} {f : Nat → T}, x :: xs = (List.range z.length).map f →
      (z.drop 1).length = xs.length := by
    intro T x xs f h
    have := congrArg List.length h
    simp at this ⊢
    omega
  have hUl : pk.hQuery.length = 2 ^ (a + b) := by rw [hk.hQuery]; simp
  have hcm : IsCircomMasks pp dom2.groupGen q.domain fun p k => (ins p).fftMask.getD k (FftMask.zero 0) := by
    rw [IsCircomMasks, hsize]
    constructor
    · intro k hk
      obtain rfl | rfl | rfl : k = 0 ∨ k = 1 ∨ k = 2 := by omega
      exacts [hm0', hm1', hm2']
    · intro k hk
      obtain rfl | rfl | rfl : k = 0 ∨ k = 1 ∨ k = 2 := by omega
      exacts [hm3', hm4', hm5']
  have hmm : ∀ k < 4, IsMsmMasks pp fun p => (ins p).g1Mask.getD k MsmMask.zero := by
    intro k hk
    obtain rfl | rfl | rfl | rfl : k = 0 ∨ k = 1 ∨ k = 2 ∨ k = 3 := by omega
    exacts [hn0, hn1, hn2, hn3]
  obtain ⟨oA, oB, oC, pA, pB1, hrun, hvol, htr, epA, epB1, hoA, hoB, hoC⟩ := dsha256_runs hpp dbgS a ha hdom' hdom2 (q := sh)
    (fun p _ => (hdm p).1) i1.input i2.input i3.input iA iB iC' hpub hS hU hW hH hV (hqlen (hqa.symm.trans hk.aQuery))
    (hqlen (hqb.symm.trans hk.bG1Query)) (hqlen (hqv.symm.trans hk.bG2Query)) (by rw [hk.lQuery]; simp) hUl hzs hxs hr hs hr0
    (masks := fun p k => (ins p).fftMask.getD k (FftMask.zero 0)) hcm hd (m1 := fun p k => (ins p).g1Mask.getD k MsmMask.zero) hmm hk2 rng
  obtain ⟨pB, hoB, epB⟩ : ∃ pB, HoldsValue pp b oB pB ∧ pB = _ := ⟨_, hoB, rfl⟩
  obtain ⟨pC, hoC, epC⟩ : ∃ pC, HoldsProduct pp b oC pC ∧ pC = _ := ⟨_, hoC, rfl⟩
  -- the query
  have hP0 : ∀ i < 2 ^ (a + b), (combine z pa * combine z pb - C').eval (dom2.groupGen ^ (2 * i)) = 0 := by
    intro i hi
    rw [pow_mul, Domain.new_double hdom' hdom2, eval_sub, eval_mul, iA.2 i hi, iB.2 i hi, iC'.2 i hi]
    dsimp only
    rw [vc, sub_self]
  have hPd : (combine z pa * combine z pb - C').degree < (2 * 2 ^ (a + b) - 1 : Nat) := by
    refine lt_of_le_of_lt (degree_sub_le _ _) (max_lt ?_ (lt_of_lt_of_le iC'.1 (by exact_mod_cast (by omega))))
    by_cases h0 : combine z pa * combine z pb = 0
    · rw [h0, degree_zero]; exact WithBot.bot_lt_coe _
    have hne := mul_ne_zero_iff.1 h0
    have d1 := iA.1
    have d2 := iB.1
    rw [degree_eq_natDegree hne.1] at d1
    rw [degree_eq_natDegree hne.2] at d2
    rw [degree_eq_natDegree h0, natDegree_mul hne.1 hne.2]
    have d1 : (combine z pa).natDegree < 2 ^ (a + b) := by exact_mod_cast d1
    have d2 : (combine z pb).natDegree < 2 ^ (a + b) := by exact_mod_cast d2
    exact_mod_cast (by omega)
  have hquery := circom_h_query hwf2 hoff2 hm0 (by rw [hsize2, pow_succ, mul_comm]) hPd hP0 t.tau t.delta
  have hx : ∑ i ∈ range pk.hQuery.length, (combine z pa * combine z pb - C').eval (dom2.groupGen ^ (2 * i + 1)) • pk.hQuery.getD i 0 =
      ((combine z pa * combine z pb - C').eval t.tau / t.delta) • g1 := by
    rw [hk.hQuery, msm_query (fun i => (combine z pa * combine z pb - C').eval (dom2.groupGen ^ (2 * i + 1)))
      (fun i => (∑ k ∈ range (2 * 2 ^ (a + b) - 1), t.tau ^ k / t.delta * (dom2.groupGen⁻¹ ^ (2 * i + 1)) ^ k) / (2 * 2 ^ (a + b) : Nat)),
      hquery]
  have hval := groth16_values hk hz hz0 r s _ hqa hqb hqv hx epA epB1 epB epC
  refine ⟨ins, fun p => (oA p, oB p, oC p), C' - combine z pc, pA, pB, pC, ?_, ?_, ?_, ?_, ?_, ?_, ?_, ?_, ?_, ?_, ?_, ?_, hoA, hoB, hoC, ?_, ?_, ?_⟩
  · unfold PSS.deal
    simp only [eq, ok_bind, unwrap_some, hrs, hss, es, ec, ex, ez]
    rw [assert_of (by simpa using hz), ok_bind, assert_of (by simp; omega), ok_bind, rd_range _ (by omega), ok_bind, (hdm 0).1, hsize,
      show 2 * 2 ^ (a + b) = 2 ^ (a + b + 1) by rw [pow_succ, mul_comm], hdom2]
    simp only [unwrap_some, ok_bind, Domain.element, hoff2, pow_one, one_mul, em0, em1, em2, em3, em4, em5, hdiv, ed, en0, en1, en2, en3,
      ek]
    rw [hg.n_eq, hle]
    refine mapM_ok fun p hp => ?_
    have hp := List.mem_range.1 hp
    simp only [rd_range _ hp, ok_bind, rd_getD 0 (hrl ▸ hp), rd_getD 0 (hsl ▸ hp), rd_getD (DegRedMask.zero 0) (ld ▸ hp),
      rd_getD MsmMask.zero (lk ▸ hp), List.mapM_cons, List.mapM_nil, rd_getD (FftMask.zero 0) (lm0 ▸ hp),
      rd_getD (FftMask.zero 0) (lm1 ▸ hp), rd_getD (FftMask.zero 0) (lm2 ▸ hp), rd_getD (FftMask.zero 0) (lm3 ▸ hp),
      rd_getD (FftMask.zero 0) (lm4 ▸ hp), rd_getD (FftMask.zero 0) (lm5 ▸ hp), rd_getD MsmMask.zero (ln0 ▸ hp),
      rd_getD MsmMask.zero (ln1 ▸ hp), rd_getD MsmMask.zero (ln2 ▸ hp), rd_getD MsmMask.zero (ln3 ▸ hp), pure_ok]
    rfl
  · exact hrun.alwaysYields fun i => dsha256_wf _ (by positivity) _ _ _ _ _ _ _ _ _ _ _ _
  · exact fun lim hlim => hrun.alwaysYieldsWithin (fun i => dsha256_wf _ (by positivity) _ _ _ _ _ _ _ _ _ _ _ _) hlim
  · intro lim hlim i hi
    obtain ⟨ψ, -, hmin, -⟩ := hm0'.ok hpp (by rw [hwf.ginv]; exact hsize ▸ hwf.prim.inv)
    have hl1 : (ins i).q.a.length = 2 ^ a := i1.2.1 i i.2
    have hl2 : ((ins i).fftMask.getD 0 (FftMask.zero 0)).inMask.length = 2 ^ a := hmin.1 i (by rw [hle]; exact i.2)
    have hbl := ServerInput.run_blocked (ins i) pp dbgS (n := 4 * 2 ^ b) hi rng (lim := lim) (by rw [hl1, hl2, Nat.min_self]; exact hlim)
    exact Blocked.neverFinishes_init (fun i : Fin (4 * 2 ^ b) => (ins i).run pp dbgS (4 * 2 ^ b) i rng) i hbl
  · unfold PSS.openProof
    simp only [List.map_map, Function.comp_def]
    rw [hoA.unpack2 hpp dbg, ok_bind, rd_getD 0 (by simp), ok_bind, hoB.unpack2 hpp dbg, ok_bind, rd_getD 0 (by simp), ok_bind,
      hoC.unpack2 hpp dbg, ok_bind, rd_getD 0 (by simp), ok_bind, getD_replicate', if_pos hb0, getD_replicate', if_pos hb0,
      getD_replicate', if_pos hb0]
    rfl
  · refine ZkSaas.Interpolates.congr (Properties.Interpolates.sub iC' iC) fun i _ => ?_
    rw [vc]
    by_cases hi : i < mats.numConstraints
    · simp only [if_pos hi]; rw [(v1 i hi).1, (v1 i hi).2]
    · rw [hvb]; simp only [if_neg hi, mul_zero, sub_zero]
  · rw [hk.gammaAbcG1]; simp; omega
  · intro e
    rw [ZkSaas.IsGroth16Proof.equation hk hγ hδ hin hz hz0 e hval]
    congr 2
    rw [eval_sub, eval_sub, eval_mul]
    ring
  · intro i hi
    rw [show combine z pa * combine z pb - combine z pc - (C' - combine z pc) = combine z pa * combine z pb - C' by ring,
      ← Domain.new_double hdom' hdom2, ← pow_mul]
    exact hP0 i hi
  · rw [show combine z pa * combine z pb - combine z pc - (C' - combine z pc) = combine z pa * combine z pb - C' by ring]
    exact hval
  · rintro p₀ hp₀ rfl rfl
    obtain ⟨_, _, _, _, _, hrun', -⟩ := dsha256_session hpp hp₀ a ha hdom' hdom2 (q := sh)
      (fun p _ => (hdm p).1) i1.input i2.input i3.input iA iB iC' hpub hS hU hW hH hV (hqlen (hqa.symm.trans hk.aQuery))
      (hqlen (hqb.symm.trans hk.bG1Query)) (hqlen (hqv.symm.trans hk.bG2Query)) (by rw [hk.lQuery]; simp) hUl hzs hxs hr hs hr0
      (masks := fun p k => (ins p).fftMask.getD k (FftMask.zero 0)) hcm hd (m1 := fun p k => (ins p).g1Mask.getD k MsmMask.zero) hmm hk2 rng
    have hb₀ : ¬ Cheater p₀ 0 := fun h => hp₀ h.symm
    refine ⟨hrun'.congr hb₀ (fun i _ => rfl) fun i hi => ?_, ?_⟩
    · exact hrun'.results hb₀ (hrun.alwaysYields fun i => dsha256_wf _ (by positivity) _ _ _ _ _ _ _ _ _ _ _ _) hi
    · intro res π hres hπ
      unfold PSS.openProof at hπ
      simp only [List.map_map, Function.comp_def] at hπ
      obtain ⟨ra, ea, hπ⟩ := bind_eq_ok hπ
      obtain ⟨xa, fa, hπ⟩ := bind_eq_ok hπ
      obtain ⟨rb, eb, hπ⟩ := bind_eq_ok hπ
      obtain ⟨xb, fb, hπ⟩ := bind_eq_ok hπ
      obtain ⟨rc, ec, hπ⟩ := bind_eq_ok hπ
      obtain ⟨xc, fc, hπ⟩ := bind_eq_ok hπ
      obtain rfl := HoldsProduct.unpack2_robust hpp hoA.product (p := p₀) (fun i hi hip => by rw [hres i hi hip]) ea
      obtain rfl := HoldsProduct.unpack2_robust hpp hoB.product (p := p₀) (fun i hi hip => by rw [hres i hi hip]) eb
      obtain rfl := HoldsProduct.unpack2_robust hpp hoC (p := p₀) (fun i hi hip => by rw [hres i hi hip]) ec
      rw [rd_getD 0 (by simp), getD_replicate', if_pos hb0] at fa fb fc
      cases fa; cases fb; cases fc; cases hπ
      rfl
  · intro Q hQ0 hQ
    obtain ⟨_, _, _, _, _, hrun', -⟩ := dsha256_timed hpp hQ dbgS a ha hdom' hdom2 (q := sh)
      (fun p _ => (hdm p).1) i1.input i2.input i3.input iA iB iC' hpub hS hU hW hH hV (hqlen (hqa.symm.trans hk.aQuery))
      (hqlen (hqb.symm.trans hk.bG1Query)) (hqlen (hqv.symm.trans hk.bG2Query)) (by rw [hk.lQuery]; simp) hUl hzs hxs hr hs hr0
      (masks := fun p k => (ins p).fftMask.getD k (FftMask.zero 0)) hcm hd (m1 := fun p k => (ins p).g1Mask.getD k MsmMask.zero) hmm hk2 rng
    exact hrun'.survives_as hQ0 (hrun.alwaysYields fun i => dsha256_wf _ (by positivity) _ _ _ _ _ _ _ _ _ _ _ _)
  · exact hvol.exchanges (four_pos b) (R := fun i => rounds322 + (once .zero + ((if rs.getD i 0 = 0 then 0 else once .zero) +
      (once .zero + (once .zero + once .one + 0))))) (fun i => dsha256_wf _ (by positivity) _ _ _ _ _ _ _ _ _ _ _ _)
      (fun i => pp.dsha256_rounds ..) fun i j hj => pp.dsha256_unheard _ hj ..
  · exact htr.sendsLengths (fun i => dsha256_wf _ (by positivity) _ _ _ _ _ _ _ _ _ _ _ _)
      (hrun.alwaysYields fun i => dsha256_wf _ (by positivity) _ _ _ _ _ _ _ _ _ _ _ _)
  · intro n hn
    obtain ⟨oA', oB', oC', pA', pB1', hrun', -, -, epA', epB1', hoA', hoB', hoC'⟩ := dsha256_few hpp dbgS (Or.inr hn) a ha hdom' hdom2 (q := sh)
      (fun p _ => (hdm p).1) i1.input i2.input i3.input iA iB iC' hpub hS hU hW hH hV (hqlen (hqa.symm.trans hk.aQuery))
      (hqlen (hqb.symm.trans hk.bG1Query)) (hqlen (hqv.symm.trans hk.bG2Query)) (by rw [hk.lQuery]; simp) hUl hzs hxs hr hs hr0
      (masks := fun p k => (ins p).fftMask.getD k (FftMask.zero 0)) hcm hd (m1 := fun p k => (ins p).g1Mask.getD k MsmMask.zero) hmm hk2 rng
    have hn0 : 0 < n := by omega
    rw [← epA] at epA'
    rw [← epB1] at epB1'
    subst epA' epB1'
    rw [← epB] at hoB'
    rw [← epC] at hoC'
    exact ⟨fun p => (oA' p, oB' p, oC' p), hrun'.alwaysYields fun i => dsha256_wf _ hn0 _ _ _ _ _ _ _ _ _ _ _ _,
      fun lim hlim => hrun'.alwaysYieldsWithin (fun i => dsha256_wf _ hn0 _ _ _ _ _ _ _ _ _ _ _ _) hlim, hoA', hoB', hoC'⟩

/-- The same with a client and servers of one build. -/
theorem session_full {dbg₀ : Bool} {b : Nat} {pp : PSS F} (hpp : PSS.new dbg₀ (2 ^ b) = .ok pp) (dbg : Bool) (a : Nat) (ha : a < 64)
    {mats : ConstraintMatrices F} {z : List F} {dom dom2 : Domain F} (hcirc : Circuit a b mats z dom dom2)
    {pa pb pc : Nat → F[X]} (hqap : IsQap mats z.length dom.groupGen (2 ^ (a + b)) pa pb pc) {t : Toxic F} {g1 : G1} {g2 : G2}
    {pk : ProvingKey G1 G2}
    (hk : IsCircomKey t g1 g2 z.length mats.numInstanceVariables (2 ^ (a + b)) dom2.groupGen pa pb pc pk) (hγ : t.gamma ≠ 0)
    (hδ : t.delta ≠ 0) (hal : dbg = true → KeyAligned (2 ^ b) pk) (gen1 : G1) (gen2 : G2) {copies : Nat} {r s : F}
    (tape : ClientTape F G1 G2) {rs ss : List F} (hrs : pp.pack dbg (List.replicate copies r) tape.r = .ok rs)
    (hss : pp.pack dbg (List.replicate copies s) tape.s = .ok ss) (hrl : rs.length = 4 * 2 ^ b) (hsl : ss.length = 4 * 2 ^ b)
    (hr : HoldsValue pp b (fun p => rs.getD p 0) r) (hs : HoldsValue pp b (fun p => ss.getD p 0) s)
    (hr0 : (∀ p < 4 * 2 ^ b, rs.getD p 0 ≠ 0) ∨ ∀ p < 4 * 2 ^ b, rs.getD p 0 = 0) (rng : Nat → Nat → Nat → F) :
    ∃ (ins : Nat → ServerInput F G1 G2) (outs : Nat → G1 × G2 × G1) (D : F[X]) (pA : G1) (pB : G2) (pC : G1),
      pp.deal dbg copies mats z pk gen1 gen2 r s tape = .ok ((List.range (4 * 2 ^ b)).map ins) ∧
      AlwaysYields (Net.init fun i : Fin (4 * 2 ^ b) => (ins i).run pp dbg (4 * 2 ^ b) i rng) (fun i => outs i) ∧
      (∀ lim, max (8 + 2 ^ a * FixedWire.width F) (max (FixedWire.width G1) (FixedWire.width G2)) ≤ lim →
        AlwaysYieldsWithin lim (Net.init fun i : Fin (4 * 2 ^ b) => (ins i).run pp dbg (4 * 2 ^ b) i rng) (fun i => outs i)) ∧
      (∀ lim, lim < 8 + 2 ^ a * FixedWire.width F → ∀ i : Fin (4 * 2 ^ b), i.val ≠ 0 →
        NeverFinishes lim (Net.init fun i : Fin (4 * 2 ^ b) => (ins i).run pp dbg (4 * 2 ^ b) i rng) i) ∧
      pp.openProof dbg ((List.range (4 * 2 ^ b)).map outs) = .ok (pA, pB, pC) ∧
      Interpolates dom.groupGen (2 ^ (a + b)) (fun i => if i < mats.numConstraints then
        dot (mats.a.getD i []) z * dot (mats.b.getD i []) z - dot (mats.c.getD i []) z else 0) D ∧
      ((z.take mats.numInstanceVariables).drop 1).length + 1 = pk.vk.gammaAbcG1.length ∧
      (∀ e : G1 →ₗ[F] G2 →ₗ[F] GT, e pA pB = e pk.vk.alphaG1 pk.vk.betaG2 +
        e (pk.vk.gammaAbcG1.getD 0 0 + ∑ i ∈ range ((z.take mats.numInstanceVariables).drop 1).length,
          ((z.take mats.numInstanceVariables).drop 1).getD i 0 • pk.vk.gammaAbcG1.getD (i + 1) 0) pk.vk.gammaG2 +
        e pC pk.vk.deltaG2 + D.eval t.tau • e g1 g2) ∧
      (∀ i < 2 ^ (a + b), (combine z pa * combine z pb - combine z pc - D).eval (dom.groupGen ^ i) = 0) ∧
      IsGroth16Proof t g1 g2 mats.numInstanceVariables pa pb pc z
        ((combine z pa * combine z pb - combine z pc - D).eval t.tau) r s pA pB pC ∧
      (∀ p₀, p₀ ≠ 0 → dbg = true →
        Session (four_pos b) (Cheater p₀) (fun _ => True) (fun i : Fin (4 * 2 ^ b) => (ins i).run pp dbg (4 * 2 ^ b) i rng) (fun i => outs i) ∧
        ∀ (res : Nat → G1 × G2 × G1) (π : G1 × G2 × G1), (∀ i < 4 * 2 ^ b, i ≠ p₀ → res i = outs i) →
          pp.openProof dbg ((List.range (4 * 2 ^ b)).map res) = .ok π → π = (pA, pB, pC)) ∧
      (∀ Q : Nat → Prop, ¬ Q 0 → Remain (4 * 2 ^ b) Q (4 * 2 ^ b - 1) →
        SurvivesSilence Q (Net.init fun i : Fin (4 * 2 ^ b) => (ins i).run pp dbg (4 * 2 ^ b) i rng) (fun i => outs i)) ∧
      HoldsValue pp b (fun p => (outs p).1) pA ∧ HoldsValue pp b (fun p => (outs p).2.1) pB ∧
      HoldsProduct pp b (fun p => (outs p).2.2) pC ∧
      Exchanges (Net.init fun i : Fin (4 * 2 ^ b) => (ins i).run pp dbg (4 * 2 ^ b) i rng)
        (sessionBytes F G1 G2 a (rs.getD 0 0)) (sessionBytes F G1 G2 a (rs.getD 0 0)) ∧
      SendsLengths (Net.init fun i : Fin (4 * 2 ^ b) => (ins i).run pp dbg (4 * 2 ^ b) i rng)
        (starLengths (4 * 2 ^ b) (sessionLengths F G1 G2 a (rs.getD 0 0)) (sessionLengths F G1 G2 a (rs.getD 0 0))) ∧
      (∀ n, n + 1 = 4 * 2 ^ b → ∃ outs' : Nat → G1 × G2 × G1,
        AlwaysYields (Net.init fun i : Fin n => (ins i).run pp dbg n i rng) (fun i => outs' i) ∧
        (∀ lim, max (8 + 2 ^ a * FixedWire.width F) (max (FixedWire.width G1) (FixedWire.width G2)) ≤ lim →
          AlwaysYieldsWithin lim (Net.init fun i : Fin n => (ins i).run pp dbg n i rng) (fun i => outs' i)) ∧
        HoldsValue pp b (fun p => (outs' p).1) pA ∧ HoldsValue pp b (fun p => (outs' p).2.1) pB ∧
        HoldsProduct pp b (fun p => (outs' p).2.2) pC) := by
  obtain ⟨ins, outs, D, pA, pB, pC, h1, h2, h3, h4, h5, h6, h7, h8, h9, h10, h11, h12⟩ := session_mixed (GT := GT) hpp dbg dbg a ha hcirc hqap hk hγ hδ hal
    gen1 gen2 tape hrs hss hrl hsl hr hs hr0 rng
  exact ⟨ins, outs, D, pA, pB, pC, h1, h2, h3, h4, h5, h6, h7, h8, h9, h10, fun p₀ hp hd => h11 p₀ hp hd hd, h12⟩

/-- The session when all servers are honest. -/
theorem session {dbg₀ : Bool} {b : Nat} {pp : PSS F} (hpp : PSS.new dbg₀ (2 ^ b) = .ok pp) (dbg : Bool) (a : Nat) (ha : a < 64)
    {mats : ConstraintMatrices F} {z : List F} {dom dom2 : Domain F} (hcirc : Circuit a b mats z dom dom2)
    {pa pb pc : Nat → F[X]} (hqap : IsQap mats z.length dom.groupGen (2 ^ (a + b)) pa pb pc) {t : Toxic F} {g1 : G1} {g2 : G2}
    {pk : ProvingKey G1 G2}
    (hk : IsCircomKey t g1 g2 z.length mats.numInstanceVariables (2 ^ (a + b)) dom2.groupGen pa pb pc pk) (hγ : t.gamma ≠ 0)
    (hδ : t.delta ≠ 0) (hal : dbg = true → KeyAligned (2 ^ b) pk) (gen1 : G1) (gen2 : G2) {copies : Nat} {r s : F}
    (tape : ClientTape F G1 G2) {rs ss : List F} (hrs : pp.pack dbg (List.replicate copies r) tape.r = .ok rs)
    (hss : pp.pack dbg (List.replicate copies s) tape.s = .ok ss) (hrl : rs.length = 4 * 2 ^ b) (hsl : ss.length = 4 * 2 ^ b)
    (hr : HoldsValue pp b (fun p => rs.getD p 0) r) (hs : HoldsValue pp b (fun p => ss.getD p 0) s)
    (hr0 : (∀ p < 4 * 2 ^ b, rs.getD p 0 ≠ 0) ∨ ∀ p < 4 * 2 ^ b, rs.getD p 0 = 0) (rng : Nat → Nat → Nat → F) :
    ∃ (ins : Nat → ServerInput F G1 G2) (outs : Nat → G1 × G2 × G1) (D : F[X]) (pA : G1) (pB : G2) (pC : G1),
      pp.deal dbg copies mats z pk gen1 gen2 r s tape = .ok ((List.range (4 * 2 ^ b)).map ins) ∧
      AlwaysYields (Net.init fun i : Fin (4 * 2 ^ b) => (ins i).run pp dbg (4 * 2 ^ b) i rng) (fun i => outs i) ∧
      (∀ lim, max (8 + 2 ^ a * FixedWire.width F) (max (FixedWire.width G1) (FixedWire.width G2)) ≤ lim →
        AlwaysYieldsWithin lim (Net.init fun i : Fin (4 * 2 ^ b) => (ins i).run pp dbg (4 * 2 ^ b) i rng) (fun i => outs i)) ∧
      (∀ lim, lim < 8 + 2 ^ a * FixedWire.width F → ∀ i : Fin (4 * 2 ^ b), i.val ≠ 0 →
        NeverFinishes lim (Net.init fun i : Fin (4 * 2 ^ b) => (ins i).run pp dbg (4 * 2 ^ b) i rng) i) ∧
      pp.openProof dbg ((List.range (4 * 2 ^ b)).map outs) = .ok (pA, pB, pC) ∧
      Interpolates dom.groupGen (2 ^ (a + b)) (fun i => if i < mats.numConstraints then
        dot (mats.a.getD i []) z * dot (mats.b.getD i []) z - dot (mats.c.getD i []) z else 0) D ∧
      ((z.take mats.numInstanceVariables).drop 1).length + 1 = pk.vk.gammaAbcG1.length ∧
      (∀ e : G1 →ₗ[F] G2 →ₗ[F] GT, e pA pB = e pk.vk.alphaG1 pk.vk.betaG2 +
        e (pk.vk.gammaAbcG1.getD 0 0 + ∑ i ∈ range ((z.take mats.numInstanceVariables).drop 1).length,
          ((z.take mats.numInstanceVariables).drop 1).getD i 0 • pk.vk.gammaAbcG1.getD (i + 1) 0) pk.vk.gammaG2 +
        e pC pk.vk.deltaG2 + D.eval t.tau • e g1 g2) ∧
      (∀ i < 2 ^ (a + b), (combine z pa * combine z pb - combine z pc - D).eval (dom.groupGen ^ i) = 0) ∧
      IsGroth16Proof t g1 g2 mats.numInstanceVariables pa pb pc z
        ((combine z pa * combine z pb - combine z pc - D).eval t.tau) r s pA pB pC := by
  obtain ⟨ins, outs, D, pA, pB, pC, h1, h2, h3, h4, h5, h6, h7, h8, h9, h10, -⟩ := session_full (GT := GT) hpp dbg a ha hcirc hqap hk hγ hδ hal
    gen1 gen2 tape hrs hss hrl hsl hr hs hr0 rng
  exact ⟨ins, outs, D, pA, pB, pC, h1, h2, h3, h4, h5, h6, h7, h8, h9, h10⟩

theorem holdsValue_replicate {dbg₀ : Bool} {b : Nat} {pp : PSS F} (hpp : PSS.new dbg₀ (2 ^ b) = .ok pp) (x : F) :
    HoldsValue pp b (fun p => (List.replicate (4 * 2 ^ b) x).getD p 0) x := by
  have h := SharedValue.const (pp := pp) (d := 2 * 2 ^ b) (by positivity) x
  rw [PSS.SharedValue, l_eq hpp] at h
  rw [HoldsValue, Spec.SharedValue] at *
  refine cast ?_ h
  congr 1
  apply List.map_congr_left
  intro p hp
  rw [getD_replicate', if_pos (List.mem_range.1 hp)]

/-- The session of the example as it is written, in a release build. -/
theorem example_session {dbg₀ : Bool} {b : Nat} {pp : PSS F} (hpp : PSS.new dbg₀ (2 ^ b) = .ok pp) (a : Nat) (ha : a < 64)
    {mats : ConstraintMatrices F} {z : List F} {dom dom2 : Domain F} (hcirc : Circuit a b mats z dom dom2)
    {pa pb pc : Nat → F[X]} (hqap : IsQap mats z.length dom.groupGen (2 ^ (a + b)) pa pb pc) {t : Toxic F} {g1 : G1} {g2 : G2}
    {pk : ProvingKey G1 G2}
    (hk : IsCircomKey t g1 g2 z.length mats.numInstanceVariables (2 ^ (a + b)) dom2.groupGen pa pb pc pk) (hγ : t.gamma ≠ 0)
    (hδ : t.delta ≠ 0) (gen1 : G1) (gen2 : G2) (r s : F) (tape : ClientTape F G1 G2) (rng : Nat → Nat → Nat → F) :
    ∃ (ins : Nat → ServerInput F G1 G2) (outs : Nat → G1 × G2 × G1) (D : F[X]) (pA : G1) (pB : G2) (pC : G1),
      pp.deal false pp.n mats z pk gen1 gen2 r s tape = .ok ((List.range (4 * 2 ^ b)).map ins) ∧
      AlwaysYields (Net.init fun i : Fin (4 * 2 ^ b) => (ins i).run pp false (4 * 2 ^ b) i rng) (fun i => outs i) ∧
      (∀ lim, max (8 + 2 ^ a * FixedWire.width F) (max (FixedWire.width G1) (FixedWire.width G2)) ≤ lim →
        AlwaysYieldsWithin lim (Net.init fun i : Fin (4 * 2 ^ b) => (ins i).run pp false (4 * 2 ^ b) i rng) (fun i => outs i)) ∧
      (∀ lim, lim < 8 + 2 ^ a * FixedWire.width F → ∀ i : Fin (4 * 2 ^ b), i.val ≠ 0 →
        NeverFinishes lim (Net.init fun i : Fin (4 * 2 ^ b) => (ins i).run pp false (4 * 2 ^ b) i rng) i) ∧
      pp.openProof false ((List.range (4 * 2 ^ b)).map outs) = .ok (pA, pB, pC) ∧
      Interpolates dom.groupGen (2 ^ (a + b)) (fun i => if i < mats.numConstraints then
        dot (mats.a.getD i []) z * dot (mats.b.getD i []) z - dot (mats.c.getD i []) z else 0) D ∧
      ((z.take mats.numInstanceVariables).drop 1).length + 1 = pk.vk.gammaAbcG1.length ∧
      (∀ e : G1 →ₗ[F] G2 →ₗ[F] GT, e pA pB = e pk.vk.alphaG1 pk.vk.betaG2 +
        e (pk.vk.gammaAbcG1.getD 0 0 + ∑ i ∈ range ((z.take mats.numInstanceVariables).drop 1).length,
          ((z.take mats.numInstanceVariables).drop 1).getD i 0 • pk.vk.gammaAbcG1.getD (i + 1) 0) pk.vk.gammaG2 +
        e pC pk.vk.deltaG2 + D.eval t.tau • e g1 g2) ∧
      (∀ i < 2 ^ (a + b), (combine z pa * combine z pb - combine z pc - D).eval (dom.groupGen ^ i) = 0) ∧
      IsGroth16Proof t g1 g2 mats.numInstanceVariables pa pb pc z
        ((combine z pa * combine z pb - combine z pc - D).eval t.tau) r s pA pB pC := by
  refine session (GT := GT) hpp false a ha hcirc hqap hk hγ hδ (fun h => by cases h) gen1 gen2 tape (C37_release_reveals hpp r tape.r)
    (C37_release_reveals hpp s tape.s) (by simp) (by simp) (holdsValue_replicate hpp r) (holdsValue_replicate hpp s) ?_ rng
  by_cases h : r = 0
  · exact .inr fun p hp => by rw [getD_replicate', if_pos hp, h]
  · exact .inl fun p hp => by rw [getD_replicate', if_pos hp]; exact h

theorem errors_zero {mats : ConstraintMatrices F} {z : List F} {ω : F} {m : Nat} (hω : IsPrimitiveRoot ω m)
    (hm : mats.numConstraints ≤ m) {D : F[X]}
    (hD : Interpolates ω m (fun i => if i < mats.numConstraints then
        dot (mats.a.getD i []) z * dot (mats.b.getD i []) z - dot (mats.c.getD i []) z else 0) D) :
    D = 0 ↔ Satisfies mats.numConstraints mats.a mats.b mats.c z := by
  constructor
  · rintro rfl i hi
    have := hD.2 i (by omega)
    simp only [eval_zero, if_pos hi] at this
    exact sub_eq_zero.1 this.symm
  · intro h
    refine Interpolates.unique hω hD ⟨by rw [degree_zero]; exact WithBot.bot_lt_coe _, fun i _ => ?_⟩
    rw [eval_zero]
    dsimp only
    split
    · rename_i hi; rw [h i hi, sub_self]
    · rfl

/-- **C35** The distributed proof verifies. The client deals the shares of the program, of the key and of a satisfying assignment, and
packs `l` copies of `r` and of `s`; the servers run; the client opens three group elements. Under every schedule they satisfy the
verification equation, for every bilinear map. (The shares of `r` must not be zero, see C36; a debug build needs the lengths of the
query vectors to be multiples of `l`, see C33.) -/
theorem C35_proof_verifies {dbg₀ : Bool} {b : Nat} {pp : PSS F} (hpp : PSS.new dbg₀ (2 ^ b) = .ok pp) (dbg : Bool) (a : Nat) (ha : a < 64)
    {mats : ConstraintMatrices F} {z : List F} {dom dom2 : Domain F} (hcirc : Circuit a b mats z dom dom2)
    (hsat : Satisfies mats.numConstraints mats.a mats.b mats.c z) {pa pb pc : Nat → F[X]}
    (hqap : IsQap mats z.length dom.groupGen (2 ^ (a + b)) pa pb pc) {t : Toxic F} {g1 : G1} {g2 : G2} {pk : ProvingKey G1 G2}
    (hk : IsCircomKey t g1 g2 z.length mats.numInstanceVariables (2 ^ (a + b)) dom2.groupGen pa pb pc pk) (hγ : t.gamma ≠ 0)
    (hδ : t.delta ≠ 0) (hal : dbg = true → KeyAligned (2 ^ b) pk) (gen1 : G1) (gen2 : G2) (r s : F) (tape : ClientTape F G1 G2)
    (hr0 : ∀ rs, pp.pack dbg (List.replicate (2 ^ b) r) tape.r = .ok rs → (∀ x ∈ rs, x ≠ 0) ∨ ∀ x ∈ rs, x = 0)
    (rng : Nat → Nat → Nat → F) :
    ∃ (ins : Nat → ServerInput F G1 G2) (outs : Nat → G1 × G2 × G1) (pA : G1) (pB : G2) (pC : G1),
      pp.deal dbg (2 ^ b) mats z pk gen1 gen2 r s tape = .ok ((List.range (4 * 2 ^ b)).map ins) ∧
      AlwaysYields (Net.init fun i : Fin (4 * 2 ^ b) => (ins i).run pp dbg (4 * 2 ^ b) i rng) (fun i => outs i) ∧
      pp.openProof dbg ((List.range (4 * 2 ^ b)).map outs) = .ok (pA, pB, pC) ∧
      ∀ e : G1 →ₗ[F] G2 →ₗ[F] GT, Verifies e pk.vk ((z.take mats.numInstanceVariables).drop 1) pA pB pC := by
  obtain ⟨rs, er, lr, hr⟩ := pack_holdsValue hpp dbg r tape.r
  obtain ⟨ss, es, ls, hs⟩ := pack_holdsValue hpp dbg s tape.s
  obtain ⟨ins, outs, D, pA, pB, pC, h1, h2, -, -, h3, h4, h5, h6, -⟩ := session (GT := GT) hpp dbg a ha hcirc hqap hk hγ hδ hal gen1 gen2 tape er es lr ls hr hs
    (by
      refine (hr0 rs er).imp (fun h p hp => ?_) (fun h p hp => ?_) <;>
        exact h _ (by rw [List.getD_eq_getElem _ _ (by omega)]; exact List.getElem_mem _)) rng
  have hD : D = 0 := (errors_zero hcirc.prim hcirc.le h4).2 hsat
  refine ⟨ins, outs, pA, pB, pC, h1, h2, h3, fun e => ⟨h5, ?_⟩⟩
  rw [h6 e, hD, eval_zero, zero_smul, add_zero]

/-- **C35** The example as it is written packs `n` copies of `r` and `s` (C37): in a release build the proof verifies, with no
condition on `r`. -/
theorem C35_example_release {dbg₀ : Bool} {b : Nat} {pp : PSS F} (hpp : PSS.new dbg₀ (2 ^ b) = .ok pp) (a : Nat) (ha : a < 64)
    {mats : ConstraintMatrices F} {z : List F} {dom dom2 : Domain F} (hcirc : Circuit a b mats z dom dom2)
    (hsat : Satisfies mats.numConstraints mats.a mats.b mats.c z) {pa pb pc : Nat → F[X]}
    (hqap : IsQap mats z.length dom.groupGen (2 ^ (a + b)) pa pb pc) {t : Toxic F} {g1 : G1} {g2 : G2} {pk : ProvingKey G1 G2}
    (hk : IsCircomKey t g1 g2 z.length mats.numInstanceVariables (2 ^ (a + b)) dom2.groupGen pa pb pc pk) (hγ : t.gamma ≠ 0)
    (hδ : t.delta ≠ 0) (gen1 : G1) (gen2 : G2) (r s : F) (tape : ClientTape F G1 G2) (rng : Nat → Nat → Nat → F) :
    ∃ (ins : Nat → ServerInput F G1 G2) (outs : Nat → G1 × G2 × G1) (pA : G1) (pB : G2) (pC : G1),
      pp.deal false pp.n mats z pk gen1 gen2 r s tape = .ok ((List.range (4 * 2 ^ b)).map ins) ∧
      AlwaysYields (Net.init fun i : Fin (4 * 2 ^ b) => (ins i).run pp false (4 * 2 ^ b) i rng) (fun i => outs i) ∧
      pp.openProof false ((List.range (4 * 2 ^ b)).map outs) = .ok (pA, pB, pC) ∧
      ∀ e : G1 →ₗ[F] G2 →ₗ[F] GT, Verifies e pk.vk ((z.take mats.numInstanceVariables).drop 1) pA pB pC := by
  obtain ⟨ins, outs, D, pA, pB, pC, h1, h2, -, -, h3, h4, h5, h6, -⟩ := example_session (GT := GT) hpp a ha hcirc hqap hk hγ hδ gen1 gen2 r s tape rng
  have hD : D = 0 := (errors_zero hcirc.prim hcirc.le h4).2 hsat
  refine ⟨ins, outs, pA, pB, pC, h1, h2, h3, fun e => ⟨h5, ?_⟩⟩
  rw [h6 e, hD, eval_zero, zero_smul, add_zero]

/-- **C35** The verifier accepts nothing else: for an assignment that breaks a constraint the servers run as before, and the opened
proof is accepted only if the secret point `τ` of the set-up is a root of a fixed non-zero polynomial of degree below the size of
the domain. -/
theorem C35_wrong_assignment {dbg₀ : Bool} {b : Nat} {pp : PSS F} (hpp : PSS.new dbg₀ (2 ^ b) = .ok pp) (a : Nat) (ha : a < 64)
    {mats : ConstraintMatrices F} {z : List F} {dom dom2 : Domain F} (hcirc : Circuit a b mats z dom dom2)
    (hsat : ¬ Satisfies mats.numConstraints mats.a mats.b mats.c z) :
    ∃ D : F[X], D ≠ 0 ∧ D.degree < (2 ^ (a + b) : Nat) ∧ ∀ {pa pb pc : Nat → F[X]}
      (_ : IsQap mats z.length dom.groupGen (2 ^ (a + b)) pa pb pc) {t : Toxic F} {g1 : G1} {g2 : G2} {pk : ProvingKey G1 G2}
      (_ : IsCircomKey t g1 g2 z.length mats.numInstanceVariables (2 ^ (a + b)) dom2.groupGen pa pb pc pk) (_ : t.gamma ≠ 0)
      (_ : t.delta ≠ 0) (gen1 : G1) (gen2 : G2) (r s : F) (tape : ClientTape F G1 G2) (rng : Nat → Nat → Nat → F),
    ∃ (ins : Nat → ServerInput F G1 G2) (outs : Nat → G1 × G2 × G1) (pA : G1) (pB : G2) (pC : G1),
      pp.deal false pp.n mats z pk gen1 gen2 r s tape = .ok ((List.range (4 * 2 ^ b)).map ins) ∧
      AlwaysYields (Net.init fun i : Fin (4 * 2 ^ b) => (ins i).run pp false (4 * 2 ^ b) i rng) (fun i => outs i) ∧
      pp.openProof false ((List.range (4 * 2 ^ b)).map outs) = .ok (pA, pB, pC) ∧
      ∀ e : G1 →ₗ[F] G2 →ₗ[F] GT, e g1 g2 ≠ 0 →
        (Verifies e pk.vk ((z.take mats.numInstanceVariables).drop 1) pA pB pC ↔ D.eval t.tau = 0) := by
  have hprim := hcirc.prim
  have hsz := hcirc.le
  obtain ⟨D, hD⟩ := Interpolates.exists (Domain.new_wf hcirc.domain).1 (Domain.new_wf hcirc.domain).2 ((List.range dom.size).map fun i => if i < mats.numConstraints then
        dot (mats.a.getD i []) z * dot (mats.b.getD i []) z - dot (mats.c.getD i []) z else 0) (by simp)
  rw [hcirc.size] at hD
  have hD := ZkSaas.Interpolates.congr hD fun i hi => by rw [getD_map_range, if_pos hi]
  refine ⟨D, fun h => hsat ((errors_zero hprim hsz hD).1 h), hD.1, ?_⟩
  intro pa pb pc hqap t g1 g2 pk hk hγ hδ gen1 gen2 r s tape rng
  obtain ⟨ins, outs, D', pA, pB, pC, h1, h2, -, -, h3, h4, h5, h6, -⟩ := example_session (GT := GT) hpp a ha hcirc hqap hk hγ hδ gen1 gen2 r s tape rng
  obtain rfl := Interpolates.unique hprim hD h4
  refine ⟨ins, outs, pA, pB, pC, h1, h2, h3, fun e he => ⟨fun h => ?_, fun h => ⟨h5, ?_⟩⟩⟩
  · have := h.2
    rw [h6 e, add_eq_left] at this
    exact (smul_eq_zero.1 this).resolve_right he
  · rw [h6 e, h, zero_smul, add_zero]

/-- **C35** In a debug build the example as it is written never gets to run the servers (C37). -/
theorem C35_example_debug_panics {dbg₀ : Bool} {b : Nat} {pp : PSS F} (hpp : PSS.new dbg₀ (2 ^ b) = .ok pp) (a : Nat)
    {mats : ConstraintMatrices F} {z : List F} {dom dom2 : Domain F} (hcirc : Circuit a b mats z dom dom2) (pk : ProvingKey G1 G2)
    (gen1 : G1) (gen2 : G2) (r s : F) (tape : ClientTape F G1 G2) :
    pp.deal true pp.n mats z pk gen1 gen2 r s tape = panic' := by
  obtain ⟨q, eq, -⟩ := C29_qap mats z hcirc.domain hcirc.rowsA hcirc.rowsB hcirc.colsA hcirc.colsB hcirc.wires
  unfold PSS.deal
  simp only [eq, ok_bind, unwrap_some, C37_debug_panics hpp]
  rfl

/-- **C35** Keys as assumed above exist for every circuit and all secrets of the set-up. -/
theorem C35_key_exists {a b : Nat} {mats : ConstraintMatrices F} {z : List F} {dom dom2 : Domain F} (hcirc : Circuit a b mats z dom dom2)
    (t : Toxic F) (g1 : G1) (g2 : G2) :
    ∃ (pa pb pc : Nat → F[X]) (pk : ProvingKey G1 G2), IsQap mats z.length dom.groupGen (2 ^ (a + b)) pa pb pc ∧
      IsCircomKey t g1 g2 z.length mats.numInstanceVariables (2 ^ (a + b)) dom2.groupGen pa pb pc pk := by
  have key : ∀ v : Nat → Nat → F, ∃ P : Nat → F[X], ∀ k, Interpolates dom.groupGen (2 ^ (a + b)) (v k) (P k) := by
    intro v
    refine Classical.skolem.1 fun k => ?_
    obtain ⟨D, hD⟩ := Interpolates.exists (Domain.new_wf hcirc.domain).1 (Domain.new_wf hcirc.domain).2
      ((List.range dom.size).map (v k)) (by simp)
    rw [hcirc.size] at hD
    exact ⟨D, ZkSaas.Interpolates.congr hD fun i hi => by rw [getD_map_range, if_pos hi]⟩
  obtain ⟨pa, hpa⟩ := key fun k i => if i < mats.numConstraints then entry mats.a i k else
    if i = mats.numConstraints + k ∧ k < mats.numInstanceVariables then 1 else 0
  obtain ⟨pb, hpb⟩ := key fun k i => if i < mats.numConstraints then entry mats.b i k else 0
  obtain ⟨pc, hpc⟩ := key fun k i => if i < mats.numConstraints then entry mats.c i k else 0
  exact ⟨pa, pb, pc, ⟨⟨_, _, _, _, _⟩, _, _, _, _, _, _, _⟩, ⟨fun k _ => hpa k, fun k _ => hpb k, fun k _ => hpc k⟩,
    ⟨rfl, rfl, rfl, rfl, rfl, rfl, rfl, rfl, rfl, rfl, rfl, rfl⟩⟩

end session

/-! ### Example -/

theorem circuit17 : Circuit 1 1 mats17 z17 dom17 dom17b where
  domain := by decide +kernel
  size := rfl
  double := dom17b_eq
  rowsA := rfl
  rowsB := rfl
  colsA := mats17_cols.1
  colsB := mats17_cols.2
  colsC := by intro row hr t ht; simp [mats17] at hr; subst hr; simp at ht; subst ht; decide
  inputs := by decide
  wires := by decide
  one := rfl

/-- The chain on the circuit `x·x = y`, both groups `F17` with multiplication as pairing: the proof of `y = 9` is accepted. -/
example (tape : ClientTape (ZMod 17) (ZMod 17) (ZMod 17)) : ∃ (pk : ProvingKey (ZMod 17) (ZMod 17))
    (ins : Nat → ServerInput (ZMod 17) (ZMod 17) (ZMod 17)) (outs : Nat → ZMod 17 × ZMod 17 × ZMod 17) (pA pB pC : ZMod 17),
    pp17.deal false 8 mats17 z17 pk 1 1 5 6 tape = .ok ((List.range 8).map ins) ∧
    AlwaysYields (Net.init fun i : Fin (4 * 2 ^ 1) => (ins i).run pp17 false (4 * 2 ^ 1) i fun _ i j => i + j) (fun i => outs i) ∧
    pp17.openProof false ((List.range 8).map outs) = .ok (pA, pB, pC) ∧
    Verifies (LinearMap.mul (ZMod 17) (ZMod 17)) pk.vk [9] pA pB pC := by
  obtain ⟨pa, pb, pc, pk, h1, h2⟩ := C35_key_exists circuit17 (⟨2, 3, 4, 5, 6⟩ : Toxic (ZMod 17)) (1 : ZMod 17) (1 : ZMod 17)
  obtain ⟨ins, outs, pA, pB, pC, h3, h4, h5, h6⟩ := C35_example_release (GT := ZMod 17) (pp17_eq true) 1 (by norm_num) circuit17 mats17_sat h1 h2
    (by decide) (by decide) 1 1 5 6 tape fun _ i j => i + j
  exact ⟨pk, ins, outs, pA, pB, pC, h3, h4, h5, h6 _⟩

/-- An assignment that breaks a constraint. -/
example : ¬ Satisfies mats17.numConstraints mats17.a mats17.b mats17.c [1, 9, 4] := fun h => absurd (h 0 (by decide)) (by decide +kernel)

/-- Examples for C35: packed shares of `r = 5`, none of them zero; and the debug build of the example program. -/
example (tape : ClientTape (ZMod 17) (ZMod 17) (ZMod 17)) (ht : tape.r = fun _ => 1) : ∃ (pk : ProvingKey (ZMod 17) (ZMod 17))
    (ins : Nat → ServerInput (ZMod 17) (ZMod 17) (ZMod 17)) (outs : Nat → ZMod 17 × ZMod 17 × ZMod 17) (pA pB pC : ZMod 17),
    pp17.deal false 2 mats17 z17 pk 1 1 5 6 tape = .ok ((List.range 8).map ins) ∧
    AlwaysYields (Net.init fun i : Fin (4 * 2 ^ 1) => (ins i).run pp17 false (4 * 2 ^ 1) i fun _ i j => i + j) (fun i => outs i) ∧
    pp17.openProof false ((List.range 8).map outs) = .ok (pA, pB, pC) ∧
    Verifies (LinearMap.mul (ZMod 17) (ZMod 17)) pk.vk [9] pA pB pC := by
  obtain ⟨pa, pb, pc, pk, h1, h2⟩ := C35_key_exists circuit17 (⟨2, 3, 4, 5, 6⟩ : Toxic (ZMod 17)) (1 : ZMod 17) (1 : ZMod 17)
  obtain ⟨ins, outs, pA, pB, pC, h3, h4, h5, h6⟩ := C35_proof_verifies (GT := ZMod 17) (pp17_eq true) false 1 (by norm_num) circuit17 mats17_sat
    h1 h2 (by decide) (by decide) (by simp) 1 1 5 6 tape (by
      intro rs h
      left
      rw [ht] at h
      have : ∀ rs, pp17.pack false (List.replicate (2 ^ 1) (5 : ZMod 17)) (fun _ => 1) = .ok rs → ∀ x ∈ rs, x ≠ 0 := by
        have : ∀ x ∈ (match pp17.pack false (List.replicate (2 ^ 1) (5 : ZMod 17)) (fun _ => 1) with | .ok rs => rs | .error _ => []), x ≠ 0 := by
          decide +kernel
        intro rs h
        rwa [h] at this
      exact this rs h) fun _ i j => i + j
  exact ⟨pk, ins, outs, pA, pB, pC, h3, h4, h5, h6 _⟩

example (pk : ProvingKey (ZMod 17) (ZMod 17)) (tape : ClientTape (ZMod 17) (ZMod 17) (ZMod 17)) :
    pp17.deal true 8 mats17 z17 pk 1 1 5 6 tape = panic' :=
  C35_example_debug_panics (pp17_eq true) 1 circuit17 pk 1 1 5 6 tape

/-- Example for C35: the prover of a wrong root still finishes; the polynomial says at which `τ` the verifier is fooled. -/
theorem circuit17w : Circuit 1 1 mats17 [1, 9, 4] dom17 dom17b where
  domain := by decide +kernel
  size := rfl
  double := dom17b_eq
  rowsA := rfl
  rowsB := rfl
  colsA := mats17_cols.1
  colsB := mats17_cols.2
  colsC := circuit17.colsC
  inputs := circuit17.inputs
  wires := circuit17.wires
  one := rfl

example (tape : ClientTape (ZMod 17) (ZMod 17) (ZMod 17)) : ∃ (D : (ZMod 17)[X]) (pk : ProvingKey (ZMod 17) (ZMod 17))
    (ins : Nat → ServerInput (ZMod 17) (ZMod 17) (ZMod 17)) (outs : Nat → ZMod 17 × ZMod 17 × ZMod 17) (pA pB pC : ZMod 17), D ≠ 0 ∧
    pp17.deal false 8 mats17 [1, 9, 4] pk 1 1 5 6 tape = .ok ((List.range 8).map ins) ∧
    AlwaysYields (Net.init fun i : Fin (4 * 2 ^ 1) => (ins i).run pp17 false (4 * 2 ^ 1) i fun _ i j => i + j) (fun i => outs i) ∧
    (Verifies (LinearMap.mul (ZMod 17) (ZMod 17)) pk.vk [9] pA pB pC ↔ D.eval 6 = 0) := by
  obtain ⟨pa, pb, pc, pk, h1, h2⟩ := C35_key_exists circuit17w (⟨2, 3, 4, 5, 6⟩ : Toxic (ZMod 17)) (1 : ZMod 17) (1 : ZMod 17)
  obtain ⟨D, hD, -, h⟩ := C35_wrong_assignment (G1 := ZMod 17) (G2 := ZMod 17) (GT := ZMod 17) (pp17_eq true) 1 (by norm_num) circuit17w
    fun h => absurd (h 0 (by decide)) (by decide +kernel)
  obtain ⟨ins, outs, pA, pB, pC, h3, h4, -, h6⟩ := h h1 h2 (by decide) (by decide) 1 1 5 6 tape fun _ i j => i + j
  exact ⟨D, pk, ins, outs, pA, pB, pC, hD, h3, h4, h6 (LinearMap.mul (ZMod 17) (ZMod 17)) (by simp)⟩

end ZkSaas.Properties
