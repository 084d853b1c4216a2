import Verif.Lemmas.LocalDfft
import Verif.Properties.Refs
import Verif.Properties.Protocols

/-! The example programs of `dist-primitives` succeed for all inputs (C64). -/

set_option linter.unusedSectionVars false

namespace ZkSaas

open Finset Spec

section
variable {n : Nat} {α : Type} {P : Bytes → Prop}

/-- A round in which everybody sends and the king computes. -/
theorem runs_gather {T U : Type} [Wire T] (hn : 0 < n) (sid : Sid) (threshold : Nat) (x : Nat → T)
    (hx : ∀ i < n, Wire.Ok (x i)) (K : Fin n → ReceivedShares T → Res U) (u : U)
    (hK : K ⟨0, hn⟩ ⟨(List.range n).map x, List.range n⟩ = .ok u) (f : Fin n → Option U → Proc α) {out : Fin n → α}
    (hf : Runs P (only sid) (fun i => f i (if i.val = 0 then some u else none)) out)
    (hPx : ∀ i < n, i ≠ 0 → P (Wire.enc (x i)) := by intros; exact True.intro) :
    Runs P (only sid) (fun i : Fin n => (clientSendOrKingReceiveSer n i (x i) sid threshold).bind fun r =>
      (Proc.done (kingDo (K i) r)).bind (f i)) out := by
  refine Runs.bind (S := only sid) (ps := fun i : Fin n => clientSendOrKingReceiveSer n i (x i) sid threshold)
    (rs := fun i => if i.val = 0 then some (ReceivedShares.mk ((List.range n).map x) (List.range n)) else none)
    (fun Q hQ => reach_sendReceive hn sid threshold x hx Q (fun i => hQ i 0 sid rfl) hPx) ?_
  refine Runs.lift_bind (rs := fun i => if i.val = 0 then some u else none) (fun i => ?_) hf
  by_cases hi : i.val = 0
  · have : i = ⟨0, hn⟩ := Fin.ext hi
    subst this
    simp only [if_true, kingDo, hK]
    rfl
  · simp only [hi, if_false, kingDo]

end

variable {F : Type} [Field F] [DecidableEq F]

theorem openRows_opened {T : Type} [AddCommGroup T] [Module F T] [DecidableEq T] {pp : PSS F} (hl : 0 < pp.l) {N : Nat}
    (hN : 0 < N) {outs : Nat → List T} (h : ∀ p < 4 * pp.l, (outs p).length = N) :
    pp.openRows ((List.range (4 * pp.l)).map outs) = .ok (opened pp N outs) := by
  have ht : transpose ((List.range (4 * pp.l)).map outs) =
      .ok ((List.range N).map fun c => (List.range (4 * pp.l)).map fun p => (outs p).getD c 0) := by
    rw [transpose_ok _ 0 (cols := N) (by simp; omega) _ hN]
    · congr 1
      apply List.map_congr_left
      intro c _
      rw [List.length_map, List.length_range]
      apply List.map_congr_left
      intro p hp
      rw [getD_map_range, if_pos (List.mem_range.1 hp)]
    · intro r hr
      rw [List.length_map, List.length_range] at hr
      rw [getD_map_range, if_pos hr, h r hr]
    · rw [getD_map_range, if_pos (by omega), h 0 (by omega)]
  rw [PSS.openRows, ht, ok_bind, opened, List.map_map]
  rfl

theorem sum_smul_chunks {G : Type} [AddCommGroup G] [Module F G] (l N : Nat) (x : Nat → F) (y : Nat → G) :
    ∑ i ∈ range (N * l), x i • y i = ∑ k ∈ range l, ∑ c ∈ range N, (chunks l x c).getD k 0 • (chunks l y c).getD k 0 := by
  rw [sum_comm]
  have : ∑ i ∈ range (N * l), x i • y i = ∑ c ∈ range N, ∑ k ∈ range l, x (c * l + k) • y (c * l + k) := by
    induction N with
    | zero => simp
    | succ N ih => rw [Nat.add_mul, Nat.one_mul, sum_range_add, ih, sum_range_succ]
  rw [this]
  apply sum_congr rfl
  intro c _
  apply sum_congr rfl
  intro k hk
  have hk := mem_range.1 hk
  unfold chunks
  rw [getD_map_range, if_pos hk, getD_map_range, if_pos hk]

variable [FftField F]

namespace Properties

section net
variable [FixedWire F]

/-- **C64** `local_dfft_test`: for every vector the transform on one machine gives `dom.fft(x)`. -/
theorem C64_local_dfft {dbg₀ : Bool} {b : Nat} {pp : PSS F} (hpp : PSS.new dbg₀ (2 ^ b) = .ok pp) (a : Nat)
    {dom : Domain F} (hdom : Domain.new (2 ^ (a + b)) = some dom) (x : List F) (hx : x.length = 2 ^ (a + b)) :
    pp.localDfft dom x = .ok (dom.fft x) := by
  obtain ⟨hwf, hoff, -, hsize⟩ := Domain.new_pow2 hdom
  rw [PSS.localDfft_eq (l_eq hpp) hsize hoff (hsize ▸ hwf.prim) x hx]
  congr 1
  apply list_ext_getD 0 (by simp [hsize])
  intro k hk
  rw [List.length_map, List.length_range] at hk
  rw [getD_map_range, if_pos hk, Domain.sum_eq_fft hoff hsize _ hk]

/-- **C64** `d_fft_test`: for every vector, all randomness and every schedule all parties finish, that is, no assertion fails. -/
theorem C64_d_fft_test {dbg₀ : Bool} {b : Nat} {pp : PSS F} (hpp : PSS.new dbg₀ (2 ^ b) = .ok pp) (dbg : Bool) (a : Nat)
    (ha : a < 64) {dom : Domain F} (hdom : Domain.new (2 ^ (a + b)) = some dom) (x : List F) (hx : x.length = 2 ^ (a + b))
    (rng₀ rng : Nat → Nat → F) :
    AlwaysYields (Net.init fun i : Fin (4 * 2 ^ b) => pp.dFftTest dbg (4 * 2 ^ b) i x dom rng₀ rng) (fun _ => ()) := by
  have hle := l_eq hpp
  have hg := PSS.good_of_new hpp
  have hn : 0 < 4 * 2 ^ b := by positivity
  obtain ⟨hwf, hoff, -, hsize⟩ := Domain.new_pow2 hdom
  have hm : dom.size / pp.l = 2 ^ a := by rw [hsize, hle, pow_add, Nat.mul_div_cancel _ (by positivity)]
  obtain ⟨rows, e, hcol, hs⟩ := PSS.packQapVec_shares hg dbg hle x hx rng₀
  have hin : HoldsInput pp a b (fun p => rows.map fun y => y.getD p 0) x :=
    HoldsOutput.input ⟨hx, by rw [PSS.SharedVec, hle] at hs; exact hs⟩
  obtain ⟨outs, hr, ho⟩ := dFft_runs hpp dbg a ha hdom hin false (masks := fun _ => FftMask.zero (2 ^ a))
    (.inr fun _ => by rw [← hsize, hm]) .one rng
  have hlen : ∀ p < 4 * 2 ^ b, (outs p).length = 2 ^ a := ho.2.1
  have hprog : ∀ i : Fin (4 * 2 ^ b), pp.dFftTest dbg (4 * 2 ^ b) i x dom rng₀ rng =
      (pp.dFft dbg (4 * 2 ^ b) i (rows.map fun y => y.getD i 0) (FftMask.zero (2 ^ a)) false dom .one rng).bind fun o =>
        (clientSendOrKingReceiveSer (4 * 2 ^ b) i o .one pp.t).bind fun r =>
          (Proc.done (kingDo (fun rs : ReceivedShares (List F) => do
            let pevals ← pp.openRows rs.shares
            if i.val = 0 then assert (dom.fft x == pevals) else pure ()) r)).bind fun _ => .done (.ok ()) := by
    intro i
    unfold PSS.dFftTest
    rw [PSS.packQapVec, fftInPlaceRearrange_eq (a + b) _ 0 hx, ok_bind, PSS.packStrided, assert_of (by simp [hle]), ok_bind,
      List.length_map, List.length_range, ← hsize] at e
    rw [fftInPlaceRearrange_eq (a + b) _ 0 hx, ← hsize]
    show Proc.bind (Proc.done ((List.range (dom.size / pp.l)).mapM _)) _ = _
    rw [e]
    show Proc.bind (Proc.done (column rows i)) _ = _
    rw [hcol i (by rw [hle]; exact i.2)]
    simp only [hm]
    rfl
  refine Runs.alwaysYields (S := only .one) (P := Upto (8 + 2 ^ a * FixedWire.width F)) ?_ fun i => ?_
  · refine Runs.congr ?_ hprog fun _ => rfl
    refine Runs.bind (hr.upto le_rfl) (runs_gather hn .one pp.t outs
      (fun i hi => Wire.ok_list _ (by rw [hlen i hi]; exact Nat.pow_lt_pow_right (by norm_num) ha))
      (fun (i : Fin (4 * 2 ^ b)) (rs : ReceivedShares (List F)) => do
            let pevals ← pp.openRows rs.shares
            if i.val = 0 then assert (dom.fft x == pevals) else pure ()) () ?_ (fun _ _ => .done (.ok ())) (Runs.done _)
      fun i hi _ => by rw [Upto, Wire.enc_list_length, hlen i hi])
    have := (ho.openRows hpp dbg).2
    rw [this, ok_bind, if_pos rfl, assert_of (by simp)]
  · rw [hprog i]
    exact Proc.WF.bind (PSS.dFft_wf _ hn _ _ _ _ _ _ _) fun _ =>
      Proc.WF.bind (sendReceive_wf hn _ _ _ _) fun _ => Proc.WF.bind (.done _ _) fun _ => .done _ _

/-- **C64** `d_pp_test`: for every vector without zeros, all randomness and every schedule all parties finish. -/
theorem C64_d_pp_test {dbg₀ : Bool} {b : Nat} {pp : PSS F} (hpp : PSS.new dbg₀ (2 ^ b) = .ok pp) (dbg : Bool) {N : Nat}
    (hN : 0 < N) (hN64 : N + N < 2 ^ 64) {dom : Domain F} (hsize : dom.size = N * 2 ^ b) (x : List F) (hx : x.length = N * 2 ^ b)
    (h0 : ∀ y ∈ x, y ≠ 0) (masks : Nat → DegRedMask F) (hm : IsDegRedMasks pp N masks) (rng₀ rng rng' : Nat → Nat → F) :
    ∃ px, (do let rows ← pp.packVec dbg x rng₀; transpose rows) = .ok px ∧
      AlwaysYields (Net.init fun i : Fin (4 * 2 ^ b) => pp.dPpTest dbg (4 * 2 ^ b) i (px.getD i []) (masks i) dom rng rng')
        (fun _ => ()) := by
  have hle := l_eq hpp
  have hg := PSS.good_of_new hpp
  have hl := hg.lpos
  have hn : 0 < 4 * 2 ^ b := by positivity
  obtain ⟨px, e, hs⟩ := deal hpp dbg hN x hx rng₀
  refine ⟨px, e, ?_⟩
  rw [← hle] at hs
  have hx0 : ∀ i < N * pp.l, x.getD i 0 ≠ 0 := fun i hi => by
      rw [hle] at hi
      rw [List.getD_eq_getElem _ _ (by omega)]
      exact h0 _ (List.getElem_mem _)
  obtain ⟨outs, hr, ho⟩ := PSS.dPp_runs (n := 4 * 2 ^ b) hg dbg (by rw [hle]) hN hN64 (by omega) (by omega)
    (fun i => x.getD i 0) (fun i => x.getD i 0) hx0 hs hs (hm.ok hpp hN) .one rng rng'
  refine Runs.alwaysYields (S := only .one) (P := Upto (8 + (N + N) * FixedWire.width F)) ?_ fun i => ?_
  · refine Runs.bind hr (runs_gather hn .one pp.t outs
      (fun i hi => Wire.ok_list _ (by rw [ho.1 i (by rw [hle]; exact hi)]; omega))
      (fun (i : Fin (4 * 2 ^ b)) (rs : ReceivedShares (List F)) => do
        let ppPx ← pp.openRows rs.shares
        debugAssert dbg (List.replicate dom.size 1 == ppPx)) () ?_ (fun _ _ => .done (.ok ())) (Runs.done _)
      fun i hi _ => by rw [Upto, Wire.enc_list_length, ho.1 i (by rw [hle]; exact hi)]; gcongr; omega)
    have hop := opened_chunks hg le_rfl ho
    rw [← hle, openRows_opened hl hN ho.1, ok_bind, debugAssert_of]
    rw [hop, beq_iff_eq, hsize, ← hle]
    apply list_ext_getD 0 (by simp)
    intro i hi
    rw [List.length_replicate] at hi
    rw [getD_map_range, if_pos hi, getD_replicate', if_pos hi]
    symm
    refine Finset.prod_eq_one fun j hj => div_self (hx0 j ?_)
    have := mem_range.1 hj
    omega
  · exact Proc.WF.bind (PSS.dPp_wf _ hn _ _ _ _ _ _ _) fun _ =>
      Proc.WF.bind (sendReceive_wf hn _ _ _ _) fun _ => Proc.WF.bind (.done _ _) fun _ => .done _ _

/-- **C64** `d_msm_test`: for all bases and scalars, all randomness and every schedule all parties finish. -/
theorem C64_d_msm_test {G : Type} [AddCommGroup G] [Module F G] [DecidableEq G] [FixedWire G] {dbg₀ : Bool} {b : Nat} {pp : PSS F}
    (hpp : PSS.new dbg₀ (2 ^ b) = .ok pp) (dbg : Bool) {N : Nat}
    (hN : 0 < N) (bases : List G) (scalars : List F) (hb : bases.length = N * 2 ^ b) (hs : scalars.length = N * 2 ^ b)
    (masks : Nat → MsmMask G) (hm : IsMsmMasks pp masks) (rngb : Nat → Nat → G) (rngs : Nat → Nat → F) :
    ∃ (sb : List (List G)) (ss : List (List F)),
      (do let rows ← pp.packVec dbg bases rngb; transpose rows) = .ok sb ∧
      (do let rows ← pp.packVec dbg scalars rngs; transpose rows) = .ok ss ∧
      AlwaysYields (Net.init fun i : Fin (4 * 2 ^ b) =>
        pp.dMsmTest dbg (4 * 2 ^ b) i bases scalars (sb.getD i []) (ss.getD i []) (masks i)) (fun _ => ()) := by
  have hle := l_eq hpp
  have hg := PSS.good_of_new hpp
  have hl := hg.lpos
  have hn : 0 < 4 * 2 ^ b := by positivity
  obtain ⟨sb, eb, hsb⟩ := deal hpp dbg hN bases hb rngb
  obtain ⟨ss, es, hss⟩ := deal hpp dbg hN scalars hs rngs
  refine ⟨sb, ss, eb, es, ?_⟩
  rw [← hle] at hsb hss
  obtain ⟨outs, hr, ho⟩ := PSS.dMsm_runs (n := 4 * 2 ^ b) hg dbg (by rw [hle]) (by omega) (by omega) hsb hss (hm.ok hpp) .one
  have hmsm : msm bases scalars = .ok (∑ k ∈ range pp.l, ∑ c ∈ range N, (chunks pp.l (fun i => scalars.getD i 0) c).getD k 0 •
      (chunks pp.l (fun i => bases.getD i 0) c).getD k 0) := by
    rw [msm_eq hb hs, ← hle, sum_smul_chunks]
  set tot := ∑ k ∈ range pp.l, ∑ c ∈ range N, (chunks pp.l (fun i => scalars.getD i 0) c).getD k 0 •
      (chunks pp.l (fun i => bases.getD i 0) c).getD k 0
  have hprog : ∀ i : Fin (4 * 2 ^ b), pp.dMsmTest dbg (4 * 2 ^ b) i bases scalars (sb.getD i []) (ss.getD i []) (masks i) =
      (pp.dMsm dbg (4 * 2 ^ b) i (sb.getD i []) (ss.getD i []) (masks i) .one).bind fun o =>
        (clientSendOrKingReceiveSer (4 * 2 ^ b) i o .one pp.t).bind fun r =>
          (Proc.done (kingDo (fun rs : ReceivedShares G => do
            let result ← pp.unpackMissingShares dbg rs.shares rs.parties
            let r0 ← rd result 0
            assert (tot == r0)) r)).bind fun _ => .done (.ok ()) := by
    intro i
    unfold PSS.dMsmTest
    rw [hmsm]
    rfl
  refine Runs.alwaysYields (S := only .one) (P := Upto (FixedWire.width G)) ?_ fun i => ?_
  · refine Runs.congr ?_ hprog fun _ => rfl
    refine Runs.bind (hr.upto le_rfl) (runs_gather hn .one pp.t outs (fun i hi => Wire.ok_fixed _)
      (fun (i : Fin (4 * 2 ^ b)) (rs : ReceivedShares G) => do
            let result ← pp.unpackMissingShares dbg rs.shares rs.parties
            let r0 ← rd result 0
            assert (tot == r0)) () ?_ (fun _ _ => .done (.ok ())) (Runs.done _)
      fun i hi _ => (FixedWire.enc_length _).le)
    have := PSS.unpackMissing_of_shares hg dbg (parties := List.range (4 * pp.l)) (Or.inl rfl) (by omega) outs ho
    rw [← hle, this, ok_bind, rd_ok (by simpa using hl) 0, ok_bind, getD_replicate', if_pos hl, assert_of (by simp)]
  · rw [hprog i]
    exact Proc.WF.bind (PSS.dMsm_wf _ hn _ _ _ _ _) fun _ =>
      Proc.WF.bind (sendReceive_wf hn _ _ _ _) fun _ => Proc.WF.bind (.done _ _) fun _ => .done _ _

end net

/-! ### Examples -/

/-- The transform of `0, 1, 2, 3` modulo 17, in two packed slots. -/
example : pp17.localDfft dom17 [0, 1, 2, 3] = .ok [6, 6, 15, 7] := by
  rw [C64_local_dfft (b := 1) (pp17_eq true) 1 dom17_eq [0, 1, 2, 3] rfl]
  decide +kernel

example (dbg : Bool) (rng₀ rng : Nat → Nat → ZMod 17) : AlwaysYields (Net.init fun i : Fin (4 * 2 ^ 1) =>
    pp17.dFftTest dbg (4 * 2 ^ 1) i [0, 1, 2, 3] dom17 rng₀ rng) (fun _ => ()) :=
  C64_d_fft_test (b := 1) (pp17_eq dbg) dbg 1 (by norm_num) dom17_eq [0, 1, 2, 3] rfl rng₀ rng

example (dbg : Bool) (rng₀ rng rng' : Nat → Nat → ZMod 17) :
    ∃ px, (do let rows ← pp17.packVec dbg [1, 2, 3, 4] rng₀; transpose rows) = .ok px ∧
    AlwaysYields (Net.init fun i : Fin (4 * 2 ^ 1) =>
      pp17.dPpTest dbg (4 * 2 ^ 1) i (px.getD i []) (DegRedMask.zero 2) dom17 rng rng') (fun _ => ()) :=
  C64_d_pp_test (b := 1) (pp17_eq dbg) dbg (N := 2) (by omega) (by omega) rfl [1, 2, 3, 4] rfl (by decide) _
    (Or.inr fun _ => rfl) rng₀ rng rng'

example (dbg : Bool) (rngb rngs : Nat → Nat → ZMod 17) : ∃ (sb ss : List (List (ZMod 17))),
    (do let rows ← pp17.packVec dbg [2, 3, 5, 7] rngb; transpose rows) = .ok sb ∧
    (do let rows ← pp17.packVec dbg [1, 2, 3, 5] rngs; transpose rows) = .ok ss ∧
    AlwaysYields (Net.init fun i : Fin (4 * 2 ^ 1) =>
      pp17.dMsmTest dbg (4 * 2 ^ 1) i [2, 3, 5, 7] [1, 2, 3, 5] (sb.getD i []) (ss.getD i []) MsmMask.zero) (fun _ => ()) :=
  C64_d_msm_test (b := 1) (pp17_eq dbg) dbg (N := 2) (by omega) ([2, 3, 5, 7] : List (ZMod 17)) [1, 2, 3, 5] rfl rfl _
    (Or.inr fun _ => rfl) rngb rngs

end Properties

end ZkSaas
