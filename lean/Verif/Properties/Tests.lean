import Verif.Model.Tests
import Verif.Properties.Checks
import Verif.Properties.LocalNet
import Verif.Properties.Gao
import Verif.Properties.Bench
import Verif.Properties.Utils

/-! The tests of the repository hold for all inputs, sizes and schedules, except two that hold for the sizes and inputs chosen
there only (C69). -/

set_option linter.unusedSectionVars false

namespace ZkSaas

open Finset Spec Properties

/-- A test that runs `simulate_network_round` on `n` parties passes: the preparation succeeds, under every schedule every party
finishes, and in whatever order the hash map lists the nodes and the tasks complete, the assertions on the results hold. -/
def Passes {D α : Type} (n : Nat) (t : NetTest D α (List α)) : Prop :=
  ∃ (d : D) (outs : Nat → α), t.prepare = .ok d ∧
    AlwaysYields (Net.init fun i : Fin n => t.party d i) (fun i => outs i) ∧
    ∀ (nodes : List (Nat × Nat)) (order : List Nat), nodes.Perm ((List.range n).map fun i => (i, i)) →
      order.Perm (List.range n) → (do
        let result ← simulateNetworkRound nodes (fun i => .ok (outs i)) order
        t.check result) = .ok ()

/-- The same for `simulate_lossy_network_round`. -/
def PassesLossy {D α : Type} (n : Nat) (t : NetTest D α (ReceivedShares α)) : Prop :=
  ∃ (d : D) (outs : Nat → α), t.prepare = .ok d ∧
    AlwaysYields (Net.init fun i : Fin n => t.party d i) (fun i => outs i) ∧
    ∀ (nodes : List (Nat × Nat)) (order : List Nat), nodes.Perm ((List.range n).map fun i => (i, i)) →
      order.Perm (List.range n) → (do
        let rs ← simulateLossyNetworkRound nodes (fun i => .ok (outs i)) order
        t.check rs) = .ok ()

theorem Passes.intro {D α : Type} {n : Nat} {t : NetTest D α (List α)} {d : D} {outs : Nat → α} (h1 : t.prepare = .ok d)
    (h2 : AlwaysYields (Net.init fun i : Fin n => t.party d i) (fun i => outs i))
    (h3 : t.check ((List.range n).map outs) = .ok ()) : Passes n t := by
  refine ⟨d, outs, h1, h2, fun nodes order hn ho => ?_⟩
  rw [C52_order n (fun i => i) nodes hn order ho (fun i => .ok (outs i)) outs fun _ _ => rfl, ok_bind, h3]

theorem PassesLossy.intro {D α : Type} {n : Nat} (hn0 : 0 < n) {t : NetTest D α (ReceivedShares α)} {d : D} {outs : Nat → α}
    (h1 : t.prepare = .ok d) (h2 : AlwaysYields (Net.init fun i : Fin n => t.party d i) (fun i => outs i))
    (h3 : t.check ⟨(List.range (n - 1)).map outs, List.range (n - 1)⟩ = .ok ()) : PassesLossy n t := by
  refine ⟨d, outs, h1, h2, fun nodes order hn ho => ?_⟩
  rw [C52_lossy n (fun i => i) nodes hn order ho (fun i => .ok (outs i)) outs fun _ _ => rfl, if_neg (by omega), ok_bind, h3]

variable {F : Type} [Field F] [DecidableEq F] [FftField F]

section dfft
variable [FixedWire F]

theorem PSS.packTestVec_ok {dbg₀ : Bool} {b : Nat} {pp : PSS F} (hpp : PSS.new dbg₀ (2 ^ b) = .ok pp) (dbg : Bool) (a : Nat)
    (x : List F) (hx : x.length = 2 ^ (a + b)) (rng : Nat → Nat → F) :
    ∃ rows, pp.packTestVec dbg (2 ^ (a + b)) x rng = .ok rows ∧
      (∀ p < 4 * pp.l, column rows p = .ok (rows.map fun y => y.getD p 0)) ∧
      HoldsInput pp a b (fun p => rows.map fun y => y.getD p 0) x := by
  have hle := l_eq hpp
  obtain ⟨rows, e, hcol, hs⟩ := PSS.packQapVec_shares (PSS.good_of_new hpp) dbg hle x hx rng
  refine ⟨rows, ?_, hcol, HoldsOutput.input ⟨hx, by rw [PSS.SharedVec, hle] at hs; exact hs⟩⟩
  rw [PSS.packQapVec, fftInPlaceRearrange_eq (a + b) _ 0 hx, ok_bind, PSS.packStrided, assert_of (by simp [hle]), ok_bind,
    List.length_map, List.length_range] at e
  rw [PSS.packTestVec, fftInPlaceRearrange_eq (a + b) _ 0 hx, ok_bind, e]

theorem FftMask.sample_isMasks {dbg₀ : Bool} {b : Nat} {pp : PSS F} (hpp : PSS.new dbg₀ (2 ^ b) = .ok pp) (dbg : Bool) (a : Nat)
    {gen : F} (hprim : IsPrimitiveRoot gen (2 ^ (a + b))) (rearrange : Bool) (g : F) (vals : Nat → F)
    (rngIn rngOut : Nat → Nat → F) :
    ∃ ms, FftMask.sample pp dbg rearrange g gen (2 ^ (a + b)) vals rngIn rngOut = .ok ms ∧
      (∀ p < 4 * pp.l, rd ms p = .ok (ms.getD p (FftMask.zero 0))) ∧
      IsFftMasks pp rearrange g gen (2 ^ (a + b)) fun p => ms.getD p (FftMask.zero 0) := by
  obtain ⟨ms, e, hl, -⟩ := MasksOk.of_sample (PSS.good_of_new hpp) dbg (l_eq hpp) hprim rearrange g vals rngIn rngOut
  refine ⟨ms, e, fun p hp => rd_ok (by omega) _, .inl ⟨dbg, vals, rngIn, rngOut, ms, e, fun p hp => ?_⟩⟩
  dsimp only
  rw [List.getD_eq_getElem _ _ (by omega), List.getElem?_eq_getElem]

end dfft

namespace Properties

section dfft
variable [FixedWire F]

/-- **C69** `d_fft_works`: for every vector and all randomness. -/
theorem C69_d_fft_works {dbg₀ : Bool} {b : Nat} {pp : PSS F} (hpp : PSS.new dbg₀ (2 ^ b) = .ok pp) (dbg : Bool) (a : Nat)
    (ha : a < 64) {dom : Domain F} (hdom : Domain.new (2 ^ (a + b)) = some dom) (x : List F) (hx : x.length = 2 ^ (a + b))
    (rng₀ : Nat → Nat → F) (vals : Nat → F) (rngIn rngOut rng : Nat → Nat → F) :
    Passes pp.n (pp.dFftWorks dbg dom (2 ^ (a + b)) x rng₀ vals rngIn rngOut rng) := by
  have hle := l_eq hpp
  have hn : pp.n = 4 * 2 ^ b := by rw [(PSS.good_of_new hpp).n_eq, hle]
  obtain ⟨hwf, hoff, -, hsize⟩ := Domain.new_pow2 hdom
  have hprim : IsPrimitiveRoot dom.groupGen (2 ^ (a + b)) := hsize ▸ hwf.prim
  obtain ⟨rows, e1, hcol, hin⟩ := PSS.packTestVec_ok hpp dbg a x hx rng₀
  obtain ⟨ms, e2, hrd, hm⟩ := FftMask.sample_isMasks hpp dbg a hprim false 1 vals rngIn rngOut
  obtain ⟨outs, hr, ho⟩ := C19_d_fft hpp dbg a ha hdom _ x hin false _ hm .zero rng
  refine Passes.intro (d := (rows, ms)) (outs := outs) ?_ ?_ ?_
  · rw [PSS.dFftWorks]; dsimp only; rw [e1, ok_bind, e2]; rfl
  · rw [hn]
    have : (fun i : Fin (4 * 2 ^ b) => (pp.dFftWorks dbg dom (2 ^ (a + b)) x rng₀ vals rngIn rngOut rng).party (rows, ms) i) =
        fun i : Fin (4 * 2 ^ b) => pp.dFft dbg (4 * 2 ^ b) i (rows.map fun y => y.getD i 0) (ms.getD i (FftMask.zero 0)) false dom
          .zero rng := by
      funext i
      show Proc.bind (.done (column rows i)) (fun packCoeff => Proc.bind (.done (rd ms i)) fun mask =>
        pp.dFft dbg pp.n i packCoeff mask false dom .zero rng) = _
      rw [hcol i (by rw [hle]; exact i.2), hrd i (by rw [hle]; exact i.2), hn]
      rfl
    rw [this]
    exact hr
  · rw [hn]
    show (do let computed ← pp.openRows _; assert (dom.fft x == computed)) = _
    rw [(ho.openRows hpp dbg).2, ok_bind, assert_of (by simp)]

/-- **C69** `d_ifft_works`: for every vector and all randomness. -/
theorem C69_d_ifft_works {dbg₀ : Bool} {b : Nat} {pp : PSS F} (hpp : PSS.new dbg₀ (2 ^ b) = .ok pp) (dbg : Bool) (a : Nat)
    (ha : a < 64) {dom : Domain F} (hdom : Domain.new (2 ^ (a + b)) = some dom) (x : List F) (hx : x.length = 2 ^ (a + b))
    (rng₀ : Nat → Nat → F) (vals : Nat → F) (rngIn rngOut rng : Nat → Nat → F) :
    Passes pp.n (pp.dIfftWorks dbg dom (2 ^ (a + b)) x rng₀ vals rngIn rngOut rng) := by
  have hle := l_eq hpp
  have hn : pp.n = 4 * 2 ^ b := by rw [(PSS.good_of_new hpp).n_eq, hle]
  obtain ⟨hwf, hoff, -, hsize⟩ := Domain.new_pow2 hdom
  have hprim : IsPrimitiveRoot dom.groupGenInv (2 ^ (a + b)) := by
    rw [hwf.ginv]; exact hsize ▸ hwf.prim.inv
  obtain ⟨rows, e1, hcol, hin⟩ := PSS.packTestVec_ok hpp dbg a x hx rng₀
  obtain ⟨ms, e2, hrd, hm⟩ := FftMask.sample_isMasks hpp dbg a hprim false 1 vals rngIn rngOut
  obtain ⟨outs, hr, ho⟩ := C20_d_ifft hpp dbg a ha hdom _ x hin 1 false _ hm .zero rng
  have hv : ((List.range (2 ^ (a + b))).map fun k => (1 : F) ^ k * (dom.ifft x).getD k 0) = dom.ifft x := by
    simp only [one_pow, one_mul]
    rw [show 2 ^ (a + b) = (dom.ifft x).length by simp [hsize]]
    exact (list_eq_map_range _ 0).symm
  rw [hv] at ho
  refine Passes.intro (d := (rows, ms)) (outs := outs) ?_ ?_ ?_
  · rw [PSS.dIfftWorks]; dsimp only; rw [e1, ok_bind, e2]; rfl
  · rw [hn]
    have : (fun i : Fin (4 * 2 ^ b) => (pp.dIfftWorks dbg dom (2 ^ (a + b)) x rng₀ vals rngIn rngOut rng).party (rows, ms) i) =
        fun i : Fin (4 * 2 ^ b) => pp.dIfft dbg (4 * 2 ^ b) i (rows.map fun y => y.getD i 0) (ms.getD i (FftMask.zero 0)) false dom
          1 .zero rng := by
      funext i
      show Proc.bind (.done (column rows i)) (fun packCoeff => Proc.bind (.done (rd ms i)) fun mask =>
        pp.dIfft dbg pp.n i packCoeff mask false dom 1 .zero rng) = _
      rw [hcol i (by rw [hle]; exact i.2), hrd i (by rw [hle]; exact i.2), hn]
      rfl
    rw [this]
    exact hr
  · rw [hn]
    show (do let computed ← pp.openRows _; assert (dom.ifft x == computed)) = _
    rw [(ho.openRows hpp dbg).2, ok_bind, assert_of (by simp)]

/-- **C69** `d_ifftxd_fft_works`: for every vector and all randomness. -/
theorem C69_d_ifftxd_fft_works {dbg₀ : Bool} {b : Nat} {pp : PSS F} (hpp : PSS.new dbg₀ (2 ^ b) = .ok pp) (dbg : Bool) (a : Nat)
    (ha : a < 64) {dom : Domain F} (hdom : Domain.new (2 ^ (a + b)) = some dom) (x : List F) (hx : x.length = 2 ^ (a + b))
    (rng₀ : Nat → Nat → F) (vals : Nat → Nat → F) (rngIn rngOut rng : Nat → Nat → Nat → F) :
    Passes pp.n (pp.dIfftxdFftWorks dbg dom (2 ^ (a + b)) x rng₀ vals rngIn rngOut rng) := by
  have hle := l_eq hpp
  have hn : pp.n = 4 * 2 ^ b := by rw [(PSS.good_of_new hpp).n_eq, hle]
  obtain ⟨hwf, hoff, -, hsize⟩ := Domain.new_pow2 hdom
  have hprim : IsPrimitiveRoot dom.groupGen (2 ^ (a + b)) := hsize ▸ hwf.prim
  have hprim' : IsPrimitiveRoot dom.groupGenInv (2 ^ (a + b)) := by
    rw [hwf.ginv]; exact hprim.inv
  obtain ⟨rows, e1, hcol, hin⟩ := PSS.packTestVec_ok hpp dbg a x hx rng₀
  obtain ⟨m0, f0, hrd0, hm0⟩ := FftMask.sample_isMasks hpp dbg a hprim' true 1 (vals 0) (rngIn 0) (rngOut 0)
  obtain ⟨m1, f1, hrd1, hm1⟩ := FftMask.sample_isMasks hpp dbg a hprim false 1 (vals 1) (rngIn 1) (rngOut 1)
  have hp : (dom.ifft x).length = 2 ^ (a + b) := by simp [hsize]
  have hfi := Domain.fft_ifft hwf (hx.trans hsize.symm)
  obtain ⟨outs, hr, ho⟩ := ifftThenFft_runs hpp dbg a ha hdom hin 1 false hm0 hm1 .zero .zero (rng 0) (rng 1) hp hfi
  have hv : ((List.range (2 ^ (a + b))).map fun i => evalAt (dom.ifft x) (1 * dom.groupGen ^ i)) = x := by
    conv_rhs => rw [← hfi, Domain.fft, hsize, resize_eq_of_length 0 hp]
    simp only [Domain.element, hoff]
  rw [hv] at ho
  refine Passes.intro (d := (rows, m0, m1)) (outs := outs) ?_ ?_ ?_
  · rw [PSS.dIfftxdFftWorks]; dsimp only; rw [e1, ok_bind, f0, ok_bind, f1]; rfl
  · rw [hn]
    have : (fun i : Fin (4 * 2 ^ b) => (pp.dIfftxdFftWorks dbg dom (2 ^ (a + b)) x rng₀ vals rngIn rngOut rng).party (rows, m0, m1) i) =
        fun i : Fin (4 * 2 ^ b) => ifftThenFft pp dbg (4 * 2 ^ b) i (rows.map fun y => y.getD i 0) (m0.getD i (FftMask.zero 0))
          (m1.getD i (FftMask.zero 0)) false dom 1 .zero .zero (rng 0) (rng 1) := by
      funext i
      show Proc.bind (.done (column rows i)) (fun packEval => Proc.bind (.done (rd m0 i)) fun mask =>
        Proc.bind (pp.dIfft dbg pp.n i packEval mask true dom 1 .zero (rng 0)) fun pCoeff => Proc.bind (.done (rd m1 i)) fun mask =>
        pp.dFft dbg pp.n i pCoeff mask false dom .zero (rng 1)) = _
      rw [hcol i (by rw [hle]; exact i.2), hrd0 i (by rw [hle]; exact i.2), hrd1 i (by rw [hle]; exact i.2), hn]
      rfl
    rw [this]
    exact hr.alwaysYields fun i => ifftThenFft_wf _ (by positivity) _ _ _ _ _ _ _ _ _ _ _
  · rw [hn]
    show (do let computed ← pp.openRows _; assert (x == computed)) = _
    rw [(ho.openRows hpp dbg).2, ok_bind, assert_of (by simp)]

/-- **C69** `coset_d_ifftxd_fft_works`: for every vector and all randomness, and any offset in place of `F::GENERATOR`. -/
theorem C69_coset_works {dbg₀ : Bool} {b : Nat} {pp : PSS F} (hpp : PSS.new dbg₀ (2 ^ b) = .ok pp) (dbg : Bool) (a : Nat)
    (ha : a < 64) {dom : Domain F} (hdom : Domain.new (2 ^ (a + b)) = some dom) {g : F} (hg : g ≠ 0) (x : List F)
    (hx : x.length = 2 ^ (a + b)) (rng₀ : Nat → Nat → F) (vals : Nat → Nat → F) (rngIn rngOut rng : Nat → Nat → Nat → F) :
    Passes pp.n (pp.cosetWorks dbg dom g (2 ^ (a + b)) x rng₀ vals rngIn rngOut rng) := by
  have hle := l_eq hpp
  have hn : pp.n = 4 * 2 ^ b := by rw [(PSS.good_of_new hpp).n_eq, hle]
  obtain ⟨hwf, hoff, -, hsize⟩ := Domain.new_pow2 hdom
  have hprim : IsPrimitiveRoot dom.groupGen (2 ^ (a + b)) := hsize ▸ hwf.prim
  have hprim' : IsPrimitiveRoot dom.groupGenInv (2 ^ (a + b)) := by
    rw [hwf.ginv]; exact hprim.inv
  obtain ⟨rows, e1, hcol, hin⟩ := PSS.packTestVec_ok hpp dbg a x hx rng₀
  obtain ⟨m0, f0, hrd0, hm0⟩ := FftMask.sample_isMasks hpp dbg a hprim' true g (vals 0) (rngIn 0) (rngOut 0)
  obtain ⟨m1, f1, hrd1, hm1⟩ := FftMask.sample_isMasks hpp dbg a hprim true 1 (vals 1) (rngIn 1) (rngOut 1)
  obtain ⟨m2, f2, hrd2, hm2⟩ := FftMask.sample_isMasks hpp dbg a hprim' true g⁻¹ (vals 2) (rngIn 2) (rngOut 2)
  obtain ⟨m3, f3, hrd3, hm3⟩ := FftMask.sample_isMasks hpp dbg a hprim false 1 (vals 3) (rngIn 3) (rngOut 3)
  obtain ⟨outs, hr, ho⟩ := roundTrip_runs hpp dbg a ha hdom hin hg hm0 hm1 hm2 hm3 .zero (rng 0) (rng 1) (rng 2) (rng 3)
  have hcos : dom.getCoset g = some { dom with offset := g, offsetInv := g⁻¹ } := by
    rw [Domain.getCoset, if_neg hg]
  refine Passes.intro (d := ({ dom with offset := g, offsetInv := g⁻¹ }, rows, m0, m1, m2, m3)) (outs := outs) ?_ ?_ ?_
  · rw [PSS.cosetWorks]
    dsimp only
    rw [hcos, e1]
    show (do
      let m0 ← FftMask.sample pp dbg true g dom.groupGenInv (2 ^ (a + b)) (vals 0) (rngIn 0) (rngOut 0)
      let m1 ← FftMask.sample pp dbg true 1 dom.groupGen (2 ^ (a + b)) (vals 1) (rngIn 1) (rngOut 1)
      let m2 ← FftMask.sample pp dbg true g⁻¹ dom.groupGenInv (2 ^ (a + b)) (vals 2) (rngIn 2) (rngOut 2)
      let m3 ← FftMask.sample pp dbg false 1 dom.groupGen (2 ^ (a + b)) (vals 3) (rngIn 3) (rngOut 3)
      pure (_, rows, m0, m1, m2, m3)) = _
    rw [f0, ok_bind, f1, ok_bind, f2, ok_bind, f3]
    rfl
  · rw [hn]
    refine cast ?_ (hr.alwaysYields fun i => (ifftThenFft_wf _ (by positivity) _ _ _ _ _ _ _ _ _ _ _).bind
      fun _ => ifftThenFft_wf _ (by positivity) _ _ _ _ _ _ _ _ _ _ _)
    congr 2
    funext i
    show Proc.bind (Proc.bind (pp.dIfft dbg (4 * 2 ^ b) i _ _ true dom g .zero (rng 0)) fun c =>
        pp.dFft dbg (4 * 2 ^ b) i c _ true dom .zero (rng 1)) (fun e =>
        Proc.bind (pp.dIfft dbg (4 * 2 ^ b) i e _ true dom g⁻¹ .zero (rng 2)) fun c =>
          pp.dFft dbg (4 * 2 ^ b) i c _ false dom .zero (rng 3)) =
      Proc.bind (.done (column rows i)) (fun packEval => Proc.bind (.done (rd m0 i)) fun mask =>
      Proc.bind (pp.dIfft dbg pp.n i packEval mask true dom g .zero (rng 0)) fun pCoeff => Proc.bind (.done (rd m1 i)) fun mask =>
      Proc.bind (pp.dFft dbg pp.n i pCoeff mask true dom .zero (rng 1)) fun e => Proc.bind (.done (rd m2 i)) fun mask =>
      Proc.bind (pp.dIfft dbg pp.n i e mask true dom g⁻¹ .zero (rng 2)) fun pCoeff => Proc.bind (.done (rd m3 i)) fun mask =>
      pp.dFft dbg pp.n i pCoeff mask false dom .zero (rng 3))
    rw [hcol i (by rw [hle]; exact i.2), hrd0 i (by rw [hle]; exact i.2), hrd1 i (by rw [hle]; exact i.2),
      hrd2 i (by rw [hle]; exact i.2), hrd3 i (by rw [hle]; exact i.2), hn, Proc.bind_assoc]
    rfl
  · rw [hn]
    show (do let computed ← pp.openRows _; assert (x == computed)) = _
    rw [(ho.openRows hpp dbg).2, ok_bind, assert_of (by simp)]

/-- **C69** `test_deg_red`: for all secrets and all randomness. -/
theorem C69_test_deg_red {dbg₀ : Bool} {b : Nat} {pp : PSS F} (hpp : PSS.new dbg₀ (2 ^ b) = .ok pp) (dbg : Bool)
    (secrets : List F) (hl : secrets.length = 2 ^ b) (rng₀ vals : Nat → F) (rngIn rngOut rng : Nat → Nat → F) :
    PassesLossy pp.n (pp.testDegRed dbg secrets rng₀ vals rngIn rngOut rng) := by
  have hle := l_eq hpp
  have hg := PSS.good_of_new hpp
  have hlp := hg.lpos
  have hn : pp.n = 4 * pp.l := hg.n_eq
  obtain ⟨shares, e1, h1⟩ := PSS.pack_shares hg dbg (hl.trans hle.symm) rng₀
  obtain ⟨ms, e2, hlen, hm⟩ := DegRedMasksOk.of_sample hg dbg (1 : F) (N := 1) one_pos vals rngIn rngOut
  have hmul : pp.Shares (4 * pp.l - 1) (shares.map fun x => x * x) (secrets.map fun x => x * x) := by
    have := Shares.mul h1 h1
    rw [show 2 * pp.l + 2 * pp.l - 1 = 4 * pp.l - 1 by omega] at this
    simpa only [List.zipWith_self, smul_eq_mul] using this
  have hsv : pp.SharedVec (4 * pp.l - 1) 1 (fun p => [(shares.map fun x => x * x).getD p 0]) fun _ => secrets.map fun x => x * x := by
    refine ⟨fun p _ => rfl, fun c hc => ?_⟩
    obtain rfl : c = 0 := by omega
    have := list_eq_map_range (shares.map fun x => x * x) 0
    rw [hmul.1] at this
    rw [this] at hmul
    exact hmul
  obtain ⟨outs, hr, ho⟩ := PSS.degRed_runs (n := pp.n) hg dbg hn one_pos (by norm_num) (by omega) le_rfl hsv hm .one rng
  refine PassesLossy.intro (by omega) (d := (shares.map fun x => x * x, ms)) (outs := outs) ?_ ?_ ?_
  · rw [PSS.testDegRed]; dsimp only; rw [e1, ok_bind, e2]; rfl
  · refine cast ?_ (hr.alwaysYields fun i => PSS.degRed_wf _ (by omega) _ _ _ _ _)
    congr 2
    funext i
    show _ = Proc.bind (.done (rd (shares.map fun x => x * x) i)) (fun mulShare => Proc.bind (.done (rd ms i)) fun mask =>
        pp.degRed dbg pp.n i [mulShare] mask .one rng)
    rw [rd_ok (by rw [hmul.1, ← hn]; exact i.2) 0, rd_ok (by rw [hlen, ← hn]; exact i.2) (DegRedMask.zero 0)]
    rfl
  · show (do
      let shares ← transpose ((List.range (pp.n - 1)).map outs)
      let computed ← if (List.range (pp.n - 1)).length = pp.n then pure (shares.map pp.unpack)
        else shares.mapM fun x => pp.lagrangeUnpack dbg x (List.range (pp.n - 1))
      assert (computed.flatten == secrets.map fun x => x * x)) = _
    rw [hn, transpose_ok _ 0 (cols := 1) (by simp; omega) _ one_pos, ok_bind, List.length_range, if_neg (by omega)]
    · have hsh : ((List.range ((List.range (4 * pp.l - 1)).map outs).length).map fun r =>
          (((List.range (4 * pp.l - 1)).map outs).getD r []).getD 0 0) =
          (List.range (4 * pp.l - 1)).map fun p => ((List.range (4 * pp.l)).map fun p => (outs p).getD 0 0).getD p 0 := by
        rw [List.length_map, List.length_range]
        apply List.map_congr_left
        intro p hp
        have hp := List.mem_range.1 hp
        rw [getD_map_range, if_pos hp, getD_map_range, if_pos (by omega)]
      have := PSS.lagrangeUnpack_of_shares hg dbg (parties := List.range (4 * pp.l - 1)) List.nodup_range
        (fun p hp => by have := List.mem_range.1 hp; omega) (by rw [List.length_range]; omega) (fun _ => by rw [List.length_range])
        (ho.2 0 one_pos)
      simp only [List.range_one, List.map_cons, List.map_nil, List.mapM_cons, List.mapM_nil, hsh]
      rw [this]
      simp only [ok_bind]
      show assert ([secrets.map fun x => x * x].flatten == secrets.map fun x => x * x) = _
      rw [assert_of (by simp)]
    · intro r hr
      rw [List.length_map, List.length_range] at hr
      rw [getD_map_range, if_pos hr, ho.1 r (by omega)]
    · rw [getD_map_range, if_pos (by omega), ho.1 0 (by omega)]

end dfft

/-! ### `secret-sharing` -/

/-- **C69** `test_initialize`: for every power of two up to the 2-adicity of the field. -/
theorem C69_test_initialize (dbg : Bool) (b : Nat) (hb : b + 2 ≤ FftField.TWO_ADICITY F) :
    testInitialize (F := F) dbg (2 ^ b) = .ok () := by
  obtain ⟨pp, hpp⟩ : ∃ pp, PSS.new (F := F) dbg (2 ^ b) = .ok pp := ⟨_, PSS.new_pow2 dbg hb⟩
  have hg := PSS.good_of_new hpp
  have hle := l_eq hpp
  have ht : pp.t = pp.l := hg.t_eq
  rw [testInitialize, hpp, ok_bind, assert_of (by simp [ht, hle]), ok_bind, assert_of (by simp [hle]), ok_bind,
    assert_of (by simp [hg.n_eq, hle]; ring), ok_bind, assert_of (by simp [hg.share_size, hle]; ring), ok_bind,
    assert_of (by simp [hg.secret_size, hle]; ring), ok_bind, assert_of (by simp [hg.secret2_size, hle]; ring)]

/-- **C69** `test_det_packing`: for all secrets. -/
theorem C69_test_det_packing {dbg₀ : Bool} {b : Nat} {pp : PSS F} (hpp : PSS.new dbg₀ (2 ^ b) = .ok pp) (dbg : Bool)
    (secrets : List F) (hl : secrets.length = 2 ^ b) : pp.testDetPacking dbg secrets = .ok () := by
  obtain ⟨shares, e, -, h, -⟩ := C02_det_pack hpp dbg secrets hl
  rw [PSS.testDetPacking, e, ok_bind, h, assert_of (by simp)]

theorem sliceTo_getD {T : Type} [Zero T] {v : List T} {n : Nat} (h : n ≤ v.length) :
    sliceTo v n = .ok ((List.range n).map fun p => v.getD p 0) := by
  rw [sliceTo, if_pos h]
  congr 1
  apply list_ext_getD 0 (by simp [h])
  intro i hi
  rw [List.length_take] at hi
  rw [getD_map_range, if_pos (by omega), List.getD_eq_getElem?_getD, List.getElem?_take, if_pos (by omega),
    List.getD_eq_getElem?_getD]

/-- **C69** `test_packing`: for all secrets, but in a debug build only for `l ≤ 2` (the test has `l = 2`): with `l ≥ 4` the
`n - t + 1` shares it gives to `lagrange_unpack` are fewer than the debug assertion there asks for, and the test panics. -/
theorem C69_test_packing {dbg₀ : Bool} {b : Nat} {pp : PSS F} (hpp : PSS.new dbg₀ (2 ^ b) = .ok pp) (dbg : Bool)
    (secrets : List F) (hl : secrets.length = 2 ^ b) (rng : Nat → F) :
    pp.testPacking dbg secrets rng = if dbg = true ∧ 2 ≤ b then panic' else .ok () := by
  have hle := l_eq hpp
  have hg := PSS.good_of_new hpp
  have hlp := hg.lpos
  have ht : pp.t = pp.l := hg.t_eq
  obtain ⟨shares, e, hlen, h, -⟩ := C01_pack_unpack hpp dbg secrets hl rng
  have hnt : pp.n - pp.t + 1 = 3 * 2 ^ b + 1 := by rw [hg.n_eq, ht, hle]; omega
  have hpos : 0 < 2 ^ b := by positivity
  rw [PSS.testPacking, e, ok_bind, hnt, sliceTo_getD (by omega), ok_bind]
  by_cases hd : dbg = true ∧ 2 ≤ b
  · rw [if_pos hd]
    have h4 : 2 ^ 2 ≤ 2 ^ b := Nat.pow_le_pow_right (by norm_num) hd.2
    have : pp.lagrangeUnpack dbg ((List.range (3 * 2 ^ b + 1)).map fun p => shares.getD p 0) (List.range (3 * 2 ^ b + 1)) =
        panic' := by
      rw [PSS.lagrangeUnpack, debugAssert_of (by simp), ok_bind, hd.1]
      have : decide ((List.range (3 * 2 ^ b + 1)).length > 2 * (pp.t + pp.l - 1)) = false := by
        rw [decide_eq_false_iff_not, List.length_range, ht, hle]
        omega
      rw [this]
      rfl
    rw [this]
    rfl
  · rw [if_neg hd, C05_lagrange_unpack_single hpp dbg secrets hl rng e _ List.nodup_range, ok_bind, h, assert_of (by simp), ok_bind]
    · intro p hp
      have := List.mem_range.1 hp
      omega
    · rw [List.length_range]; omega
    · intro hdbg
      rw [List.length_range]
      have hb : b ≤ 1 := by by_contra; exact hd ⟨hdbg, by omega⟩
      have : 2 ^ b ≤ 2 ^ 1 := Nat.pow_le_pow_right (by norm_num) hb
      omega

/-- **C69** `test_multiplication`: for all secrets and all randomness. -/
theorem C69_test_multiplication {dbg₀ : Bool} {b : Nat} {pp : PSS F} (hpp : PSS.new dbg₀ (2 ^ b) = .ok pp) (dbg : Bool)
    (secrets : List F) (hl : secrets.length = 2 ^ b) (rng : Nat → F) : pp.testMultiplication dbg secrets rng = .ok () := by
  have hle := l_eq hpp
  have hg := PSS.good_of_new hpp
  obtain ⟨shares, e, hlen, -, -⟩ := C01_pack_unpack hpp dbg secrets hl rng
  have hpos : 0 < 2 ^ b := by positivity
  have h1 := C04_multiply hpp dbg secrets secrets hl hl rng rng e e
  have h2 := C05_lagrange_unpack_product hpp dbg secrets secrets hl hl rng rng e e (List.range (4 * 2 ^ b - 1)) List.nodup_range
    (fun p hp => by have := List.mem_range.1 hp; omega) (by rw [List.length_range])
  simp only [List.zipWith_self, smul_eq_mul] at h1 h2
  rw [PSS.testMultiplication, e, ok_bind]
  dsimp only
  rw [h1, ok_bind, hg.n_eq, hle, sliceTo_getD (by rw [List.length_map]; omega), ok_bind, h2, ok_bind, assert_of (by simp), ok_bind]

/-- **C69** `test_eval_interpolate`: passes exactly if the last coefficient of the polynomial is not zero. (The test takes random
coefficients, so there is a chance of one in the size of the field that it fails.) -/
theorem C69_test_eval_interpolate (p : List F) (hp : ∀ k : Nat, 0 < k → k ≤ 2 * p.length → (k : F) ≠ 0) :
    testEvalInterpolate p = if p.getLast? = some 0 then panic' else .ok () := by
  have hlen : ((List.range' 1 (2 * p.length)).map fun x : Nat => (x : F)).length = 2 * p.length := by simp
  have hmem : ∀ x ∈ List.range' 1 (2 * p.length), 0 < x ∧ x ≤ 2 * p.length := by
    intro x hx
    have := List.mem_range'_1.1 hx
    omega
  have hnd : ((List.range' 1 (2 * p.length)).map fun x : Nat => (x : F)).Nodup := by
    refine List.Nodup.map_on ?_ List.nodup_range'
    intro x hx y hy h
    have hx := hmem x hx
    have hy := hmem y hy
    rcases lt_trichotomy x y with hlt | rfl | hlt
    · refine absurd ?_ (hp (y - x) (by omega) (by omega))
      rw [Nat.cast_sub hlt.le, h, sub_self]
    · rfl
    · refine absurd ?_ (hp (x - y) (by omega) (by omega))
      rw [Nat.cast_sub hlt.le, h, sub_self]
  have h0 : (0 : F) ∉ (List.range' 1 (2 * p.length)).map fun x : Nat => (x : F) := by
    intro h
    obtain ⟨x, hx, h⟩ := List.mem_map.1 h
    exact hp x (hmem x hx).1 (hmem x hx).2 h
  rw [testEvalInterpolate]
  generalize hxs : (List.range' 1 (2 * p.length)).map (fun x : Nat => (x : F)) = xs at hlen hnd h0 ⊢
  obtain ⟨res, e, hle, -, huniq, hlast, hzero⟩ := C12_lagrange_interpolate xs (xs.map fun x => eval p x) hnd h0 (by simp)
  rw [e, ok_bind]
  have hcoef : ∀ j, p.getD j 0 = res.getD j 0 := by
    intro j
    by_cases hj : j < xs.length
    · refine huniq (fun j => p.getD j 0) (fun k hk => ?_) j hj
      rw [List.getD_eq_getElem?_getD (l := xs.map _), List.getElem?_map, List.getD_eq_getElem?_getD (l := xs),
        List.getElem?_eq_getElem hk]
      show _ = eval p xs[k]
      rw [eval_eq, toPoly_eval, eq_comm]
      refine sum_subset (range_subset_range.2 (by omega)) fun j _ hj => ?_
      rw [getD_of_ge _ (by simpa using hj), mul_zero]
    · rw [getD_of_ge _ (by omega), getD_of_ge _ (by omega)]
  rcases List.eq_nil_or_concat p with rfl | ⟨p', x, hpx⟩
  · have : res = [] := List.length_eq_zero_iff.1 (by simpa [hlen] using hle)
    rw [this, if_neg (by simp), assert_of (by simp)]
  · rw [List.concat_eq_append] at hpx
    have hplen : p.length = p'.length + 1 := by rw [hpx]; simp
    have hpl : p.getD p'.length 0 = x := by rw [hpx]; simp
    have hgl : p.getLast? = some x := by rw [hpx]; simp
    rw [hgl]
    by_cases hx : x = 0
    · rw [if_pos (by rw [hx]), assert_panic_of]
      rw [beq_eq_false_iff_ne]
      intro hres
      by_cases hz : ∃ y ∈ res, y ≠ 0
      · obtain ⟨hne, hl⟩ := hlast hz
        apply hl
        rw [← hx]
        exact Option.some.inj ((List.getLast?_eq_some_getLast hne).symm.trans ((congrArg List.getLast? hres).trans hgl))
      · have := hzero (by push Not at hz; exact hz)
        rw [hres] at this
        omega
    · rw [if_neg (by simpa using hx), assert_of]
      rw [beq_iff_eq]
      have hrl : res.length = p.length := by
        have hlow : p'.length < res.length := by
          by_contra h
          apply hx
          rw [← hpl, hcoef, getD_of_ge _ (by omega)]
        by_contra h
        obtain ⟨hne, hl⟩ := hlast ⟨x, by
          rw [← hpl, hcoef, List.getD_eq_getElem?_getD, List.getElem?_eq_getElem hlow]; simp, hx⟩
        apply hl
        rw [List.getLast_eq_getElem]
        have h1 := hcoef (res.length - 1)
        rw [getD_of_ge _ (by omega), List.getD_eq_getElem?_getD, List.getElem?_eq_getElem (by omega)] at h1
        exact h1.symm
      exact list_ext_getD 0 hrl fun i _ => (hcoef i).symm

/-! ### `secret-sharing/src/gao.rs` -/

/-- **C69** `test_error_correction`: for every message, every corrupted position, every error and every dimension that leaves
room for one error. -/
theorem C69_test_error_correction {dbg₀ : Bool} {b : Nat} {pp : PSS F} (hpp : PSS.new dbg₀ (2 ^ b) = .ok pp) (m : List F)
    (i : Nat) (hi : i < 4 * 2 ^ b) (err : F) (k : Nat) (hm : m.length ≤ k) (hk : k + 2 ≤ 4 * 2 ^ b) :
    pp.testErrorCorrection m i err (4 * 2 ^ b) k = .ok () := by
  have hg := PSS.good_of_new hpp
  have hle := l_eq hpp
  have hsz : pp.share.size = 4 * 2 ^ b := by rw [hg.share_size, hle]
  have hfft : ∀ j < 4 * 2 ^ b, (pp.share.fft m).getD j 0 = (toPoly m).eval (pp.share.groupGen ^ j) := by
    intro j hj
    rw [Domain.fft_getD _ _ (by omega), toPoly_eval, hg.share_element]
    simp only [smul_eq_mul]
    refine (sum_subset (range_subset_range.2 (by omega)) fun j _ hj => ?_).symm
    rw [getD_of_ge _ (by simpa using hj), mul_zero]
  rw [PSS.testErrorCorrection, rd_ok (by rw [Domain.fft_length]; omega) 0, ok_bind, wr, if_pos (by rw [Domain.fft_length]; omega), ok_bind,
    C14_gao_corrects hpp k (by omega) (toPoly m) (lt_of_lt_of_le (toPoly_degree_lt m) (by exact_mod_cast hm)), ok_bind,
    assert_of (by simp)]
  refine le_trans (card_le_card (t := {i}) fun j hj => ?_) (by rw [card_singleton]; omega)
  obtain ⟨hj, hne⟩ := mem_filter.1 hj
  rw [mem_singleton]
  by_contra hji
  apply hne
  rw [getD_set, if_neg (fun h => hji h.1.symm), hfft j (mem_range.1 hj)]

/-! ### `dist-primitives/src/dmsm/mod.rs` -/

section dmsm
variable {G : Type} [AddCommGroup G] [Module F G] [DecidableEq G]

/-- **C69** `pack_unpack_test`: for all secrets and all randomness. -/
theorem C69_pack_unpack_test {dbg₀ : Bool} {b : Nat} {pp : PSS F} (hpp : PSS.new dbg₀ (2 ^ b) = .ok pp) (dbg : Bool)
    (secrets : List G) (hl : secrets.length = 2 ^ b) (rng : Nat → G) : pp.packUnpackTest dbg secrets rng = .ok () := by
  obtain ⟨shares, e, -, h, -⟩ := C01_pack_unpack hpp dbg secrets hl rng
  rw [PSS.packUnpackTest, e, ok_bind, h, assert_of (by simp)]

/-- **C69** `pack_unpack2_test`: for all bases, scalars and randomness and any number of chunks. -/
theorem C69_pack_unpack2_test {dbg₀ : Bool} {b : Nat} {pp : PSS F} (hpp : PSS.new dbg₀ (2 ^ b) = .ok pp) (dbg : Bool) {N : Nat}
    (hN : 0 < N) (gsecrets : List G) (fsecrets : List F) (hgl : gsecrets.length = N * 2 ^ b) (hfl : fsecrets.length = N * 2 ^ b)
    (rngG : Nat → Nat → G) (rngF : Nat → Nat → F) : pp.packUnpack2Test dbg gsecrets fsecrets rngG rngF = .ok () := by
  have hle := l_eq hpp
  have hg := PSS.good_of_new hpp
  have hl := hg.lpos
  rw [← hle] at hgl hfl
  have hrows : ∀ {T : Type} [AddCommGroup T] [Module F T] [DecidableEq T] (v : List T) (hv : v.length = N * pp.l)
      (rng : Nat → Nat → T), ∃ rows out, (List.range (numChunks v pp.l)).mapM (fun c => pp.pack dbg (chunk v pp.l c) (rng c)) = .ok rows ∧
        transpose rows = .ok out ∧ out.length = 4 * pp.l ∧
        pp.SharedVec (2 * pp.l) N (fun p => out.getD p []) (chunks pp.l fun i => v.getD i 0) := by
    intro T _ _ _ v hv rng
    obtain ⟨rows, e, hlen, h⟩ := PSS.packVec_shares hg dbg hv rng
    rw [PSS.packVec, debugAssert_of (by simp [hv]), ok_bind, assert_of (by simp; omega), ok_bind] at e
    obtain ⟨out, e', hl', hs⟩ := SharedVec.of_rows hg hN hlen h
    refine ⟨rows, out, e, e', hl', SharedVec.congr hs (fun _ _ => rfl) fun c hc => ?_⟩
    rw [← chunk_eq_chunks _ N _ hc, ← hv, ← list_eq_map_range]
  obtain ⟨grows, gout, eg, eg', hgo, hsg⟩ := hrows gsecrets hgl rngG
  obtain ⟨frows, fout, ef, ef', hfo, hsf⟩ := hrows fsecrets hfl rngF
  have hloop : forUp (pp.l * 4) (fun i (result : List G) => do
      let g ← rd gout i
      let f ← rd fout i
      let r ← unwrap (msm g f).toOption
      wr result i r) (List.replicate (4 * pp.l) 0) =
      .ok ((List.range (4 * pp.l)).map fun p => ∑ c ∈ range N, (fout.getD p []).getD c 0 • (gout.getD p []).getD c 0) := by
    rw [Nat.mul_comm pp.l 4]
    refine forUp_write (fun p _ => ∑ c ∈ range N, (fout.getD p []).getD c 0 • (gout.getD p []).getD c 0) _ (fun i hi s hs => ?_) _
      (by simp)
    rw [rd_ok (by omega) [], ok_bind, rd_ok (by omega) [], ok_bind, msm_eq (hsg.1 i hi) (hsf.1 i hi)]
    show wr s i _ = _
    rw [wr, if_pos (by omega)]
  have hprod : pp.Shares (4 * pp.l - 1) ((List.range (4 * pp.l)).map fun p => ∑ c ∈ range N, (fout.getD p []).getD c 0 •
      (gout.getD p []).getD c 0) ((List.range pp.l).map fun k => ∑ c ∈ range N,
        (chunks pp.l (fun i => fsecrets.getD i 0) c).getD k 0 • (chunks pp.l (fun i => gsecrets.getD i 0) c).getD k 0) := by
    have := Shares.sum (pp := pp) (d := 4 * pp.l - 1) (N := N) fun c hc => by
      have := Shares.mul (hsf.2 c hc) (hsg.2 c hc)
      rwa [show 2 * pp.l + 2 * pp.l - 1 = 4 * pp.l - 1 by omega] at this
    refine cast ?_ this
    congr 1
    · apply List.map_congr_left
      intro p hp
      have hp := List.mem_range.1 hp
      apply sum_congr rfl
      intro c hc
      rw [getD_zipWith _ _ _ _ 0 0 _ (by simpa using hp) (by simpa using hp), getD_map_range, if_pos hp, getD_map_range, if_pos hp]
    · apply List.map_congr_left
      intro k hk
      have hk := List.mem_range.1 hk
      apply sum_congr rfl
      intro c hc
      rw [getD_zipWith _ _ _ _ 0 0 _ (by simpa [chunks] using hk) (by simpa [chunks] using hk)]
  have hn : pp.n = 4 * pp.l := hg.n_eq
  rw [PSS.packUnpack2Test, msm_eq hgl hfl]
  show (do
    let gshares ← (List.range (numChunks gsecrets pp.l)).mapM fun c => pp.pack dbg (chunk gsecrets pp.l c) (rngG c)
    let fshares ← (List.range (numChunks fsecrets pp.l)).mapM fun c => pp.pack dbg (chunk fsecrets pp.l c) (rngF c)
    let gshares ← transpose gshares
    let fshares ← transpose fshares
    let result ← forUp (pp.l * 4) (fun i result => do
      let g ← rd gshares i
      let f ← rd fshares i
      let r ← unwrap (msm g f).toOption
      wr result i r) (List.replicate pp.n 0)
    let opened ← pp.unpack2 dbg result
    assert (_ == opened.sum)) = _
  rw [eg, ok_bind, ef, ok_bind, eg', ok_bind, ef', ok_bind, hn, hloop, ok_bind, PSS.unpack2_of_shares hg dbg le_rfl hprod, ok_bind,
    assert_of]
  rw [beq_iff_eq, sum_smul_chunks, sum_map_range]

end dmsm

/-! ### `mpc-net/src/multi.rs` -/

section mux
variable {n : Nat} {α : Type} {P : Bytes → Prop}

theorem reach_send (hP : ∀ b, P b) (i : Fin n) {d : Nat} {s : Sid} {b : Bytes} {k : Proc α} {ps : Fin n → Proc α} (Q : Queues)
    (h : ps i = .send d s b k) :
    Reach P ⟨ps, Q⟩ ⟨Function.update ps i k, Function.update Q (↑i, d, s) (Q (↑i, d, s) ++ [b])⟩ :=
  Reach.step i _ _ (core_send d s b) (by rw [h]; exact LStep.send _ _ _ _) rfl fun _ _ _ _ => hP _

theorem reach_recv (i : Fin n) {d : Nat} {s : Sid} {b : Bytes} {k : Bytes → Proc α} {ps : Fin n → Proc α} (Q : Queues)
    (h : ps i = .recv d s k) (hQ : Q (d, i, s) = [b]) :
    Reach P ⟨ps, Q⟩ ⟨Function.update ps i (k b), Function.update Q (d, ↑i, s) []⟩ :=
  Reach.step i _ _ (core_recv d s b) (by rw [h]; exact LStep.recv _ _ _ _) (by rw [qstep, hQ]; exact if_pos rfl)

theorem reach_recv3 (i : Fin n) {d : Nat} {b : Bytes} {k : Bytes → Bytes → Bytes → Proc α} {ps : Fin n → Proc α} (Q : Queues)
    (h : ps i = .recv d .zero fun b0 => .recv d .one fun b1 => .recv d .two fun b2 => k b0 b1 b2) (hQ : ∀ s, Q (d, i, s) = [b]) :
    ∃ Q' : Queues, Reach P ⟨ps, Q⟩ ⟨Function.update ps i (k b b b), Q'⟩ ∧
      ∀ a e s, (a ≠ d ∨ e ≠ ↑i) → Q' (a, e, s) = Q (a, e, s) := by
  have s1 := reach_recv (P := P) i Q h (hQ .zero)
  have s2 := reach_recv (P := P) i (ps := Function.update ps i (.recv d .one fun b1 => .recv d .two fun b2 => k b b1 b2))
    (Function.update Q (d, ↑i, .zero) []) (Function.update_self i _ _) (b := b)
    (by rw [Function.update_of_ne (by simp)]; exact hQ .one)
  rw [Function.update_idem] at s2
  have s3 := reach_recv (P := P) i (ps := Function.update ps i (.recv d .two fun b2 => k b b b2))
    (Function.update (Function.update Q (d, ↑i, .zero) []) (d, ↑i, .one) []) (Function.update_self i _ _) (b := b)
    (by rw [Function.update_of_ne (by simp), Function.update_of_ne (by simp)]; exact hQ .two)
  rw [Function.update_idem] at s3
  refine ⟨_, s1.trans (s2.trans s3), fun a e s hae => ?_⟩
  have : ∀ s s' : Sid, (a, e, s) ≠ (d, ↑i, s') := fun s s' h => by
    simp only [Prod.mk.injEq] at h
    rcases hae with hae | hae
    · exact hae h.1
    · exact hae h.2.1
  rw [Function.update_of_ne (this _ _), Function.update_of_ne (this _ _), Function.update_of_ne (this _ _)]

/-- A party sends. -/
theorem reach_muxSend (hP : ∀ b, P b) (i : Fin n) (k : Unit → Proc α) (L : List Nat) (hL : L.Nodup) (ps : Fin n → Proc α) (Q : Queues)
    (h : ps i = (muxSend i L).bind k) :
    Reach P ⟨ps, Q⟩ ⟨Function.update ps i (k ()), fun x => if x.1 = i ∧ x.2.1 ∈ L ∧ x.2.1 ≠ i then Q x ++ [[UInt8.ofNat i]] else Q x⟩ := by
  induction L generalizing ps Q with
  | nil =>
    have : Function.update ps i (k ()) = ps := by
      rw [show k () = ps i from h.symm, Function.update_eq_self]
    rw [this]
    simpa using Reach.refl _
  | cons p L ih =>
    obtain ⟨hp, hL⟩ := List.nodup_cons.1 hL
    rw [muxSend] at h
    by_cases hpi : p = i
    · rw [if_pos hpi] at h
      refine cast ?_ (ih hL ps Q h)
      congr 2
      funext x
      by_cases hx : x.1 = i ∧ x.2.1 ∈ L ∧ x.2.1 ≠ i
      · rw [if_pos hx, if_pos ⟨hx.1, List.mem_cons_of_mem _ hx.2.1, hx.2.2⟩]
      · rw [if_neg hx, if_neg]
        rintro ⟨h1, h2, h3⟩
        rcases List.mem_cons.1 h2 with h2 | h2
        · exact h3 (h2.trans hpi)
        · exact hx ⟨h1, h2, h3⟩
    · rw [if_neg hpi] at h
      refine cast ?_ ((reach_send hP i Q h).trans ((reach_send hP i _ (Function.update_self i _ _)).trans
        ((reach_send hP i _ (Function.update_self i _ _)).trans (ih hL _ _ (Function.update_self i _ _)))))
      congr 2
      · simp only [Function.update_idem]
      · funext ⟨a, d, s⟩
        dsimp only
        by_cases ha : a = i
        · subst ha
          by_cases hd : d = p
          · subst hd
            rw [if_neg (fun h => hp h.2.1), if_pos ⟨rfl, List.mem_cons_self, hpi⟩]
            cases s <;> simp
          · simp [hd]
        · simp [ha]

/-- A party receives from everybody. -/
theorem reach_muxRecv (i : Fin n) (k : List (List (Fin (2 ^ 32))) → Proc α) (L : List Nat) (hL : L.Nodup) (ps : Fin n → Proc α)
    (Q : Queues) (x y z : List (Fin (2 ^ 32))) (h : ps i = (muxRecv i L [x, y, z]).bind k)
    (hQ : ∀ p ∈ L, p ≠ i → ∀ s, Q (p, i, s) = [[UInt8.ofNat p]]) :
    let got := (L.filter (· ≠ ↑i)).map fun p => Fin.ofNat (2 ^ 32) (UInt8.ofNat p).toNat
    ∃ Q' : Queues, Reach P ⟨ps, Q⟩ ⟨Function.update ps i (k [x ++ got, y ++ got, z ++ got]), Q'⟩ ∧
      ∀ a d s, d ≠ ↑i → Q' (a, d, s) = Q (a, d, s) := by
  induction L generalizing ps Q x y z with
  | nil =>
    refine ⟨Q, ?_, fun _ _ _ _ => rfl⟩
    have : Function.update ps i (k [x, y, z]) = ps := by
      rw [show k [x, y, z] = ps i from h.symm, Function.update_eq_self]
    simpa [this] using Reach.refl _
  | cons p L ih =>
    obtain ⟨hp, hL⟩ := List.nodup_cons.1 hL
    rw [muxRecv] at h
    by_cases hpi : p = i
    · rw [if_pos hpi] at h
      rw [List.filter_cons_of_neg (by simpa using hpi)]
      exact ih hL ps Q x y z h fun q hq => hQ q (List.mem_cons_of_mem _ hq)
    · rw [if_neg hpi] at h
      obtain ⟨Q₁, r₁, h₁⟩ := reach_recv3 (P := P) i Q h (hQ p List.mem_cons_self hpi)
      obtain ⟨Q', r, h'⟩ := ih hL _ Q₁ (x ++ [Fin.ofNat (2 ^ 32) (UInt8.ofNat p).toNat])
        (y ++ [Fin.ofNat (2 ^ 32) (UInt8.ofNat p).toNat]) (z ++ [Fin.ofNat (2 ^ 32) (UInt8.ofNat p).toNat])
        (Function.update_self i _ ps) fun q hq hqi s => by
          rw [h₁ q i s (.inl fun h => hp (h ▸ hq))]
          exact hQ q (List.mem_cons_of_mem _ hq) hqi s
      refine ⟨Q', ?_, fun a d s hd => by rw [h' a d s hd, h₁ a d s (.inr hd)]⟩
      refine cast ?_ (r₁.trans r)
      rw [List.filter_cons_of_pos (by simpa using hpi)]
      simp only [Function.update_idem, List.map_cons, List.append_assoc, List.singleton_append]

theorem muxSend_wf (me : Nat) (L : List Nat) : (muxSend me L).WF fun _ => True := by
  induction L with
  | nil => exact .done _ _
  | cons p L ih =>
    rw [muxSend]
    split
    · exact ih
    · exact .send trivial (.send trivial (.send trivial ih))

theorem muxRecv_wf (me : Nat) (L : List Nat) (ids : List (List (Fin (2 ^ 32)))) : (muxRecv me L ids).WF fun _ => True := by
  induction L generalizing ids with
  | nil => exact .done _ _
  | cons p L ih =>
    rw [muxRecv]
    split
    · exact ih _
    · exact .recv trivial fun _ => .recv trivial fun _ => .recv trivial fun _ => .bind (.done _ _) fun _ => ih _

/-- All parties send. -/
theorem reach_muxSend_all (hP : ∀ b, P b) (peers : Nat → List Nat) (hnd : ∀ i < n, (peers i).Nodup) (k : Fin n → Proc α) :
    ∃ Q : Queues, Reach P (Net.init fun i => (muxSend i (peers i)).bind fun _ => k i) ⟨k, Q⟩ ∧
      ∀ i < n, ∀ d ∈ peers i, d ≠ i → ∀ s, Q (i, d, s) = [[UInt8.ofNat i]] := by
  suffices h : ∀ m ≤ n, ∃ Q : Queues, Reach P (Net.init fun i => (muxSend i (peers i)).bind fun _ => k i)
      ⟨fun i => if i.val < m then k i else (muxSend i (peers i)).bind fun _ => k i, Q⟩ ∧
      (∀ i < m, ∀ d ∈ peers i, d ≠ i → ∀ s, Q (i, d, s) = [[UInt8.ofNat i]]) ∧ ∀ i, m ≤ i → ∀ d s, Q (i, d, s) = [] by
    obtain ⟨Q, r, h, -⟩ := h n le_rfl
    refine ⟨Q, ?_, h⟩
    have : (fun i : Fin n => if i.val < n then k i else (muxSend i (peers i)).bind fun _ => k i) = k := by
      funext i
      rw [if_pos i.2]
    rwa [this] at r
  intro m
  induction m with
  | zero =>
    intro _
    exact ⟨fun _ => [], by simp only [Nat.not_lt_zero, if_false]; exact Reach.refl _, fun i hi => absurd hi (by omega), fun _ _ _ _ => rfl⟩
  | succ m ih =>
    intro hm
    obtain ⟨Q, r, h1, h2⟩ := ih (by omega)
    refine ⟨fun x => if x.1 = m ∧ x.2.1 ∈ peers m ∧ x.2.1 ≠ m then Q x ++ [[UInt8.ofNat m]] else Q x,
      r.trans (cast ?_ (reach_muxSend hP ⟨m, hm⟩ (fun _ => k ⟨m, hm⟩) (peers m) (hnd m hm)
      (fun i => if i.val < m then k i else (muxSend i (peers i)).bind fun _ => k i) Q (if_neg (lt_irrefl m)))), ?_, ?_⟩
    · congr 2
      funext i
      rw [Function.update_apply]
      by_cases hi : i = ⟨m, hm⟩
      · subst hi
        rw [if_pos rfl, if_pos (Nat.lt_succ_self m)]
      · have : i.val ≠ m := fun h => hi (Fin.ext h)
        rw [if_neg hi]
        by_cases him : i.val < m
        · rw [if_pos him, if_pos (by omega)]
        · rw [if_neg him, if_neg (by omega)]
    · intro i hi d hd hdi s
      dsimp only
      by_cases him : i = m
      · subst him
        rw [if_pos ⟨rfl, hd, hdi⟩, h2 i le_rfl]
        rfl
      · rw [if_neg fun h => him h.1, h1 i (by omega) d hd hdi]
    · intro i hi d s
      dsimp only
      rw [if_neg fun h => by omega, h2 i (by omega)]

/-- All parties receive. -/
theorem reach_muxRecv_all (peers : Nat → List Nat) (hnd : ∀ i < n, (peers i).Nodup) (k : Fin n → List (List (Fin (2 ^ 32))) → Proc α)
    (Q : Queues) (hQ : ∀ i < n, ∀ p ∈ peers i, p ≠ i → ∀ s, Q (p, i, s) = [[UInt8.ofNat p]]) (got : Nat → List (Fin (2 ^ 32)))
    (hgot : ∀ i < n, got i = ((peers i).filter (· ≠ i)).map fun p => Fin.ofNat (2 ^ 32) (UInt8.ofNat p).toNat) :
    ∃ Q' : Queues, Reach P ⟨fun i => (muxRecv i (peers i) [[], [], []]).bind (k i), Q⟩ ⟨fun i => k i [got i, got i, got i], Q'⟩ := by
  suffices h : ∀ m ≤ n, ∃ Q' : Queues, Reach P ⟨fun i => (muxRecv i (peers i) [[], [], []]).bind (k i), Q⟩
      ⟨fun i => if i.val < m then k i [got i, got i, got i] else (muxRecv i (peers i) [[], [], []]).bind (k i), Q'⟩ ∧
      ∀ d, m ≤ d → ∀ a s, Q' (a, d, s) = Q (a, d, s) by
    obtain ⟨Q', r, -⟩ := h n le_rfl
    refine ⟨Q', ?_⟩
    have : (fun i : Fin n => if i.val < n then k i [got i, got i, got i] else (muxRecv i (peers i) [[], [], []]).bind (k i)) =
        fun i => k i [got i, got i, got i] := by
      funext i
      rw [if_pos i.2]
    rwa [this] at r
  intro m
  induction m with
  | zero =>
    intro _
    exact ⟨Q, by simpa using Reach.refl _, fun _ _ _ _ => rfl⟩
  | succ m ih =>
    intro hm
    obtain ⟨Q', r, h⟩ := ih (by omega)
    obtain ⟨Q₁, r₁, h₁⟩ := reach_muxRecv (P := P) ⟨m, hm⟩ (k ⟨m, hm⟩) (peers m) (hnd m hm)
      (fun i => if i.val < m then k i [got i, got i, got i] else (muxRecv i (peers i) [[], [], []]).bind (k i)) Q' [] [] [] (if_neg (lt_irrefl m))
      fun p hp hpm s => by rw [h m le_rfl]; exact hQ m hm p hp hpm s
    refine ⟨Q₁, r.trans (cast ?_ r₁), fun d hd a s => by
      rw [h₁ a d s (by show d ≠ m; omega), h d (by omega)]⟩
    congr 2
    funext i
    rw [Function.update_apply]
    by_cases hi : i = ⟨m, hm⟩
    · subst hi
      rw [if_pos rfl, if_pos (Nat.lt_succ_self m), hgot m hm]
      rfl
    · have : i.val ≠ m := fun h => hi (Fin.ext h)
      rw [if_neg hi]
      by_cases him : i.val < m
      · rw [if_pos him, if_pos (by omega)]
      · rw [if_neg him, if_neg (by omega)]

/-- **C69** `test_multiplexing`: with up to 256 parties, in whatever order the hash maps of the parties list their peers and under
every schedule, all parties finish and all assertions hold. (From 257 parties on `my_id as u8` cuts identities off.) -/
theorem C69_test_multiplexing (dbg : Bool) (n : Nat) (hn : n ≤ 256) (peers peers' : Nat → List Nat)
    (h1 : ∀ i < n, (peers i).Perm (List.range n)) (h2 : ∀ i < n, (peers' i).Perm (List.range n)) :
    AlwaysYields (Net.init fun i : Fin n => testMultiplexing dbg n i (peers i) (peers' i)) (fun _ => ()) := by
  have hids := sum_ids (n := n) (by norm_num; omega)
  have hbound : ∑ i ∈ range n, i < 2 ^ 32 := by
    have : ∑ i ∈ range n, i ≤ ∑ i ∈ range n, 256 := sum_le_sum fun i hi => by have := mem_range.1 hi; omega
    rw [sum_const, card_range, smul_eq_mul] at this
    norm_num
    omega
  have hexp : sumU32 dbg ((List.range n).map (Fin.ofNat _)) = .ok (Fin.ofNat _ (∑ i ∈ range n, i)) := by
    rw [sumU32, foldU32 dbg _ 0 fun _ => by rw [hids]; simpa using hbound, hids]
    simp
  have hprog : ∀ i : Fin n, testMultiplexing dbg n i (peers i) (peers' i) = (muxSend i (peers i)).bind fun _ =>
      (muxRecv i (peers' i) [[], [], []]).bind fun ids => Proc.bind (.done ((ids.filter fun l => !l.isEmpty).mapM fun l => do
        let s ← sumU32 dbg l
        let s ← addU32 dbg s (Fin.ofNat _ i)
        assert (Fin.ofNat _ (∑ i ∈ range n, i) == s) : Res (List Unit))) fun _ => .done (.ok ()) := by
    intro i
    unfold testMultiplexing
    rw [hexp]
    rfl
  have hgot : ∀ i < n, (((peers' i).filter (· ≠ i)).map fun p => Fin.ofNat (2 ^ 32) (UInt8.ofNat p).toNat).map Fin.val =
      (peers' i).filter (· ≠ i) := by
    intro i hi
    rw [List.map_map]
    conv_rhs => rw [← List.map_id ((peers' i).filter (· ≠ i))]
    apply List.map_congr_left
    intro p hp
    have hp := List.mem_range.1 ((h2 i hi).mem_iff.1 (List.mem_filter.1 hp).1)
    show (UInt8.ofNat p).toNat % 2 ^ 32 = p
    rw [UInt8.toNat_ofNat_of_lt' (by show p < 256; omega)]
    exact Nat.mod_eq_of_lt (by norm_num; omega)
  have hsum : ∀ i < n, ((peers' i).filter (· ≠ i)).sum + i = ∑ i ∈ range n, i := by
    intro i hi
    rw [((h2 i hi).filter _).sum_eq]
    have h := List.sum_erase (List.mem_range.2 hi)
    rw [List.nodup_range.erase_eq_filter] at h
    have h' := sum_map_range n fun i => i
    rw [List.map_id'] at h'
    rw [← h', ← h, add_comm]
    congr 2
    apply List.filter_congr
    intro x _
    by_cases hx : x = i <;> simp [hx]
  obtain ⟨Q, r, hQ⟩ := reach_muxSend_all (P := fun _ => True) (fun _ => trivial) peers (fun i hi => (h1 i hi).nodup_iff.2 List.nodup_range)
    (fun i : Fin n => (muxRecv i (peers' i) [[], [], []]).bind fun ids => Proc.bind (.done ((ids.filter fun l => !l.isEmpty).mapM fun l => do
        let s ← sumU32 dbg l
        let s ← addU32 dbg s (Fin.ofNat _ i)
        assert (Fin.ofNat _ (∑ i ∈ range n, i) == s) : Res (List Unit))) fun _ => .done (.ok ()))
  obtain ⟨Q', r'⟩ := reach_muxRecv_all (P := fun _ => True) peers' (fun i hi => (h2 i hi).nodup_iff.2 List.nodup_range)
    (fun (i : Fin n) ids => Proc.bind (.done ((ids.filter fun l => !l.isEmpty).mapM fun l => do
        let s ← sumU32 dbg l
        let s ← addU32 dbg s (Fin.ofNat _ i)
        assert (Fin.ofNat _ (∑ i ∈ range n, i) == s) : Res (List Unit))) fun _ => .done (.ok ())) Q
    (fun i hi p hp hpi s => by
      have hp := List.mem_range.1 ((h2 i hi).mem_iff.1 hp)
      exact hQ p hp i ((h1 p hp).mem_iff.2 (List.mem_range.2 hi)) hpi.symm s) _ fun _ _ => rfl
  have hfin : (fun i : Fin n => testMultiplexing dbg n i (peers i) (peers' i)) = _ := funext hprog
  rw [hfin]
  obtain ⟨m, hm⟩ := r.trans r'
  refine alwaysYields_of_run (P := fun _ => True) (fun i => ⟨_, (muxSend_wf _ _).bind fun _ => (muxRecv_wf _ _ _).bind fun _ =>
    .bind (.done _ _) fun _ => .done _ _⟩) (m := m) (Q := Q') (cast ?_ hm)
  congr 2
  funext i
  have hv := hgot i i.2
  have hs := hsum i i.2
  generalize ((peers' i).filter (· ≠ ↑i)).map (fun p => Fin.ofNat (2 ^ 32) (UInt8.ofNat p).toNat) = got at hv
  have hone : (do
      let s ← sumU32 dbg got
      let s ← addU32 dbg s (Fin.ofNat _ i)
      assert (Fin.ofNat _ (∑ i ∈ range n, i) == s)) = .ok () := by
    have hi : Fin.val (Fin.ofNat (2 ^ 32) i.val) = i := Nat.mod_eq_of_lt (by norm_num; omega)
    have hg : Fin.val (Fin.ofNat (2 ^ 32) (got.map Fin.val).sum) = (got.map Fin.val).sum := Nat.mod_eq_of_lt (by rw [hv]; omega)
    rw [sumU32, foldU32 dbg _ 0 fun _ => by rw [hv]; show 0 + _ < _; omega, ok_bind, addU32, debugAssert_of, ok_bind]
    · show assert (_ == _) = _
      rw [assert_of]
      rw [beq_iff_eq]
      apply Fin.ext
      rw [Fin.val_add, hi]
      show _ % _ = ((0 + _) % _ + _) % _
      rw [hv, Nat.mod_add_mod, Nat.zero_add, hs]
    · rw [decide_eq_true_iff, hi]
      show (0 + _) % _ + _ < _
      rw [hv, Nat.zero_add, Nat.mod_eq_of_lt (by omega)]
      omega
  by_cases he : got.isEmpty
  · rw [List.filter_cons_of_neg (by simp [he]), List.filter_cons_of_neg (by simp [he]), List.filter_cons_of_neg (by simp [he])]
    rfl
  · rw [List.filter_cons_of_pos (by simp [he]), List.filter_cons_of_pos (by simp [he]), List.filter_cons_of_pos (by simp [he])]
    simp only [List.filter_nil, List.mapM_cons, hone]
    rfl

end mux

/-! ### Examples -/

section examples

/-- The tests of `pss.rs` as they are, over `ZMod 17`. -/
example (dbg : Bool) (rng : Nat → ZMod 17) : pp17.testPacking dbg [3, 5] rng = .ok () :=
  (C69_test_packing (b := 1) (pp17_eq dbg) dbg [3, 5] rfl rng).trans (if_neg (by omega))

example : testInitialize (F := ZMod 17) true (2 ^ 1) = .ok () := C69_test_initialize true 1 (by decide)

/-- With `l = 4` there are 13 shares for a bound of 15, and the debug build panics. -/
example {pp : PSS (ZMod 17)} (hpp : PSS.new true (2 ^ 2) = .ok pp) (rng : Nat → ZMod 17) :
    pp.testPacking true [1, 2, 3, 4] rng = panic' ∧ pp.testPacking false [1, 2, 3, 4] rng = .ok () :=
  ⟨C69_test_packing hpp true [1, 2, 3, 4] rfl rng, C69_test_packing hpp false [1, 2, 3, 4] rfl rng⟩

example : ∃ pp : PSS (ZMod 17), PSS.new true (2 ^ 2) = .ok pp := ⟨_, PSS.new_pow2 true (by decide)⟩

example (dbg : Bool) : pp17.testDetPacking dbg [3, 5] = .ok () := C69_test_det_packing (b := 1) (pp17_eq dbg) dbg [3, 5] rfl

example (dbg : Bool) (rng : Nat → ZMod 17) : pp17.testMultiplication dbg [3, 5] rng = .ok () :=
  C69_test_multiplication (b := 1) (pp17_eq dbg) dbg [3, 5] rfl rng

example : testEvalInterpolate ([1, 2, 3] : List (ZMod 17)) = .ok () ∧ testEvalInterpolate ([1, 2, 0] : List (ZMod 17)) = panic' := by
  have h : ∀ k : Nat, 0 < k → k ≤ 6 → (k : ZMod 17) ≠ 0 := by
    intro k h1 h2
    interval_cases k <;> decide
  exact ⟨C69_test_eval_interpolate [1, 2, 3] h, C69_test_eval_interpolate [1, 2, 0] h⟩

example : pp17.testErrorCorrection [1, 4] 1 5 (4 * 2 ^ 1) 4 = .ok () :=
  C69_test_error_correction (b := 1) (pp17_eq true) [1, 4] 1 (by omega) 5 4 (by simp) (by omega)

example (dbg : Bool) (rng : Nat → ZMod 17) : pp17.packUnpackTest dbg ([3, 5] : List (ZMod 17)) rng = .ok () :=
  C69_pack_unpack_test (b := 1) (pp17_eq dbg) dbg [3, 5] rfl rng

example (dbg : Bool) (rngG rngF : Nat → Nat → ZMod 17) :
    pp17.packUnpack2Test dbg ([3, 5, 7, 9] : List (ZMod 17)) [1, 2, 3, 4] rngG rngF = .ok () :=
  C69_pack_unpack2_test (b := 1) (pp17_eq dbg) dbg (N := 2) (by omega) [3, 5, 7, 9] [1, 2, 3, 4] rfl rfl rngG rngF

example (dbg : Bool) (rng₀ vals : Nat → ZMod 17) (rngIn rngOut rng : Nat → Nat → ZMod 17) :
    PassesLossy pp17.n (pp17.testDegRed dbg [3, 5] rng₀ vals rngIn rngOut rng) :=
  C69_test_deg_red (b := 1) (pp17_eq dbg) dbg [3, 5] rfl rng₀ vals rngIn rngOut rng

example (dbg : Bool) (rng₀ vals : Nat → Nat → ZMod 17) (rngIn rngOut rng : Nat → Nat → Nat → ZMod 17) :
    Passes pp17.n (pp17.cosetWorks dbg dom17 3 (2 ^ (1 + 1)) [1, 2, 3, 4] rng₀ vals rngIn rngOut rng) :=
  C69_coset_works (b := 1) (pp17_eq dbg) dbg 1 (by omega) dom17_eq (by decide) [1, 2, 3, 4] rfl rng₀ vals rngIn rngOut rng

example (dbg : Bool) (rng₀ : Nat → Nat → ZMod 17) (vals : Nat → ZMod 17) (rngIn rngOut rng : Nat → Nat → ZMod 17) :
    Passes pp17.n (pp17.dFftWorks dbg dom17 (2 ^ (1 + 1)) [1, 2, 3, 4] rng₀ vals rngIn rngOut rng) ∧
    Passes pp17.n (pp17.dIfftWorks dbg dom17 (2 ^ (1 + 1)) [1, 2, 3, 4] rng₀ vals rngIn rngOut rng) :=
  ⟨C69_d_fft_works (b := 1) (pp17_eq dbg) dbg 1 (by omega) dom17_eq [1, 2, 3, 4] rfl rng₀ vals rngIn rngOut rng,
    C69_d_ifft_works (b := 1) (pp17_eq dbg) dbg 1 (by omega) dom17_eq [1, 2, 3, 4] rfl rng₀ vals rngIn rngOut rng⟩

example (dbg : Bool) (rng₀ : Nat → Nat → ZMod 17) (vals : Nat → Nat → ZMod 17) (rngIn rngOut rng : Nat → Nat → Nat → ZMod 17) :
    Passes pp17.n (pp17.dIfftxdFftWorks dbg dom17 (2 ^ (1 + 1)) [1, 2, 3, 4] rng₀ vals rngIn rngOut rng) :=
  C69_d_ifftxd_fft_works (b := 1) (pp17_eq dbg) dbg 1 (by omega) dom17_eq [1, 2, 3, 4] rfl rng₀ vals rngIn rngOut rng

/-- Four parties, as in the test; party 2 goes through its peers backwards. -/
example (dbg : Bool) : AlwaysYields (Net.init fun i : Fin 4 => testMultiplexing dbg 4 i
    (if i.val = 2 then [3, 2, 1, 0] else [0, 1, 2, 3]) [0, 1, 2, 3]) (fun _ => ()) :=
  C69_test_multiplexing dbg 4 (by omega) (fun i => if i = 2 then [3, 2, 1, 0] else [0, 1, 2, 3]) (fun _ => [0, 1, 2, 3])
    (fun i hi => by split <;> decide) (fun _ _ => List.Perm.refl _)

end examples

end Properties

end ZkSaas
