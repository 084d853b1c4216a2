import Verif.Properties.Checks
import Verif.Lemmas.Robust

/-!
# C73: the multi-scalar multiplication benchmarks
-/

namespace ZkSaas.Properties

open ZkSaas ZkSaas.Spec Finset

variable {F : Type} [Field F] [DecidableEq F] {G : Type} [AddCommGroup G] [Module F G]

/-- Equal values are shares of themselves. -/
theorem const_shares {pp : PSS F} (hl : 0 < pp.l) (v : G) :
    pp.Shares (4 * pp.l - 1) ((List.range (4 * pp.l)).map fun _ => v) (List.replicate pp.l v) := by
  refine ⟨by simp, by simp, fun j => if j = 0 then v else 0, ?_, ?_⟩
  · intro i hi
    rw [getD_map_range, if_pos hi, pval, Finset.sum_eq_single_of_mem 0 (by simp; omega) (by intro j _ hj; simp [hj])]
    simp
  · intro k hk
    rw [getD_replicate', if_pos hk, pval, Finset.sum_eq_single_of_mem 0 (by simp; omega) (by intro j _ hj; simp [hj])]
    simp

variable [DecidableEq G] [FixedWire G]

theorem benchRound_eq (pp : PSS F) (dbg : Bool) (n me : Nat) (dom : Domain F) (y : Nat → F) (x : Nat → G) :
    pp.dMsmBenchRound dbg n me dom y x =
      (clientSendOrKingReceiveSer n me (∑ c ∈ range dom.size, y c • x c) .one pp.t).bind fun r =>
        (Proc.done (kingDo (fun rs : ReceivedShares G => pp.msmKing dbg n rs.shares rs.parties) r)).bind fun a =>
          (clientReceiveOrKingSendSer n me a .one).bind fun o => .done (.ok (o + 0)) := by
  unfold PSS.dMsmBenchRound PSS.dMsm
  simp only
  rw [debugAssert_of (by simp), msm_eq (N := dom.size) (by simp) (by simp)]
  have : ∑ c ∈ range dom.size, ((List.range dom.size).map y).getD c 0 • ((List.range dom.size).map x).getD c 0 =
      ∑ c ∈ range dom.size, y c • x c := by
    apply sum_congr rfl
    intro c hc
    rw [getD_map_range, getD_map_range, if_pos (mem_range.1 hc), if_pos (mem_range.1 hc)]
  rw [this]
  show (clientSendOrKingReceiveSer n me (∑ c ∈ range dom.size, y c • x c + 0) .one pp.t).bind _ = _
  rw [add_zero]
  rfl

/-- One multi-scalar multiplication on vectors that are the same at all parties. -/
theorem benchRound_runs {pp : PSS F} (hg : pp.Good) (dbg : Bool) (dom : Domain F) (y : Nat → F) (x : Nat → G) {n : Nat}
    (hn : n = 4 * pp.l) : Runs (Upto (FixedWire.width G)) (only .one) (fun i : Fin n => pp.dMsmBenchRound dbg n i dom y x)
      (fun _ => pp.l • ∑ c ∈ range dom.size, y c • x c) := by
  have hl := hg.lpos
  have hK := PSS.msmKing_ok hg dbg n (d := 4 * pp.l - 1) le_rfl (Or.inl rfl : pp.Decodable dbg (4 * pp.l - 1) _)
    (const_shares hl (∑ c ∈ range dom.size, y c • x c))
  rw [List.sum_replicate] at hK
  refine (runs_round (by omega) .one pp.t (fun _ => ∑ c ∈ range dom.size, y c • x c) (fun i hi => Wire.ok_fixed _)
      (fun i rs => pp.msmKing dbg n rs.shares rs.parties) (fun i => pp.l • ∑ c ∈ range dom.size, y c • x c) (FixedWire.width G) ?_
      (fun i hi => ⟨Wire.ok_fixed _, FixedWire.enc_length _⟩)
      (fun i y => .done (.ok (y + 0))) (Runs.done _)
      (fun i hi _ => (FixedWire.enc_length _).le) (fun i hi _ => (FixedWire.enc_length _).le)).congr (fun i => ?_)
      (fun i => (add_zero _).symm)
  · subst hn
    rw [hK]
    simp
  · exact benchRound_eq ..

variable [FftField F]

theorem domain_of_exp {e : Nat} (h : e ≤ FftField.TWO_ADICITY F) : ∃ dom : Domain F, Domain.new (1 <<< e) = some dom ∧ dom.size = 2 ^ e := by
  rw [Nat.one_shiftLeft]
  unfold Domain.new
  simp only [clog_two_pow]
  rw [if_neg (by omega)]
  exact ⟨_, rfl, rfl⟩

theorem benchLoop_runs {pp : PSS F} (hg : pp.Good) (dbg : Bool) (exps : List Nat) (hexps : ∀ e ∈ exps, e ≤ FftField.TWO_ADICITY F)
    (y : Nat → F) (x : Nat → G) {n : Nat} (hn : n = 4 * pp.l) (acc : List G) :
    Runs (Upto (FixedWire.width G)) (only .one) (fun i : Fin n => (exps.foldlM (fun outs i' => do
      let dom ← (unwrap (Domain.new (1 <<< i')) : Res (Domain F))
      let out ← pp.dMsmBenchRound dbg n i dom y x
      pure (outs ++ [out])) acc : Proc (List G))) (fun _ => acc ++ exps.map fun e => pp.l • ∑ c ∈ range (2 ^ e), y c • x c) := by
  induction exps generalizing acc with
  | nil => simpa using Runs.done (P := Upto (FixedWire.width G)) (S := only .one) fun _ : Fin n => acc
  | cons e exps ih =>
    obtain ⟨dom, hdom, hsize⟩ := domain_of_exp (F := F) (hexps e (by simp))
    have h1 := ih (fun e he => hexps e (by simp [he])) (acc ++ [pp.l • ∑ c ∈ range (2 ^ e), y c • x c])
    refine (Runs.bind (hsize ▸ benchRound_runs hg dbg dom y x hn) (f := fun i o => exps.foldlM (fun outs i' => do
      let dom ← (unwrap (Domain.new (1 <<< i')) : Res (Domain F))
      let out ← pp.dMsmBenchRound dbg n i dom y x
      pure (outs ++ [out])) (acc ++ [o])) h1).congr (fun i => ?_) fun _ => by simp
    rw [List.foldlM_cons, hdom]
    show Proc.bind (Proc.bind (pp.dMsmBenchRound dbg n i dom y x) _) _ = _
    rw [Proc.bind_assoc]
    rfl

/-- **C73** `dmsm_bench`: as every party draws its vectors from the same generator, the shares of all parties are equal, and in every
build, for all draws and under every schedule every party ends each size with `l` times the sum of the products. -/
theorem C73_dmsm_bench {dbg : Bool} {b : Nat} {pp : PSS F} (hpp : PSS.new dbg (2 ^ b) = .ok pp) (exps : List Nat)
    (hexps : ∀ e ∈ exps, e ≤ FftField.TWO_ADICITY F) (y : Nat → F) (x : Nat → G) :
    AlwaysYields (Net.init fun i : Fin (4 * 2 ^ b) => dMsmBench dbg (2 ^ b) (4 * 2 ^ b) i exps y x)
      (fun _ => exps.map fun e => 2 ^ b • ∑ c ∈ range (2 ^ e), y c • x c) := by
  have hg := PSS.good_of_new hpp
  have hle := l_eq hpp
  have h := benchLoop_runs hg dbg exps hexps y x (n := 4 * 2 ^ b) (by rw [hle]) []
  rw [hle] at h
  have hprog : ∀ i : Fin (4 * 2 ^ b), dMsmBench dbg (2 ^ b) (4 * 2 ^ b) i exps y x = (exps.foldlM (fun outs i' => do
      let dom ← (unwrap (Domain.new (1 <<< i')) : Res (Domain F))
      let out ← pp.dMsmBenchRound dbg (4 * 2 ^ b) i dom y x
      pure (outs ++ [out])) [] : Proc (List G)) := by
    intro i
    unfold dMsmBench
    rw [hpp]
    rfl
  refine Runs.alwaysYields (h.congr hprog fun _ => rfl) fun i => ?_
  rw [hprog i]
  suffices ∀ acc : List G, Proc.WF (only .one) (exps.foldlM (fun outs i' => do
      let dom ← (unwrap (Domain.new (1 <<< i')) : Res (Domain F))
      let out ← pp.dMsmBenchRound dbg (4 * 2 ^ b) i dom y x
      pure (outs ++ [out])) acc : Proc (List G)) from this []
  clear hexps h hprog
  intro acc
  induction exps generalizing acc with
  | nil => exact .done _ _
  | cons e exps ih =>
    rw [List.foldlM_cons]
    refine Proc.WF.bind (Proc.WF.bind (.done _ _) fun _ => Proc.WF.bind (PSS.dMsm_wf _ ((by positivity)) _ _ _ _ _) fun _ => .done _ _) fun _ => ih _

/-- **C73** `msm_bench` succeeds and computes the sums of the products. -/
theorem C73_msm_bench (exps : List Nat) (hexps : ∀ e ∈ exps, e ≤ FftField.TWO_ADICITY F) (y : Nat → F) (x : Nat → G) :
    msmBench exps y x = .ok (exps.map fun e => ∑ c ∈ range (2 ^ e), y c • x c) := by
  unfold msmBench
  apply mapM_ok
  intro e he
  obtain ⟨dom, hdom, hsize⟩ := domain_of_exp (F := F) (hexps e he)
  have : ∑ c ∈ range dom.size, ((List.range dom.size).map y).getD c 0 • ((List.range dom.size).map x).getD c 0 =
      ∑ c ∈ range dom.size, y c • x c := by
    apply sum_congr rfl
    intro c hc
    rw [getD_map_range, getD_map_range, if_pos (mem_range.1 hc), if_pos (mem_range.1 hc)]
  rw [hdom]
  show unwrap (msm _ _).toOption = _
  rw [msm_eq (N := dom.size) (by simp) (by simp), this, hsize]
  rfl

/-- **C73** If every party drew vectors of its own, a debug build would panic at the king, unless the local products happen to lie on
a polynomial of degree below `4l - 1`. -/
theorem C73_own_draws {dbg₀ : Bool} {b : Nat} {pp : PSS F} (hpp : PSS.new dbg₀ (2 ^ b) = .ok pp) (dom : Domain F) (y : Nat → Nat → F)
    (x : Nat → Nat → G) (h : ∑ i ∈ range (4 * 2 ^ b), pp.share.groupGen ^ i • ∑ c ∈ range dom.size, y i c • x i c ≠ 0) :
    AlwaysKingFails (Net.init fun i : Fin (4 * 2 ^ b) => pp.dMsmBenchRound true (4 * 2 ^ b) i dom (y i) (x i)) .panic := by
  have hg := PSS.good_of_new hpp
  have hle := l_eq hpp
  rw [show (fun i : Fin (4 * 2 ^ b) => pp.dMsmBenchRound true (4 * 2 ^ b) i dom (y i) (x i)) = _ from funext fun i => benchRound_eq ..]
  refine round_king_fails ((by positivity)) .one pp.t (fun i => ∑ c ∈ range dom.size, y i c • x i c) (fun i hi => Wire.ok_fixed _)
    (fun i rs => pp.msmKing true _ rs.shares rs.parties) .panic ?_ _ fun _ _ => .done _ _
  unfold PSS.msmKing PSS.unpackMissingShares
  rw [debugAssert_of (by simp), ok_bind, if_pos (by simp [hg.n_eq, hle]), ← hle, PSS.unpack2_panics hg fun r hr => h ?_]
  · rfl
  · rw [← hle]; exact PSS.unpack2_checks hg hr

/-! ### Examples -/

/-- The benchmark on vectors of two, four and eight entries between eight parties. -/
example (dbg : Bool) : AlwaysYields (Net.init fun i : Fin (4 * 2 ^ 1) =>
    dMsmBench dbg (2 ^ 1) (4 * 2 ^ 1) i [1, 2, 3] (fun c => (c : ZMod 17) + 1) fun c => (2 * c + 3 : ZMod 17)) (fun _ => [9, 4, 4]) := by
  have := C73_dmsm_bench (pp17_eq dbg) [1, 2, 3] (by decide) (fun c => (c : ZMod 17) + 1) fun c => (2 * c + 3 : ZMod 17)
  rwa [show ([1, 2, 3].map fun e => 2 ^ 1 • ∑ c ∈ range (2 ^ e), ((c : ZMod 17) + 1) • (2 * c + 3 : ZMod 17)) = [9, 4, 4] by decide +kernel] at this

example : msmBench [1, 2, 3] (fun c => (c : ZMod 17) + 1) (fun c => (2 * c + 3 : ZMod 17)) = .ok [13, 2, 2] := by
  rw [C73_msm_bench [1, 2, 3] (by decide)]
  decide +kernel

/-- Party `i` draws `i`, `i + 1`, … -/
example : AlwaysKingFails (Net.init fun i : Fin (4 * 2 ^ 1) =>
    pp17.dMsmBenchRound true (4 * 2 ^ 1) i dom17 (fun c => ((i + c : Nat) : ZMod 17)) fun c => ((i + c : Nat) : ZMod 17)) .panic :=
  C73_own_draws (pp17_eq true) dom17 (fun i c => ((i + c : Nat) : ZMod 17)) (fun i c => ((i + c : Nat) : ZMod 17)) (by decide +kernel)

end ZkSaas.Properties
