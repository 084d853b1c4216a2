import Verif.Properties.Qap
import Verif.Lemmas.ProdNet

/-!
# C32: `libsnark_h` when the domain is the whole multiplicative group
-/

set_option linter.unusedSectionVars false

namespace ZkSaas.Properties

open Finset Spec Polynomial

variable {F : Type} [Field F] [DecidableEq F] [FftField F] [FixedWire F]

/-- A protocol after which everybody fails. -/
theorem runs_then_fail {n : Nat} {α β : Type} {P : Bytes → Prop} {ps : Fin n → Proc α} {rs : Fin n → α}
    (h : Runs P (fun _ => True) ps rs) (hwf : ∀ i, (ps i).WF fun _ => True) (e : Fault) :
    AlwaysHalts (Net.init fun i => (ps i).bind fun _ => (Proc.done (.error e) : Proc β)) fun c =>
      (∀ i, c.procs i = .done (.error e)) ∧ ∀ x, c.queues x = [] := by
  have hr : Reach All (Net.init fun i => (ps i).bind fun _ => (Proc.done (.error e) : Proc β)) ⟨fun _ => .done (.error e), fun _ => []⟩ :=
    Reach.bind ((h.weaken fun _ _ => trivial) (fun _ => []) fun _ _ _ _ => rfl) fun _ _ => Proc.done (.error e)
  refine alwaysHalts_of_run (fun i => ⟨fun _ => True, (hwf i).bind fun _ => .done _ _⟩) hr ?_ ?_ ⟨fun _ => rfl, fun _ => rfl⟩
  · intro i a p' hs
    cases hs
  · intro i hs
    cases hs

/-- **C32** If every non-zero element of the field lies on the domain, the coset that `libsnark_h` divides on is the domain itself and
the vanishing polynomial is zero on it: the six transforms are carried out, and then every server panics. -/
theorem C32_whole_group_panics {dbg₀ : Bool} {b : Nat} {pp : PSS F} (hpp : PSS.new dbg₀ (2 ^ b) = .ok pp) (dbg : Bool) (a : Nat)
    (ha : a < 64) {dom : Domain F} (hdom : Domain.new (2 ^ (a + b)) = some dom) (hall : ∀ x : F, x ≠ 0 → x ^ 2 ^ (a + b) = 1)
    (q : Nat → PackedQAPShare F) (hq : ∀ p < 4 * 2 ^ b, (q p).domain = dom)
    (va vb vc : List F) (hva : HoldsInput pp a b (fun p => (q p).a) va) (hvb : HoldsInput pp a b (fun p => (q p).b) vb)
    (hvc : HoldsInput pp a b (fun p => (q p).c) vc) (masks : Nat → Nat → FftMask F) (hm : IsLibsnarkMasks pp dom masks)
    (rng : Nat → Nat → Nat → F) :
    AlwaysHalts (Net.init fun i : Fin (4 * 2 ^ b) => pp.libsnarkH dbg (4 * 2 ^ b) i (q i) (masks i) rng) fun c =>
      (∀ i, c.procs i = .done (.error .panic)) ∧ ∀ x, c.queues x = [] := by
  obtain ⟨hwf, hoff, hoffi, hsize⟩ := Domain.new_pow2 hdom
  obtain ⟨hm1, hm2, -⟩ := hm
  rw [hsize] at hm1 hm2
  obtain ⟨A, hA⟩ := Interpolates.exists hwf hoff va (by rw [hsize]; exact hva.1)
  obtain ⟨B, hB⟩ := Interpolates.exists hwf hoff vb (by rw [hsize]; exact hvb.1)
  obtain ⟨C, hC⟩ := Interpolates.exists hwf hoff vc (by rw [hsize]; exact hvc.1)
  rw [hsize] at hA hB hC
  set g : F := FftField.GENERATOR with hgdef
  have hg0 : g ≠ 0 := FftField.generator_ne_zero
  obtain ⟨ca, ea, ra1, ra2, oa⟩ := toCoset_runs hpp dbg a ha hdom hva hA g true (hm1 0 (by omega)) (hm2 0 (by omega))
    .zero (rng 0) (rng 3)
  obtain ⟨cb, eb, rb1, rb2, ob⟩ := toCoset_runs hpp dbg a ha hdom hvb hB g true (hm1 1 (by omega)) (hm2 1 (by omega))
    .one (rng 1) (rng 4)
  obtain ⟨cc, ec, rc1, rc2, oc⟩ := toCoset_runs hpp dbg a ha hdom hvc hC g true (hm1 2 (by omega)) (hm2 2 (by omega))
    .two (rng 2) (rng 5)
  have hn : 0 < 4 * 2 ^ b := by positivity
  have hprog : (fun i : Fin (4 * 2 ^ b) => pp.libsnarkH dbg (4 * 2 ^ b) i (q i) (masks i) rng) =
      fun i : Fin (4 * 2 ^ b) => (tryJoin3 (pp.dIfft dbg (4 * 2 ^ b) i (q i).a (masks i 0) true dom g .zero (rng 0))
        (pp.dIfft dbg (4 * 2 ^ b) i (q i).b (masks i 1) true dom g .one (rng 1))
        (pp.dIfft dbg (4 * 2 ^ b) i (q i).c (masks i 2) true dom g .two (rng 2)) fun aCoeff bCoeff cCoeff =>
      tryJoin3 (pp.dFft dbg (4 * 2 ^ b) i aCoeff (masks i 3) true dom .zero (rng 3))
        (pp.dFft dbg (4 * 2 ^ b) i bCoeff (masks i 4) true dom .one (rng 4))
        (pp.dFft dbg (4 * 2 ^ b) i cCoeff (masks i 5) true dom .two (rng 5)) fun _ _ _ => Proc.done (.ok ())).bind
        fun _ => Proc.done (.error .panic) := by
    funext i
    rw [PSS.libsnarkH, hq i i.2]
    have e1 : unwrap (dom.getCoset g) = .ok { dom with offset := g, offsetInv := g⁻¹ } := by
      rw [Domain.getCoset, if_neg hg0]
      rfl
    have e2 : unwrap (fieldInverse (dom.evalVanishing g)) = panic' := by
      rw [Domain.evalVanishing, hoff, hsize, one_pow, hall g hg0, sub_self, fieldInverse, if_pos rfl]
      rfl
    dsimp only
    rw [e1, e2]
    rfl
  rw [hprog]
  refine runs_then_fail (rs := fun _ => ()) (Runs.tryJoin3 ra1 rb1 rc1 (Runs.tryJoin3 ra2 rb2 rc2 (Runs.done fun _ => ())))
    (fun i => .tryJoin3 (PSS.dIfft_wf _ hn _ _ _ _ _ _ _ _) (PSS.dIfft_wf _ hn _ _ _ _ _ _ _ _)
    (PSS.dIfft_wf _ hn _ _ _ _ _ _ _ _) fun _ _ _ => .tryJoin3 (PSS.dFft_wf _ hn _ _ _ _ _ _ _) (PSS.dFft_wf _ hn _ _ _ _ _ _ _)
    (PSS.dFft_wf _ hn _ _ _ _ _ _ _) fun _ _ _ => .done _ _) _

/-! ### Example: sixteen points are all of the non-zero elements modulo 17 -/

def dom17w : Domain (ZMod 17) := ⟨16, 3, 6, 16, 1, 1⟩

theorem dom17w_eq : Domain.new (F := ZMod 17) (2 ^ (3 + 1)) = some dom17w := by decide +kernel

example (dbg : Bool) : ∃ q : Nat → PackedQAPShare (ZMod 17),
    AlwaysHalts (Net.init fun i : Fin (4 * 2 ^ 1) => pp17.libsnarkH dbg (4 * 2 ^ 1) i (q i) (fun _ => FftMask.zero 8) fun _ i j => i + j) fun c =>
      (∀ i, c.procs i = .done (.error .panic)) ∧ ∀ x, c.queues x = [] := by
  obtain ⟨sh, -, hdm, h1, h2, h3⟩ := C30_pss (pp17_eq true) dbg 3 ⟨2, 2, List.replicate 16 3, List.replicate 16 5, List.replicate 16 15, dom17w⟩
    rfl rfl rfl (fun i j => i + j) (fun i j => 2 * i + j) (fun i j => 3 * i + j)
  exact ⟨sh, C32_whole_group_panics (b := 1) (pp17_eq true) dbg 3 (by norm_num) dom17w_eq (by decide +kernel) sh (fun p _ => (hdm p).1) _ _ _
    h1.input h2.input h3.input _ ⟨fun _ _ => .inr fun _ => rfl, fun _ _ => .inr fun _ => rfl, .inr fun _ => rfl⟩ _⟩

end ZkSaas.Properties
