import Verif.Lemmas.Protocols

/-! Opening what the parties hold, and uniqueness of the outcome. -/

set_option linter.unusedSectionVars false

namespace ZkSaas

open Finset Spec

variable {F : Type} [Field F] [DecidableEq F]

/-- A network whose executions are bounded has an execution that cannot be continued. -/
theorem exists_final {n : Nat} {α : Type} {c : Net n α} (h : ∃ m, ∀ k c', GSteps Reliable k c c' → k ≤ m) :
    ∃ k c', GSteps Reliable k c c' ∧ ¬ ∃ c'', GStep Reliable c' c'' := by
  obtain ⟨m, hm⟩ := h
  by_contra hcon
  push_neg at hcon
  have : ∀ j, ∃ c', GSteps Reliable j c c' := by
    intro j
    induction j with
    | zero => exact ⟨c, .refl _⟩
    | succ j ih =>
      obtain ⟨c', hc'⟩ := ih
      obtain ⟨c'', hc''⟩ := hcon j c' hc'
      refine ⟨c'', ?_⟩
      have aux : ∀ j (x y z : Net n α), GSteps Reliable j x y → GStep Reliable y z → GSteps Reliable (j + 1) x z := by
        intro j x y z h1
        induction h1 with
        | refl => intro h2; exact .step h2 (.refl _)
        | step h _ ih => intro h2; exact .step h (ih h2)
      exact aux j _ _ _ hc' hc''
  obtain ⟨c', hc'⟩ := this (m + 1)
  have := hm _ _ hc'
  omega

/-- There is only one outcome. -/
theorem AlwaysYields.unique {n : Nat} {α : Type} {c : Net n α} {rs rs' : Fin n → α}
    (h : AlwaysYields c rs) (h' : AlwaysYields c rs') : rs = rs' := by
  obtain ⟨k, c', hk, ht⟩ := exists_final h.1
  funext i
  have := (h.2 k c' hk ht i).symm.trans (h'.2 k c' hk ht i)
  injection this with _ this
  injection this

section
variable {T : Type} [AddCommGroup T] [Module F T] [DecidableEq T]

/-- Opening a shared vector of `N` positions: at every position collect the parties' values, unpack, and concatenate. -/
def opened (pp : PSS F) (N : Nat) (outs : Nat → List T) : List T :=
  ((List.range N).map fun c => pp.unpack ((List.range (4 * pp.l)).map fun p => (outs p).getD c 0)).flatten

theorem opened_shared {pp : PSS F} (hg : pp.Good) {d N : Nat} (hd : d ≤ 2 * pp.l) {outs : Nat → List T} {sec : Nat → List T}
    (h : pp.SharedVec d N outs sec) : opened pp N outs = ((List.range N).map sec).flatten := by
  unfold opened
  congr 1
  apply List.map_congr_left
  intro c hc
  exact PSS.unpack_of_shares hg hd (h.2 c (List.mem_range.1 hc))

theorem opened_chunks {pp : PSS F} (hg : pp.Good) {d N : Nat} (hd : d ≤ 2 * pp.l) {outs : Nat → List T} {x : Nat → T}
    (h : pp.SharedVec d N outs (chunks pp.l x)) : opened pp N outs = (List.range (N * pp.l)).map x := by
  rw [opened_shared hg hd h, flatten_chunks]

theorem opened_packed {pp : PSS F} (hg : pp.Good) {d a b : Nat} (hlb : pp.l = 2 ^ b) (hd : d ≤ 2 * pp.l)
    {outs : Nat → List T} {x : Nat → T}
    (h : pp.SharedVec d (2 ^ a) outs (packed false a b x)) : opened pp (2 ^ a) outs = (List.range (2 ^ (a + b))).map x := by
  have h' : pp.SharedVec d (2 ^ a) outs (chunks pp.l x) :=
    SharedVec.congr h (fun _ _ => rfl) fun c _ => by simp [packed, chunks, slot, hlb]
  rw [opened_chunks hg hd h', hlb, pow_add]

end

theorem Domain.sum_eq_fft {dom : Domain F} (hoff : dom.offset = 1) {m : Nat} (hsize : dom.size = m) (v : List F) {k : Nat} (hk : k < m) :
    ∑ u ∈ range m, (dom.groupGen ^ k) ^ u * v.getD u 0 = (dom.fft v).getD k 0 := by
  rw [Domain.fft_getD _ _ (by omega), hsize]
  simp [Domain.element, hoff]

theorem Domain.sum_eq_ifft {dom : Domain F} (hoff' : dom.offsetInv = 1) {m : Nat} (hsize : dom.size = m)
    (v : List F) {k : Nat} (hk : k < m) :
    ∑ u ∈ range m, (dom.groupGenInv ^ k) ^ u * (v.getD u 0 * dom.sizeInv) = (dom.ifft v).getD k 0 := by
  rw [Domain.ifft, getD_map_range, if_pos (by omega), evalAt_resize, hsize, hoff', one_pow, one_mul, smul_eq_mul, mul_sum]
  apply sum_congr rfl
  intro u _
  rw [smul_eq_mul]
  ring

/-- A polynomial of degree below the domain size is determined by its values. -/
theorem Domain.ifft_of_evals {dom : Domain F} (hd : dom.WF) {evals : List F} {c : List F}
    (hc : c.length = dom.size) (h : dom.fft c = evals) : dom.ifft evals = c := by
  rw [← h, Domain.ifft_fft hd hc]

end ZkSaas
