import Verif.Lemmas.LossyProtocols
import Verif.Lemmas.SilentProtocols
import Verif.Spec.Count

/-! What the king does when the network has another number of parties than the scheme. -/

set_option linter.unusedSectionVars false

namespace ZkSaas

open Spec

variable {F : Type} [Field F] [DecidableEq F] [FftField F]

section
variable {T : Type} [AddCommGroup T] [Module F T] [DecidableEq T]

theorem PSS.unpackMissing_count {pp : PSS F} (hg : pp.Good) {dbg : Bool} {n : Nat} (hb : WrongCount pp.l dbg n) {shares : List T}
    (hs : shares.length = n) : pp.unpackMissingShares dbg shares (List.range n) = panic' := by
  rcases hb with hb | ⟨rfl, hb⟩
  · unfold PSS.unpackMissingShares
    rw [debugAssert_of (by simp [hs]), ok_bind, if_neg (by rw [hg.n_eq]; omega)]
    unfold PSS.lagrangeUnpack
    rw [debugAssert_of (by simp [hs]), ok_bind, debugAssert_of (by have := hg.t_eq; simp; omega), ok_bind]
    have hel : pp.share.elements.length = 4 * pp.l := by simp [Domain.elements, hg.share_size]
    dsimp only
    rw [mapM_panic (x := 4 * pp.l) (List.mem_range.2 hb) (by unfold rd; rw [List.getElem?_eq_none (by omega)])
      (by
        intro p _
        unfold rd
        cases pp.share.elements[p]? with
        | none => exact Or.inl rfl
        | some x => exact Or.inr ⟨x, rfl⟩)]
    rfl
  · exact PSS.unpackMissing_debug_panic hg (by simp [hs]) (by simp; omega)

theorem transpose_range {n N : Nat} (hn : 0 < n) (hN : 0 < N) {y : Nat → List T} (hy : ∀ i < n, (y i).length = N) :
    transpose ((List.range n).map y) = .ok ((List.range N).map fun c => (List.range n).map fun i => (y i).getD c 0) := by
  rw [transpose_shares (n := N) (by simp) hn hN fun c hc => by rw [getD_map_range, if_pos hc, hy c hc]]
  congr 1
  apply List.map_congr_left
  intro c _
  apply List.map_congr_left
  intro i hi
  rw [getD_map_range, if_pos (List.mem_range.1 hi)]

theorem PSS.degRedKing_count {pp : PSS F} (hg : pp.Good) {dbg : Bool} {n N : Nat} (hn : 0 < n) (hb : WrongCount pp.l dbg n) (hN : 0 < N)
    {y : Nat → List T} (hy : ∀ i < n, (y i).length = N) (rng : Nat → Nat → T) :
    pp.degRedKing dbg ((List.range n).map y) (List.range n) rng = panic' := by
  unfold PSS.degRedKing
  rw [transpose_range hn hN hy, ok_bind, List.length_map, List.length_range]
  have h : ∀ c < N, (do
      let xShare ← rd ((List.range N).map fun c => (List.range n).map fun i => (y i).getD c 0) c
      let xi ← pp.unpackMissingShares dbg xShare (List.range n)
      pp.pack dbg xi (rng c)) = (panic' : Res (List T)) := by
    intro c hc
    rw [rd_ok (by simpa using hc) [], ok_bind, PSS.unpackMissing_count hg hb (by rw [getD_map_range, if_pos hc]; simp)]
    rfl
  rw [mapM_panic (x := 0) (List.mem_range.2 hN) (h 0 hN) fun c hc => Or.inl (h c (List.mem_range.1 hc))]
  rfl

theorem PSS.msmKing_count {pp : PSS F} (hg : pp.Good) {dbg : Bool} {n : Nat} (hb : WrongCount pp.l dbg n) (y : Nat → T) :
    pp.msmKing dbg n ((List.range n).map y) (List.range n) = panic' := by
  unfold PSS.msmKing
  rw [PSS.unpackMissing_count hg hb (by simp)]
  rfl

end

theorem PSS.fft2King_count {pp : PSS F} (hg : pp.Good) {dbg : Bool} {n N : Nat} (hn : 0 < n) (hb : WrongCount pp.l dbg n) (hN : 0 < N)
    {y : Nat → List F} (hy : ∀ i < n, (y i).length = N) (g gen : F) (rearrange : Bool) (rng : Nat → Nat → F) :
    pp.fft2King dbg N N g gen rearrange ((List.range n).map y) (List.range n) rng = panic' := by
  unfold PSS.fft2King
  rw [transpose_range hn hN hy, ok_bind]
  dsimp only
  rw [List.length_map, List.length_range, min_self]
  obtain ⟨N, rfl⟩ : ∃ k, N = k + 1 := ⟨N - 1, by omega⟩
  rcases forUp_panic_inv (n := N + 1) (s := List.replicate ((N + 1) * pp.l) (0 : F))
    (body := fun i s1 => do
      let share ← rd ((List.range (N + 1)).map fun c => (List.range n).map fun p => (y p).getD c 0) i
      let tmp ← pp.unpackMissingShares dbg share (List.range n)
      forUp pp.l (fun j s1 => do
        let x ← rd tmp j
        wr s1 (i * pp.l + j) x) s1)
    (P := fun i _ => i = 0) rfl
    (by
      rintro i hi v rfl
      left
      rw [rd_ok (by simp) [], ok_bind, PSS.unpackMissing_count hg hb (by rw [getD_map_range, if_pos (by omega)]; simp)]
      rfl) with h | ⟨v, -, h⟩
  · rw [h]; rfl
  · omega

theorem PSS.ppKing_count {pp : PSS F} (hg : pp.Good) {dbg : Bool} {n N : Nat} (hn : 0 < n)
    (hb : 4 * pp.l < n ∨ (dbg = true ∧ n < 4 * pp.l)) (hN : 0 < N)
    {y : Nat → List F} (hy : ∀ i < n, (y i).length = N) (rng : Nat → Nat → F) :
    pp.ppKing dbg ((List.range n).map y) (List.range n) rng = panic' := by
  have h1 := hg.n_eq
  cases dbg with
  | true =>
    unfold PSS.ppKing
    have : debugAssert true (((List.range n).map y).length == pp.n) = panic' := by
      have : ¬ n = pp.n := by omega
      simp [debugAssert, this]
    rw [this]
    rfl
  | false =>
    obtain hb | ⟨h, -⟩ := hb
    · unfold PSS.ppKing
      rw [show debugAssert false (((List.range n).map y).length == pp.n) = .ok () from rfl, ok_bind, transpose_range hn hN hy, ok_bind]
      have h : ∀ x ∈ (List.range N).map (fun c => (List.range n).map fun i => (y i).getD c 0),
          pp.unpackMissingShares false x (List.range n) = panic' := by
        intro x hx
        obtain ⟨c, -, rfl⟩ := List.mem_map.1 hx
        exact PSS.unpackMissing_count hg (Or.inl hb) (by simp)
      have hm : (List.range n).map (fun i => (y i).getD 0 0) ∈ (List.range N).map (fun c => (List.range n).map fun i => (y i).getD c 0) :=
        List.mem_map.2 ⟨0, List.mem_range.2 hN, rfl⟩
      rw [mapM_panic hm (h _ hm) fun x hx => Or.inl (h x hx)]
      rfl
    · cases h

end ZkSaas
