import Verif.Model.LocalNet
import Mathlib.Data.List.Sort
import Mathlib.Tactic.Linarith

/-! `FuturesOrdered` and `simulate_network_round`. -/

namespace ZkSaas

variable {K : Type}

theorem popOutputs_spec (v : Nat → K) : ∀ (qs : List Nat) (next : Nat), qs.Pairwise (· < ·) → (∀ i ∈ qs, next ≤ i) →
    ∃ a qs', qs = List.range' next a ++ qs' ∧ (∀ i ∈ qs', next + a < i) ∧
      popOutputs next (qs.map fun i => (i, v i)) = ((List.range' next a).map v, next + a, qs'.map fun i => (i, v i)) := by
  intro qs
  induction qs with
  | nil => intro next _ _; exact ⟨0, [], by simp, by simp, by simp [popOutputs]⟩
  | cons i qs ih =>
    intro next hp hge
    rw [List.pairwise_cons] at hp
    by_cases hi : i = next
    · subst hi
      obtain ⟨a, qs', h1, h2, h3⟩ := ih (i + 1) hp.2 fun j hj => hp.1 j hj
      refine ⟨a + 1, qs', by rw [h1, List.range'_succ]; rfl, fun j hj => by have := h2 j hj; omega, ?_⟩
      rw [List.map_cons, popOutputs, if_pos rfl, h3, List.range'_succ]
      simp only [List.map_cons]
      rw [show i + 1 + a = i + (a + 1) by omega]
    · have h0 := hge i (by simp)
      refine ⟨0, i :: qs, by simp, ?_, ?_⟩
      · intro j hj
        rcases List.mem_cons.1 hj with rfl | hj
        · omega
        · have := hp.1 j hj; omega
      · rw [List.map_cons, popOutputs, if_neg hi]; simp

theorem queueOutput_spec (v : Nat → K) (i : Nat) : ∀ qs : List Nat, qs.Pairwise (· < ·) → i ∉ qs →
    ∃ qs' : List Nat, queueOutput i (v i) (qs.map fun i => (i, v i)) = qs'.map (fun i => (i, v i)) ∧ qs'.Pairwise (· < ·) ∧ qs'.Perm (i :: qs) := by
  intro qs
  induction qs with
  | nil => intro _ _; exact ⟨[i], rfl, by simp, .refl _⟩
  | cons j qs ih =>
    intro hp hi
    rw [List.pairwise_cons] at hp
    rw [List.mem_cons, not_or] at hi
    by_cases hij : i ≤ j
    · refine ⟨i :: j :: qs, by rw [List.map_cons, queueOutput, if_pos hij]; rfl, ?_, .refl _⟩
      rw [List.pairwise_cons]
      refine ⟨fun k hk => ?_, List.pairwise_cons.2 hp⟩
      rcases List.mem_cons.1 hk with rfl | hk
      · omega
      · have := hp.1 k hk; omega
    · obtain ⟨qs', h1, h2, h3⟩ := ih hp.2 hi.2
      refine ⟨j :: qs', by rw [List.map_cons, queueOutput, if_neg hij, h1]; rfl, ?_, (h3.cons j).trans (.swap i j qs)⟩
      rw [List.pairwise_cons]
      refine ⟨fun k hk => ?_, h2⟩
      rcases List.mem_cons.1 (h3.mem_iff.1 hk) with rfl | hk
      · omega
      · exact hp.1 k hk

theorem collectOrdered_ok (v : Nat → K) : ∀ (es qs : List Nat) (next m : Nat), qs.Pairwise (· < ·) →
    (qs ++ es).Perm (List.range' next m) →
    collectOrdered next (qs.map fun i => (i, v i)) (es.map fun i => (i, .ok (v i))) = .ok ((List.range' next m).map v) := by
  intro es
  induction es with
  | nil =>
    intro qs next m hp hperm
    rw [List.append_nil] at hperm
    have e : qs = List.range' next m := hperm.eq_of_pairwise (fun a b _ _ h1 h2 => by omega) (hp.imp le_of_lt)
      ((List.pairwise_lt_range' (s := next) (n := m)).imp le_of_lt)
    obtain ⟨a, qs', h1, h2, h3⟩ := popOutputs_spec v qs next hp fun i hi => by
      rw [e] at hi; have := List.mem_range'.1 hi; omega
    rw [List.map_nil, collectOrdered, h3]
    have hq : qs' = [] := by
      rw [List.eq_nil_iff_forall_not_mem]
      intro i hi
      have hge := h2 i hi
      have hmem : i ∈ List.range' next m := by rw [← e, h1]; simp [hi]
      obtain ⟨x, hx, rfl⟩ := List.mem_range'.1 hmem
      have : next + a ∈ qs := by rw [e]; exact List.mem_range'.2 ⟨a, by omega, by omega⟩
      rw [h1, List.mem_append] at this
      rcases this with h | h
      · obtain ⟨y, hy, h⟩ := List.mem_range'.1 h; omega
      · have := h2 _ h; omega
    rw [← e, h1, hq, List.append_nil]
  | cons i es ih =>
    intro qs next m hp hperm
    have hnd : (qs ++ i :: es).Nodup := hperm.nodup_iff.2 List.nodup_range'
    have hge : ∀ j ∈ qs, next ≤ j := fun j hj => by
      have := List.mem_range'.1 (hperm.mem_iff.1 (List.mem_append_left _ hj)); omega
    obtain ⟨a, qs', h1, h2, h3⟩ := popOutputs_spec v qs next hp hge
    have hp' : qs'.Pairwise (· < ·) := by
      rw [h1, List.pairwise_append] at hp; exact hp.2.1
    have ham : a ≤ m := by
      have := hperm.length_eq
      rw [h1] at this
      simp at this
      omega
    have hperm' : (qs' ++ i :: es).Perm (List.range' (next + a) (m - a)) := by
      rw [h1, List.append_assoc] at hperm
      have h4 : List.range' next m = List.range' next a ++ List.range' (next + a) (m - a) := by
        rw [List.range'_append_1]; congr 1; omega
      rw [h4] at hperm
      exact (List.perm_append_left_iff _).1 hperm
    have hsplit : List.range' next m = List.range' next a ++ List.range' (next + a) (m - a) := by
      rw [List.range'_append_1]; congr 1; omega
    rw [List.map_cons, collectOrdered, h3]
    dsimp only
    by_cases hi : i = next + a
    · rw [if_pos hi]
      subst hi
      have h5 : (next + a) :: (qs' ++ es) = (next + a) :: (qs' ++ es) := rfl
      have hm : m - a = (m - a - 1) + 1 := by
        have := hperm'.length_eq
        simp at this
        omega
      have h6 : (qs' ++ es).Perm (List.range' (next + a + 1) (m - a - 1)) := by
        have h7 := (List.perm_middle.symm.trans hperm')
        rw [hm, List.range'_succ] at h7
        exact h7.cons_inv
      rw [ih qs' (next + a + 1) (m - a - 1) hp' h6]
      rw [hsplit, List.map_append]
      conv_rhs => rw [hm, List.range'_succ, List.map_cons]
      rfl
    · rw [if_neg hi]
      have hni : i ∉ qs' := by
        intro h
        have h8 : (qs' ++ i :: es).Nodup := hperm'.nodup_iff.2 List.nodup_range'
        rw [List.nodup_append] at h8
        exact h8.2.2 i h i (by simp) rfl
      obtain ⟨qs'', g1, g2, g3⟩ := queueOutput_spec v i qs' hp' hni
      rw [g1, ih qs'' (next + a) (m - a) g2 ((g3.append_right es).trans (List.perm_middle.symm.trans hperm')), hsplit, List.map_append]
      rfl

theorem collectOrdered_panic : ∀ (es : List (Nat × Res K)) (next : Nat) (q : List (Nat × K)),
    (∃ e ∈ es, ∃ f, e.2 = .error f) → collectOrdered next q es = panic' := by
  intro es
  induction es with
  | nil => rintro _ _ ⟨e, he, -⟩; simp at he
  | cons e es ih =>
    rintro next q ⟨e', he', f, hf⟩
    obtain ⟨i, x⟩ := e
    cases x with
    | error g => rfl
    | ok v =>
      rw [collectOrdered]
      have h : ∃ e ∈ es, ∃ f, e.2 = .error f := by
        rcases List.mem_cons.1 he' with rfl | h
        · cases hf
        · exact ⟨e', h, f, hf⟩
      split
      · rw [ih _ _ h]; rfl
      · rw [ih _ _ h]; rfl

theorem sortNodes {C : Type} (c : Nat → C) (n : Nat) (nodes : List (Nat × C))
    (hnodes : nodes.Perm ((List.range n).map fun i => (i, c i))) :
    nodes.mergeSort (fun a b => a.1 ≤ b.1) = (List.range n).map fun i => (i, c i) := by
  refine ((List.mergeSort_perm nodes _).trans hnodes).eq_of_pairwise (le := fun a b : Nat × C => a.1 ≤ b.1) ?_ ?_ ?_
  · intro a b ha hb h1 h2
    have hb' := hb
    obtain ⟨i, -, rfl⟩ := List.mem_map.1 (((List.mergeSort_perm nodes _).trans hnodes).mem_iff.1 ha)
    obtain ⟨j, -, rfl⟩ := List.mem_map.1 hb
    have : i = j := by simp only at h1 h2; omega
    rw [this]
  · have := List.pairwise_mergeSort (le := fun a b : Nat × C => decide (a.1 ≤ b.1))
      (fun a b c h1 h2 => by simp only [decide_eq_true_eq] at *; omega) (fun a b => by simp; omega) nodes
    exact this.imp fun h => by simpa using h
  · rw [List.pairwise_map]
    exact List.pairwise_lt_range.imp le_of_lt

theorem events_eq {C : Type} (c : Nat → C) (n : Nat) (task : C → Res K) (order : List Nat) (ho : ∀ k ∈ order, k < n) :
    (order.filterMap fun k => (((List.range n).map fun i => (i, c i))[k]?).map fun nd => (k, task nd.2)) =
      order.map fun k => (k, task (c k)) := by
  induction order with
  | nil => rfl
  | cons k order ih =>
    have hk := ho k (by simp)
    rw [List.filterMap_cons, ih fun j hj => ho j (by simp [hj])]
    simp [List.getElem?_map, List.getElem?_range hk]

end ZkSaas
