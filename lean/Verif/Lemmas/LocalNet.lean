import Verif.Model.LocalNet
import Verif.Lemmas.Runs
import Mathlib.Algebra.BigOperators.Intervals
import Mathlib.Tactic.Ring

/-! The mesh of the local test network. -/

namespace ZkSaas

@[simp] theorem update2_self {α : Type} (f : Nat → Nat → α) (i j : Nat) (x : α) : update2 f i j x i j = x := by
  simp [update2]

theorem update2_of_ne {α : Type} (f : Nat → Nat → α) {i j a b : Nat} (x : α) (h : (a, b) ≠ (i, j)) :
    update2 f i j x a b = f a b := by
  unfold update2
  by_cases h1 : a = i
  · subst h1
    rw [Function.update_self, Function.update_of_ne]
    rintro rfl; exact h rfl
  · rw [Function.update_of_ne h1]

/-- Node `i` has dialled node `j`. -/
def Mesh.Dialled (s : Mesh) (i j : Nat) : Prop := j < s.target i ∨ (j = s.target i ∧ s.stage i ≠ .idle)

def sentOf (t : Nat) (st : Dialling) (i j : Nat) : List Item :=
  if j < t then [.id i, .opened] else if j = t ∧ st = .written then [.id i] else []

/-- What `i` has written so far on its connection to `j`. -/
def Mesh.sent (s : Mesh) (i j : Nat) : List Item := sentOf (s.target i) (s.stage i) i j

def consumedOf (p : Option (Nat × Nat)) (c : Option (Nat × Option Nat)) (i : Nat) : Nat :=
  if p ≠ none then 2 else if c = some (i, some i) then 1 else 0

/-- How much of it `j` has read. -/
def Mesh.consumed (s : Mesh) (i j : Nat) : Nat := consumedOf (s.peers j i) (s.cur j) i

def highOf (t i k : Nat) : Option (Nat × Nat) := if i < k ∧ k < t then some (i, k) else none

structure Mesh.Inv (n : Nat) (s : Mesh) : Prop where
  made_le : ∀ i < n, s.made i ≤ n - 1 - i
  stage_lt : ∀ i < n, s.stage i ≠ .idle → s.made i < n - 1 - i
  back_nodup : ∀ j < n, (s.backlog j).Nodup
  back : ∀ j < n, ∀ i, i ∈ s.backlog j ↔ i < j ∧ s.Dialled i j ∧ (∀ o, s.cur j ≠ some (i, o)) ∧ s.peers j i = none
  cur : ∀ j < n, ∀ i o, s.cur j = some (i, o) → i < j ∧ s.Dialled i j ∧ s.peers j i = none ∧ (o = none ∨ o = some i)
  low : ∀ j < n, ∀ i < j, s.peers j i ≠ none → s.Dialled i j ∧ s.peers j i = some (i, j)
  high : ∀ i < n, ∀ k, i ≤ k → s.peers i k = highOf (s.target i) i k
  taken : ∀ j < n, s.taken j = ((List.range j).filter fun i => s.peers j i ≠ none).length
  wire : ∀ i j, i < j → j < n → s.wire i j = (s.sent i j).drop (s.consumed i j) ∧ s.consumed i j ≤ (s.sent i j).length

theorem Mesh.Inv.init (n : Nat) : Mesh.init.Inv n where
  made_le i _ := Nat.zero_le _
  stage_lt i _ h := absurd rfl h
  back_nodup j _ := List.nodup_nil
  back j _ i := by simp [Mesh.init, Mesh.Dialled, Mesh.target]
  cur j _ i o h := by cases h
  low j _ i _ h := absurd rfl h
  high i _ k _ := by
    show none = highOf (i + 0 + 1) i k
    rw [highOf, if_neg (by omega)]
  taken j _ := by simp [Mesh.init]
  wire i j h _ := by
    have : (Mesh.init.sent i j) = [] := by
      show sentOf (i + 0 + 1) .idle i j = []
      rw [sentOf, if_neg (by omega), if_neg (by simp)]
    rw [this]
    simp [Mesh.consumed, Mesh.init, consumedOf]

theorem Mesh.Inv.step {n : Nat} {s s' : Mesh} (h : s.Inv n) (hs : Mesh.Step n s s') : s'.Inv n := by
  cases hs with
  | dial i hi hm hst =>
    have htgt : s.target i < n := by unfold Mesh.target; omega
    have hit : i < s.target i := by unfold Mesh.target; omega
    have hD : ∀ a b, Mesh.Dialled { s with
        stage := Function.update s.stage i .connected
        backlog := Function.update s.backlog (s.target i) (s.backlog (s.target i) ++ [i]) } a b ↔
        s.Dialled a b ∨ (a = i ∧ b = s.target i) := by
      intro a b
      simp only [Mesh.Dialled, Mesh.target]
      by_cases ha : a = i
      · subst ha
        rw [Function.update_self]
        simp [hst]
      · rw [Function.update_of_ne ha]
        simp [ha]
    have hnd : ¬ s.Dialled i (s.target i) := by simp [Mesh.Dialled, hst]
    refine ⟨h.made_le, fun a ha hne => ?_, fun j hj => ?_, fun j hj a => ?_, fun j hj a o hc => ?_, fun j hj a ha hne => ?_, h.high,
      h.taken, fun a b hab hb => ?_⟩
    · by_cases hai : a = i
      · subst hai; exact hm
      · simp only [Function.update_of_ne hai] at hne
        exact h.stage_lt a ha hne
    · by_cases hjt : j = s.target i
      · subst hjt
        simp only [Function.update_self]
        rw [List.nodup_append]
        refine ⟨h.back_nodup _ hj, List.nodup_singleton _, ?_⟩
        rintro x hx y hy rfl
        rw [List.mem_singleton] at hy
        subst hy
        exact hnd ((h.back _ hj x).1 hx).2.1
      · simp only [Function.update_of_ne hjt]
        exact h.back_nodup j hj
    · rw [hD]
      by_cases hjt : j = s.target i
      · subst hjt
        simp only [Function.update_self, List.mem_append, List.mem_singleton]
        rw [h.back _ hj a]
        constructor
        · rintro (⟨h1, h2, h3, h4⟩ | rfl)
          · exact ⟨h1, .inl h2, h3, h4⟩
          · refine ⟨hit, .inr ⟨rfl, trivial⟩, fun o hc => hnd (h.cur _ hj a o hc).2.1, ?_⟩
            by_contra hp
            exact hnd (h.low _ hj a hit hp).1
        · rintro ⟨h1, h2 | ⟨rfl, -⟩, h3, h4⟩
          · exact .inl ⟨h1, h2, h3, h4⟩
          · exact .inr rfl
      · simp only [Function.update_of_ne hjt]
        rw [h.back j hj a]
        simp [hjt]
    · obtain ⟨h1, h2, h3⟩ := h.cur j hj a o hc
      exact ⟨h1, (hD _ _).2 (.inl h2), h3⟩
    · obtain ⟨h1, h2⟩ := h.low j hj a ha hne
      exact ⟨(hD _ _).2 (.inl h1), h2⟩
    · have e : Mesh.sent { s with
          stage := Function.update s.stage i .connected
          backlog := Function.update s.backlog (s.target i) (s.backlog (s.target i) ++ [i]) } a b = s.sent a b := by
        simp only [Mesh.sent, Mesh.target]
        by_cases ha : a = i
        · subst ha
          rw [Function.update_self]
          simp [hst, sentOf]
        · rw [Function.update_of_ne ha]
      rw [e]
      exact h.wire a b hab hb
  | write i hi hst =>
    have hD : ∀ a b, Mesh.Dialled { s with
        stage := Function.update s.stage i .written
        wire := update2 s.wire i (s.target i) (s.wire i (s.target i) ++ [.id i]) } a b ↔ s.Dialled a b := by
      intro a b
      simp only [Mesh.Dialled, Mesh.target]
      by_cases ha : a = i
      · subst ha
        rw [Function.update_self]
        simp [hst]
      · rw [Function.update_of_ne ha]
    refine ⟨h.made_le, fun a ha hne => ?_, h.back_nodup, fun j hj a => ?_, fun j hj a o hc => ?_, fun j hj a ha hne => ?_, h.high,
      h.taken, fun a b hab hb => ?_⟩
    · by_cases hai : a = i
      · subst hai; exact h.stage_lt a ha (by rw [hst]; simp)
      · simp only [Function.update_of_ne hai] at hne
        exact h.stage_lt a ha hne
    · rw [hD]; exact h.back j hj a
    · rw [hD]; exact h.cur j hj a o hc
    · rw [hD]; exact h.low j hj a ha hne
    · obtain ⟨h1, h2⟩ := h.wire a b hab hb
      by_cases hai : (a, b) = (i, s.target i)
      · cases hai
        have e0 : s.sent i (s.target i) = [] := by simp [Mesh.sent, sentOf, hst]
        have e1 : Mesh.sent { s with
            stage := Function.update s.stage i .written
            wire := update2 s.wire i (s.target i) (s.wire i (s.target i) ++ [.id i]) } i (s.target i) = [.id i] := by
          simp [Mesh.sent, sentOf, Mesh.target]
        rw [e1]
        simp only [update2_self]
        rw [e0] at h1 h2
        have h3 : s.consumed i (s.target i) = 0 := by simpa using h2
        rw [h1]
        show _ ∧ s.consumed i (s.target i) ≤ _
        refine ⟨?_, by omega⟩
        show _ = List.drop (s.consumed i (s.target i)) _
        rw [h3]; rfl
      · have e : Mesh.sent { s with
            stage := Function.update s.stage i .written
            wire := update2 s.wire i (s.target i) (s.wire i (s.target i) ++ [.id i]) } a b = s.sent a b := by
          simp only [Mesh.sent, Mesh.target]
          by_cases ha : a = i
          · subst ha
            have hb' : b ≠ s.target a := by rintro rfl; exact hai rfl
            simp only [Mesh.target] at hb'
            simp [hb', sentOf]
          · rw [Function.update_of_ne ha]
        rw [e]
        simp only [update2_of_ne _ _ hai]
        exact ⟨h1, h2⟩
  | store i hi hst ht =>
    have hit : i < s.target i := by unfold Mesh.target; omega
    have hm := h.stage_lt i hi (by rw [hst]; simp)
    let s' : Mesh := { s with
        stage := Function.update s.stage i .idle
        made := Function.update s.made i (s.made i + 1)
        peers := update2 s.peers i (s.target i) (some (i, s.target i))
        wire := update2 s.wire i (s.target i) (s.wire i (s.target i) ++ [.opened]) }
    have hT : ∀ a, s'.target a = if a = i then s.target i + 1 else s.target a := by
      intro a
      simp only [Mesh.target, s']
      by_cases ha : a = i
      · subst ha; simp; omega
      · simp [ha]
    have hD : ∀ a b, s'.Dialled a b ↔ s.Dialled a b := by
      intro a b
      simp only [Mesh.Dialled, hT]
      by_cases ha : a = i
      · subst ha
        simp only [if_true, s', Function.update_self, hst]
        simp
        omega
      · simp only [if_neg ha, s', Function.update_of_ne ha]
    have hP : ∀ a b, b < a → s'.peers a b = s.peers a b := by
      intro a b hab
      simp only [s']
      rw [update2_of_ne]
      intro e; cases e; omega
    refine ⟨fun a ha => ?_, fun a ha hne => ?_, h.back_nodup, fun j hj a => ?_, fun j hj a o hc => ?_, fun j hj a ha hne => ?_,
      fun a ha k hk => ?_, fun j hj => ?_, fun a b hab hb => ?_⟩
    · by_cases hai : a = i
      · subst hai; simp; omega
      · simp only [Function.update_of_ne hai]; exact h.made_le a ha
    · by_cases hai : a = i
      · subst hai; simp at hne
      · simp only [Function.update_of_ne hai] at hne ⊢
        exact h.stage_lt a ha hne
    · have := h.back j hj a
      show a ∈ s.backlog j ↔ a < j ∧ s'.Dialled a j ∧ (∀ o, s.cur j ≠ some (a, o)) ∧ s'.peers j a = none
      rw [this, hD]
      constructor
      · rintro ⟨h1, h2, h3, h4⟩; exact ⟨h1, h2, h3, by rw [hP _ _ h1]; exact h4⟩
      · rintro ⟨h1, h2, h3, h4⟩; exact ⟨h1, h2, h3, by rw [hP _ _ h1] at h4; exact h4⟩
    · obtain ⟨h1, h2, h3, h4⟩ := h.cur j hj a o hc
      exact ⟨h1, (hD _ _).2 h2, by rw [← hP _ _ h1] at h3; exact h3, h4⟩
    · have hne' : s'.peers j a ≠ none := hne
      rw [hP _ _ ha] at hne'
      obtain ⟨h1, h2⟩ := h.low j hj a ha hne'
      exact ⟨(hD _ _).2 h1, by rw [← hP _ _ ha] at h2; exact h2⟩
    · show s'.peers a k = highOf (s'.target a) a k
      have h1 := h.high a ha k hk
      rw [hT]
      by_cases hak : (a, k) = (i, s.target i)
      · cases hak
        simp only [s', update2_self, if_true]
        rw [highOf, if_pos ⟨hit, by omega⟩]
      · simp only [s', update2_of_ne _ _ hak]
        rw [h1]
        by_cases hai : a = i
        · subst hai
          have hkt : k ≠ s.target a := by rintro rfl; exact hak rfl
          simp only [if_true, highOf]
          have : (a < k ∧ k < s.target a) ↔ (a < k ∧ k < s.target a + 1) := by omega
          simp only [this]
        · rw [if_neg hai]
    · have := h.taken j hj
      show s.taken j = ((List.range j).filter fun i => s'.peers j i ≠ none).length
      rw [this]
      congr 1
      refine List.filter_congr fun a ha => ?_
      rw [hP _ _ (List.mem_range.1 ha)]
    · obtain ⟨h1, h2⟩ := h.wire a b hab hb
      have hc : s'.consumed a b = s.consumed a b := by
        simp only [Mesh.consumed]
        rw [hP _ _ hab]
      show s'.wire a b = List.drop (s'.consumed a b) (s'.sent a b) ∧ s'.consumed a b ≤ (s'.sent a b).length
      rw [hc]
      by_cases hai : (a, b) = (i, s.target i)
      · cases hai
        have e0 : s.sent i (s.target i) = [.id i] := by simp [Mesh.sent, sentOf, hst]
        have e1 : s'.sent i (s.target i) = [.id i, .opened] := by
          simp only [Mesh.sent, hT, if_true]
          rw [sentOf, if_pos (by omega)]
        rw [e0] at h1 h2
        rw [e1]
        simp only [s', update2_self]
        rw [h1]
        have h3 : s.consumed i (s.target i) ≤ 1 := h2
        refine ⟨?_, by simp; omega⟩
        generalize s.consumed i (s.target i) = x at h3
        obtain rfl | rfl : x = 0 ∨ x = 1 := by omega
        · rfl
        · rfl
      · have e : s'.sent a b = s.sent a b := by
          simp only [Mesh.sent, hT]
          by_cases ha : a = i
          · subst ha
            have hb' : b ≠ s.target a := by rintro rfl; exact hai rfl
            simp only [if_true, s', Function.update_self, sentOf]
            have h5 : b < s.target a + 1 ↔ b < s.target a := by omega
            simp only [h5, hb', false_and, if_false]
            split
            · rfl
            · simp
          · simp only [if_neg ha, s', Function.update_of_ne ha]
        rw [e]
        simp only [s', update2_of_ne _ _ hai]
        exact ⟨h1, h2⟩
  | accept j i hj ht hc pre post hb =>
    have hbn := h.back_nodup j hj
    have hi : i ∈ s.backlog j := by rw [hb]; simp
    obtain ⟨b1, b2, b3, b4⟩ := (h.back j hj i).1 hi
    have hmem : ∀ a, a ∈ pre ++ post ↔ a ∈ s.backlog j ∧ a ≠ i := by
      intro a
      rw [hb] at hbn ⊢
      rw [List.nodup_middle, List.nodup_cons] at hbn
      simp only [List.mem_append, List.mem_cons] at hbn ⊢
      constructor
      · rintro (h1 | h1)
        · exact ⟨.inl h1, fun e => hbn.1 (.inl (e ▸ h1))⟩
        · exact ⟨.inr (.inr h1), fun e => hbn.1 (.inr (e ▸ h1))⟩
      · rintro ⟨h1 | h1 | h1, h2⟩
        · exact .inl h1
        · exact absurd h1 h2
        · exact .inr h1
    refine ⟨h.made_le, h.stage_lt, fun k hk => ?_, fun k hk a => ?_, fun k hk a o hc' => ?_, h.low, h.high, h.taken, fun a b hab hb' => ?_⟩
    · by_cases hkj : k = j
      · subst hkj
        simp only [Function.update_self]
        rw [hb, List.nodup_middle, List.nodup_cons] at hbn
        exact hbn.2
      · simp only [Function.update_of_ne hkj]
        exact h.back_nodup k hk
    · by_cases hkj : k = j
      · subst hkj
        simp only [Function.update_self]
        rw [hmem, h.back k hk a]
        constructor
        · rintro ⟨⟨h1, h2, h3, h4⟩, h5⟩
          refine ⟨h1, h2, fun o e => h5 ?_, h4⟩
          cases e; rfl
        · rintro ⟨h1, h2, h3, h4⟩
          refine ⟨⟨h1, h2, fun o => by rw [hc]; simp, h4⟩, ?_⟩
          rintro rfl
          exact h3 none rfl
      · simp only [Function.update_of_ne hkj]
        exact h.back k hk a
    · by_cases hkj : k = j
      · subst hkj
        simp only [Function.update_self] at hc'
        cases hc'
        exact ⟨b1, b2, b4, .inl rfl⟩
      · simp only [Function.update_of_ne hkj] at hc'
        exact h.cur k hk a o hc'
    · obtain ⟨h1, h2⟩ := h.wire a b hab hb'
      have e : Mesh.consumed { s with
          cur := Function.update s.cur j (some (i, none))
          backlog := Function.update s.backlog j (pre ++ post) } a b = s.consumed a b := by
        simp only [Mesh.consumed]
        by_cases hbj : b = j
        · subst hbj
          rw [Function.update_self, hc]
          simp [consumedOf]
        · rw [Function.update_of_ne hbj]
      rw [e]
      exact ⟨h1, h2⟩
  | read j i hj hc x rest hw =>
    obtain ⟨c1, c2, c3, -⟩ := h.cur j hj i none hc
    obtain ⟨w1, w2⟩ := h.wire i j c1 hj
    have hcons : s.consumed i j = 0 := by
      simp only [Mesh.consumed, consumedOf, c3, hc]
      simp
    rw [hcons, List.drop_zero, hw] at w1
    have hx : x = i ∧ rest = (s.sent i j).drop 1 := by
      rw [← w1]
      have : (s.sent i j).head? = some (.id x) := by rw [← w1]; rfl
      unfold Mesh.sent sentOf at this
      split_ifs at this
      · simp only [List.head?_cons, Option.some.injEq, Item.id.injEq] at this; exact ⟨this.symm, rfl⟩
      · simp only [List.head?_cons, Option.some.injEq, Item.id.injEq] at this; exact ⟨this.symm, rfl⟩
      · cases this
    obtain ⟨rfl, hrest⟩ := hx
    refine ⟨h.made_le, h.stage_lt, h.back_nodup, fun k hk a => ?_, fun k hk a o hc' => ?_, h.low, h.high, h.taken, fun a b hab hb' => ?_⟩
    · rw [h.back k hk a]
      by_cases hkj : k = j
      · subst hkj
        simp only [Function.update_self]
        constructor
        · rintro ⟨h1, h2, h3, h4⟩
          refine ⟨h1, h2, fun o e => ?_, h4⟩
          cases e
          exact h3 none hc
        · rintro ⟨h1, h2, h3, h4⟩
          refine ⟨h1, h2, fun o e => ?_, h4⟩
          rw [hc] at e
          cases e
          exact h3 (some x) rfl
      · simp only [Function.update_of_ne hkj]
        exact Iff.rfl
    · by_cases hkj : k = j
      · subst hkj
        simp only [Function.update_self] at hc'
        cases hc'
        exact ⟨c1, c2, c3, .inr rfl⟩
      · simp only [Function.update_of_ne hkj] at hc'
        exact h.cur k hk a o hc'
    · obtain ⟨h1, h2⟩ := h.wire a b hab hb'
      by_cases hab' : (a, b) = (x, j)
      · cases hab'
        have e : Mesh.consumed { s with
            cur := Function.update s.cur j (some (x, some x))
            wire := update2 s.wire x j rest } x j = 1 := by
          simp only [Mesh.consumed, consumedOf, Function.update_self, c3]
          simp
        rw [e]
        simp only [update2_self]
        refine ⟨hrest, ?_⟩
        show 1 ≤ (s.sent x j).length
        rw [← w1]
        simp
      · have e : Mesh.consumed { s with
            cur := Function.update s.cur j (some (x, some x))
            wire := update2 s.wire x j rest } a b = s.consumed a b := by
          simp only [Mesh.consumed]
          by_cases hbj : b = j
          · subst hbj
            have : a ≠ x := by rintro rfl; exact hab' rfl
            rw [Function.update_self, hc]
            simp [consumedOf, Ne.symm this]
          · rw [Function.update_of_ne hbj]
        rw [e]
        simp only [update2_of_ne _ _ hab']
        exact ⟨h1, h2⟩
  | keep j i hj x hc rest hw hx =>
    obtain ⟨c1, c2, c3, c4⟩ := h.cur j hj i (some x) hc
    obtain rfl : x = i := by simpa using c4
    obtain ⟨w1, w2⟩ := h.wire x j c1 hj
    have hcons : s.consumed x j = 1 := by
      simp only [Mesh.consumed, consumedOf, c3, hc]
      simp
    rw [hcons, hw] at w1
    have hrest : s.sent x j = [.id x, .opened] ∧ rest = [] := by
      unfold Mesh.sent sentOf at w1 ⊢
      split_ifs at w1 ⊢
      · simp at w1; exact ⟨rfl, w1⟩
      · simp at w1
      · simp at w1
    obtain ⟨hsent, rfl⟩ := hrest
    let s' : Mesh := { s with
        taken := Function.update s.taken j (s.taken j + 1)
        cur := Function.update s.cur j none
        peers := update2 s.peers j x (some (x, j))
        wire := update2 s.wire x j [] }
    have hP : ∀ a b, (a, b) ≠ (j, x) → s'.peers a b = s.peers a b := fun a b hne => update2_of_ne _ _ hne
    have hPj : s'.peers j x = some (x, j) := update2_self _ _ _ _
    refine ⟨h.made_le, h.stage_lt, h.back_nodup, fun k hk a => ?_, fun k hk a o hc' => ?_, fun k hk a ha hne => ?_,
      fun a ha k hk => ?_, fun k hk => ?_, fun a b hab hb' => ?_⟩
    · rw [h.back k hk a]
      show _ ↔ a < k ∧ s.Dialled a k ∧ (∀ o, s'.cur k ≠ some (a, o)) ∧ s'.peers k a = none
      by_cases hkj : k = j
      · subst hkj
        by_cases hax : a = x
        · subst hax
          rw [hPj]
          constructor
          · rintro ⟨-, -, h3, -⟩; exact absurd hc (h3 _)
          · rintro ⟨-, -, -, h4⟩; cases h4
        · rw [hP _ _ (by intro e; cases e; exact hax rfl)]
          have e1 : s'.cur k = none := Function.update_self _ _ _
          rw [e1, hc]
          constructor
          · rintro ⟨h1, h2, -, h4⟩; exact ⟨h1, h2, by simp, h4⟩
          · rintro ⟨h1, h2, -, h4⟩
            refine ⟨h1, h2, fun o e => ?_, h4⟩
            cases e; exact hax rfl
      · rw [hP _ _ (by intro e; cases e; exact hkj rfl)]
        have e1 : s'.cur k = s.cur k := Function.update_of_ne hkj _ _
        rw [e1]
    · by_cases hkj : k = j
      · subst hkj
        simp only [Function.update_self] at hc'
        cases hc'
      · simp only [Function.update_of_ne hkj] at hc'
        obtain ⟨h1, h2, h3, h4⟩ := h.cur k hk a o hc'
        exact ⟨h1, h2, by rw [← hP k a (by intro e; cases e; exact hkj rfl)] at h3; exact h3, h4⟩
    · by_cases hka : (k, a) = (j, x)
      · cases hka
        exact ⟨c2, hPj⟩
      · have hne' : s'.peers k a ≠ none := hne
        rw [hP _ _ hka] at hne'
        obtain ⟨h1, h2⟩ := h.low k hk a ha hne'
        exact ⟨h1, by rw [← hP _ _ hka] at h2; exact h2⟩
    · show s'.peers a k = _
      rw [hP _ _ (by intro e; cases e; omega)]
      exact h.high a ha k hk
    · show s'.taken k = ((List.range k).filter fun i => s'.peers k i ≠ none).length
      by_cases hkj : k = j
      · subst hkj
        have e1 : s'.taken k = s.taken k + 1 := Function.update_self _ _ _
        rw [e1, h.taken k hk]
        -- one more entry
        rw [← List.countP_eq_length_filter, ← List.countP_eq_length_filter]
        have hsplit : List.range k = List.range x ++ x :: List.range' (x + 1) (k - (x + 1)) := by
          have h0 := List.range'_append_1 (s := 0) (m := x) (n := k - (x + 1) + 1)
          rw [Nat.zero_add] at h0
          rw [List.range_eq_range', List.range_eq_range', ← List.range'_succ, h0]
          congr 1; omega
        rw [hsplit, List.countP_append, List.countP_append, List.countP_cons, List.countP_cons, if_neg (by simp [c3]),
          if_pos (by simp [hPj])]
        have e2 : ∀ L : List Nat, x ∉ L → List.countP (fun i => decide (s'.peers k i ≠ none)) L =
            List.countP (fun i => decide (s.peers k i ≠ none)) L := by
          intro L hL
          refine List.countP_congr fun a ha => ?_
          rw [hP k a (by intro e; cases e; exact hL ha)]
        rw [e2 _ (by simp), e2 _ (by simp [List.mem_range']; omega)]
        omega
      · have e1 : s'.taken k = s.taken k := Function.update_of_ne hkj _ _
        rw [e1, h.taken k hk]
        congr 1
        refine List.filter_congr fun a ha => ?_
        rw [hP _ _ (by intro e; cases e; exact hkj rfl)]
    · obtain ⟨h1, h2⟩ := h.wire a b hab hb'
      show s'.wire a b = List.drop (s'.consumed a b) (s.sent a b) ∧ s'.consumed a b ≤ (s.sent a b).length
      by_cases hab' : (a, b) = (x, j)
      · cases hab'
        have e : s'.consumed x j = 2 := by
          simp only [Mesh.consumed, consumedOf, hPj]; simp
        rw [e, hsent]
        simp [s']
      · have e : s'.consumed a b = s.consumed a b := by
          simp only [Mesh.consumed]
          rw [hP b a (by intro e; cases e; exact hab' rfl)]
          by_cases hbj : b = j
          · subst hbj
            have hax : a ≠ x := by rintro rfl; exact hab' rfl
            have e1 : s'.cur b = none := Function.update_self _ _ _
            rw [e1, hc]
            simp [consumedOf, Ne.symm hax]
          · have e1 : s'.cur b = s.cur b := Function.update_of_ne hbj _ _
            rw [e1]
        rw [e]
        simp only [s', update2_of_ne _ _ hab']
        exact ⟨h1, h2⟩

theorem Mesh.Steps.inv {n k : Nat} {s : Mesh} (hs : Mesh.Steps n k Mesh.init s) : s.Inv n := by
  generalize h0 : Mesh.init = s₀ at hs
  induction hs with
  | refl s => subst h0; exact .init n
  | step _ hst ih => exact (ih h0).step hst

/-- The mesh with all connections made. -/
structure Mesh.Complete (n : Nat) (s : Mesh) : Prop where
  made : ∀ i < n, s.made i = n - 1 - i ∧ s.stage i = .idle
  taken : ∀ j < n, s.taken j = j ∧ s.cur j = none
  backlog : ∀ j < n, s.backlog j = []
  peers : ∀ i < n, ∀ k < n, s.peers i k = if i = k then none else some (min i k, max i k)
  wire : ∀ i j, i < j → j < n → s.wire i j = []

theorem Mesh.Inv.taken_lt {n : Nat} {s : Mesh} (h : s.Inv n) {i j : Nat} (hj : j < n) (hi : i < j) (hp : s.peers j i = none) :
    s.taken j < j := by
  rw [h.taken j hj]
  have h1 := List.length_filter_lt_length_iff_exists (p := fun i => decide (s.peers j i ≠ none)) (l := List.range j)
  rw [List.length_range] at h1
  exact h1.2 ⟨i, List.mem_range.2 hi, by simp [hp]⟩

theorem Mesh.Inv.complete_of_stuck {n : Nat} {s : Mesh} (h : s.Inv n) (hst : ∀ s', ¬ Mesh.Step n s s') : s.Complete n := by
  have hmade : ∀ i < n, s.made i = n - 1 - i ∧ s.stage i = .idle := by
    intro i hi
    rcases hsi : s.stage i with _ | _ | _
    · refine ⟨?_, rfl⟩
      by_contra hne
      exact hst _ (.dial s i hi (lt_of_le_of_ne (h.made_le i hi) hne) hsi)
    · exact absurd (Mesh.Step.write s i hi hsi) (hst _)
    · have := h.stage_lt i hi (by rw [hsi]; simp)
      exact absurd (Mesh.Step.store s i hi hsi (by unfold Mesh.target; omega)) (hst _)
  have htgt : ∀ i < n, s.target i = n := by
    intro i hi
    unfold Mesh.target
    rw [(hmade i hi).1]; omega
  have hdial : ∀ i j, i < j → j < n → s.Dialled i j := fun i j hij hj => .inl (by rw [htgt i (by omega)]; exact hj)
  have hsent : ∀ i j, i < j → j < n → s.sent i j = [.id i, .opened] := by
    intro i j hij hj
    rw [Mesh.sent, htgt i (by omega), sentOf, if_pos hj]
  have hcur : ∀ j < n, s.cur j = none := by
    intro j hj
    rcases hc : s.cur j with _ | ⟨i, o⟩
    · rfl
    · obtain ⟨c1, c2, c3, c4⟩ := h.cur j hj i o hc
      obtain ⟨w1, w2⟩ := h.wire i j c1 hj
      rw [hsent i j c1 hj] at w1
      rcases c4 with rfl | rfl
      · have : s.consumed i j = 0 := by simp [Mesh.consumed, consumedOf, c3, hc]
        rw [this] at w1
        exact absurd (Mesh.Step.read s j i hj hc i _ w1) (hst _)
      · have : s.consumed i j = 1 := by simp [Mesh.consumed, consumedOf, c3, hc]
        rw [this] at w1
        exact absurd (Mesh.Step.keep s j i hj i hc _ w1 (by omega)) (hst _)
  have hlow : ∀ j < n, ∀ i < j, s.peers j i = some (i, j) := by
    intro j hj i hi
    by_contra hne
    have hp : s.peers j i = none := by
      by_contra h1
      exact hne (h.low j hj i hi h1).2
    have hb := (h.back j hj i).2 ⟨hi, hdial i j hi hj, fun o => by rw [hcur j hj]; simp, hp⟩
    obtain ⟨pre, post, hpp⟩ := List.append_of_mem hb
    exact hst _ (.accept s j i hj (h.taken_lt hj hi hp) (hcur j hj) pre post hpp)
  refine ⟨hmade, fun j hj => ⟨?_, hcur j hj⟩, fun j hj => ?_, fun i hi k hk => ?_, fun i j hij hj => ?_⟩
  · rw [h.taken j hj, List.filter_eq_self.2, List.length_range]
    intro i hi
    rw [hlow j hj i (List.mem_range.1 hi)]
    simp
  · rw [List.eq_nil_iff_forall_not_mem]
    intro i hi
    obtain ⟨h1, -, -, h4⟩ := (h.back j hj i).1 hi
    rw [hlow j hj i h1] at h4
    cases h4
  · rcases lt_trichotomy i k with hik | rfl | hik
    · rw [h.high i hi k hik.le, htgt i hi, highOf, if_pos ⟨hik, hk⟩, if_neg hik.ne, min_eq_left hik.le, max_eq_right hik.le]
    · rw [h.high i hi i le_rfl, highOf, if_neg (by omega), if_pos rfl]
    · rw [hlow i hi k hik, if_neg hik.ne', min_eq_right hik.le, max_eq_left hik.le]
  · obtain ⟨w1, -⟩ := h.wire i j hij hj
    have : s.consumed i j = 2 := by simp [Mesh.consumed, consumedOf, hlow j hj i hij]
    rw [w1, hsent i j hij hj, this]
    rfl

def Dialling.rank : Dialling → Nat
  | .idle => 0
  | .connected => 1
  | .written => 2

def curRank : Option (Nat × Option Nat) → Nat
  | none => 0
  | some (_, none) => 1
  | some (_, some _) => 2

/-- The steps node `i` has made. -/
def Mesh.work (s : Mesh) (i : Nat) : Nat := 3 * s.made i + (s.stage i).rank + (3 * s.taken i + curRank (s.cur i))

theorem sum_bump {n i : Nat} (hi : i < n) (f g : Nat → Nat) (h1 : g i = f i + 1) (h2 : ∀ a, a ≠ i → g a = f a) :
    ∑ a ∈ Finset.range n, g a = (∑ a ∈ Finset.range n, f a) + 1 := by
  rw [← Finset.add_sum_erase _ _ (Finset.mem_range.2 hi), ← Finset.add_sum_erase _ f (Finset.mem_range.2 hi), h1]
  rw [Finset.sum_congr rfl fun a ha => h2 a (Finset.ne_of_mem_erase ha)]
  ring

theorem Mesh.Step.work {n : Nat} {s s' : Mesh} (hs : Mesh.Step n s s') :
    ∑ a ∈ Finset.range n, s'.work a = (∑ a ∈ Finset.range n, s.work a) + 1 := by
  cases hs with
  | dial i hi hm hst =>
    refine sum_bump hi _ _ ?_ fun a ha => ?_
    · simp [Mesh.work, hst, Dialling.rank]; omega
    · simp [Mesh.work, ha]
  | write i hi hst =>
    refine sum_bump hi _ _ ?_ fun a ha => ?_
    · simp [Mesh.work, hst, Dialling.rank]; omega
    · simp [Mesh.work, ha]
  | store i hi hst ht =>
    refine sum_bump hi _ _ ?_ fun a ha => ?_
    · simp [Mesh.work, hst, Dialling.rank]; omega
    · simp [Mesh.work, ha]
  | accept j i hj ht hc pre post hb =>
    refine sum_bump hj _ _ ?_ fun a ha => ?_
    · simp [Mesh.work, hc, curRank]; omega
    · simp [Mesh.work, ha]
  | read j i hj hc x rest hw =>
    refine sum_bump hj _ _ ?_ fun a ha => ?_
    · simp [Mesh.work, hc, curRank]; omega
    · simp [Mesh.work, ha]
  | keep j i hj x hc rest hw hx =>
    refine sum_bump hj _ _ ?_ fun a ha => ?_
    · simp [Mesh.work, hc, curRank]; omega
    · simp [Mesh.work, ha]

theorem Mesh.Steps.work {n k : Nat} {s : Mesh} (hs : Mesh.Steps n k Mesh.init s) : ∑ a ∈ Finset.range n, s.work a = k := by
  generalize h0 : Mesh.init = s₀ at hs
  induction hs with
  | refl s =>
    subst h0
    exact Finset.sum_eq_zero fun a _ => rfl
  | step _ hst ih => rw [hst.work, ih h0]

theorem Mesh.Inv.work_le {n : Nat} {s : Mesh} (h : s.Inv n) {i : Nat} (hi : i < n) : s.work i ≤ 3 * (n - 1) := by
  have h1 : 3 * s.made i + (s.stage i).rank ≤ 3 * (n - 1 - i) := by
    have hm := h.made_le i hi
    rcases hsi : s.stage i with _ | _ | _
    · simp only [Dialling.rank]; omega
    · have := h.stage_lt i hi (by rw [hsi]; simp)
      simp only [Dialling.rank]; omega
    · have := h.stage_lt i hi (by rw [hsi]; simp)
      simp only [Dialling.rank]; omega
  have h2 : 3 * s.taken i + curRank (s.cur i) ≤ 3 * i := by
    have h0 : s.taken i ≤ i := by
      rw [h.taken i hi]
      exact (List.length_filter_le _ _).trans (by rw [List.length_range])
    rcases hc : s.cur i with _ | ⟨a, _ | x⟩
    · simp only [curRank]; omega
    · obtain ⟨c1, -, c3, -⟩ := h.cur i hi a _ hc
      have := h.taken_lt hi c1 c3
      simp only [curRank]; omega
    · obtain ⟨c1, -, c3, -⟩ := h.cur i hi a _ hc
      have := h.taken_lt hi c1 c3
      simp only [curRank]; omega
  unfold Mesh.work
  omega

theorem Mesh.Steps.bound {n k : Nat} {s : Mesh} (hs : Mesh.Steps n k Mesh.init s) : k ≤ 3 * (n * (n - 1)) := by
  rw [← hs.work]
  refine (Finset.sum_le_sum fun a ha => hs.inv.work_le (Finset.mem_range.1 ha)).trans ?_
  rw [Finset.sum_const, Finset.card_range, smul_eq_mul]
  exact le_of_eq (by ring)

theorem Mesh.Complete.steps {n k : Nat} {s : Mesh} (hs : Mesh.Steps n k Mesh.init s) (hc : s.Complete n) : k = 3 * (n * (n - 1)) := by
  rw [← hs.work, Finset.sum_congr rfl (g := fun _ => 3 * (n - 1))]
  · rw [Finset.sum_const, Finset.card_range, smul_eq_mul]
    ring
  · intro a ha
    have ha := Finset.mem_range.1 ha
    obtain ⟨h1, h2⟩ := hc.made a ha
    obtain ⟨h3, h4⟩ := hc.taken a ha
    simp only [Mesh.work, h1, h2, h3, h4, Dialling.rank, curRank]
    omega

/-- From every reachable state all remaining steps lead to the complete mesh. -/
theorem Mesh.Steps.extend {n k : Nat} {s : Mesh} (hs : Mesh.Steps n k Mesh.init s) :
    ∃ k' s', Mesh.Steps n k' s s' ∧ s'.Complete n := by
  have key : ∀ m k s, 3 * (n * (n - 1)) - k = m → Mesh.Steps n k Mesh.init s → ∃ k' s', Mesh.Steps n k' s s' ∧ s'.Complete n := by
    intro m
    induction m with
    | zero =>
      intro k s hm hs
      refine ⟨0, s, .refl s, hs.inv.complete_of_stuck fun s' hst => ?_⟩
      have := (hs.step hst).bound
      omega
    | succ m ih =>
      intro k s hm hs
      by_cases hst : ∃ s', Mesh.Step n s s'
      · obtain ⟨s', hst⟩ := hst
        obtain ⟨k', s'', h1, h2⟩ := ih (k + 1) s' (by omega) (hs.step hst)
        have cons : ∀ {k s s' s''}, Mesh.Step n s s' → Mesh.Steps n k s' s'' → Mesh.Steps n (k + 1) s s'' := by
          intro k s s' s'' h1 h2
          induction h2 with
          | refl => exact .step (.refl _) h1
          | step _ h3 ih => exact .step (ih h1) h3
        exact ⟨k' + 1, s'', cons hst h1, h2⟩
      · exact ⟨0, s, .refl s, hs.inv.complete_of_stuck fun s' h => hst ⟨s', h⟩⟩
  exact key _ k s rfl hs

end ZkSaas
