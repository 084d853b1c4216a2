import Verif.Lemmas.Lossy

/-! A star round in which some parties never take part. -/

set_option linter.unusedSectionVars false

namespace ZkSaas

open Spec

variable {n : Nat} {α : Type}

/-- The clients in `J` send one after the other and the king receives; the others do not move. -/
theorem reach_gather_only (hn : 0 < n) (sid : Sid) (msg : Nat → Bytes) (k0 : List (Nat × Bytes) → Proc α)
    (k : Fin n → Proc α) (Q : Queues) (hQ : ∀ i, Q (i, 0, sid) = []) (J : List Nat) (hJ : J.Nodup) (hlt : ∀ j ∈ J, j < n)
    (h1 : ∀ j ∈ J, 1 ≤ j) (rest : Fin n → Proc α) :
    Reach All (⟨fun i => if i.val = 0 then .gather sid n (msg 0) (fun _ => none) k0 else if i.val ∈ J then .send 0 sid (msg i) (k i)
        else rest i, Q⟩ : Net n α)
      ⟨fun i => if i.val = 0 then .gather sid n (msg 0) (fun j => if j ∈ J then some (msg j) else none) k0
        else if i.val ∈ J then k i else rest i, Q⟩ := by
  induction J generalizing rest with
  | nil => simp only [List.not_mem_nil, if_false]; exact .refl _
  | cons m J ih =>
    have hm := List.nodup_cons.1 hJ
    have hmn : m < n := hlt m (by simp)
    have hm1 : 1 ≤ m := h1 m (by simp)
    have h0 := ih hm.2 (fun j hj => hlt j (by simp [hj])) (fun j hj => h1 j (by simp [hj]))
      (fun i => if i.val = m then .send 0 sid (msg i) (k i) else rest i)
    have e0 : (fun i : Fin n => if i.val = 0 then Proc.gather sid n (msg 0) (fun _ => none) k0 else
        if i.val ∈ J then .send 0 sid (msg i) (k i) else if i.val = m then .send 0 sid (msg i) (k i) else rest i) =
        fun i : Fin n => if i.val = 0 then Proc.gather sid n (msg 0) (fun _ => none) k0 else
          if i.val ∈ m :: J then .send 0 sid (msg i) (k i) else rest i := by
      funext i
      by_cases a : i.val = m <;> by_cases b : i.val ∈ J <;> simp [a, b]
    rw [e0] at h0
    refine h0.trans ?_
    set ps : Fin n → Proc α := fun i : Fin n => if i.val = 0 then .gather sid n (msg 0) (fun j => if j ∈ J then some (msg j) else none) k0
        else if i.val ∈ J then k i else if i.val = m then .send 0 sid (msg i) (k i) else rest i with hps
    have s1 := Reach.step (P := All) (ps := ps) (Q := Q) ⟨m, hmn⟩
      (.send 0 sid (msg m)) (k ⟨m, hmn⟩) (core_send _ _ _)
      (by simp only [hps]; rw [if_neg (by omega), if_neg hm.1, if_pos trivial]; exact .send _ _ _ _) rfl
    refine s1.trans ?_
    have s2 := Reach.step (P := All) (ps := Function.update ps ⟨m, hmn⟩ (k ⟨m, hmn⟩))
      (Q := Function.update Q (m, 0, sid) (Q (m, 0, sid) ++ [msg m])) (Q' := Q) ⟨0, hn⟩ (.recv m sid (msg m))
      (.gather sid n (msg 0) (Function.update (fun j => if j ∈ J then some (msg j) else none) m (some (msg m))) k0)
      (core_recv _ _ _)
      (by
        rw [Function.update_of_ne (by intro h; have := congrArg Fin.val h; simp only at this; omega)]
        simp only [hps, if_true]
        exact .gatherRecv _ _ _ _ _ m _ hm1 hmn (by rw [if_neg hm.1]))
      (by
        simp only [qstep, Function.update_self, hQ, List.nil_append, if_true]
        congr 1
        funext y
        by_cases hy : y = (m, 0, sid)
        · subst hy; rw [Function.update_self, hQ]
        · rw [Function.update_of_ne hy, Function.update_of_ne hy])
    refine cast ?_ s2
    congr 2
    funext i
    by_cases hi : i.val = 0
    · obtain rfl : i = ⟨0, hn⟩ := Fin.ext hi
      rw [Function.update_self, if_pos rfl]
      congr 1
      funext j
      by_cases hj : j = m
      · subst hj; rw [Function.update_self, if_pos (by simp)]
      · rw [Function.update_of_ne hj]
        simp only [List.mem_cons, hj, false_or]
    · rw [Function.update_of_ne (by intro h; exact hi (by rw [h])), if_neg hi]
      by_cases him : i.val = m
      · obtain rfl : i = ⟨m, hmn⟩ := Fin.ext him
        rw [Function.update_self, if_pos (by simp)]
      · rw [Function.update_of_ne (by intro h; exact him (by rw [h])), hps]
        simp only [hi, if_false, List.mem_cons, him, false_or]

/-- A star round in which the parties in `silent` (at least one) have already finished: it comes to a halt under every schedule; the
king (unless it is silent itself) waits for a message of a silent client that is not coming, and the clients that take part wait
for the king. -/
theorem star_stall (hn : 0 < n) (sid : Sid) (silent : Nat → Prop) [DecidablePred silent] (msg : Nat → Bytes)
    (k0 : List (Nat × Bytes) → Proc α) (k : Fin n → Bytes → Proc α) (r : Fin n → Res α) (hs : ∃ i < n, silent i)
    (ps : Fin n → Proc α) (hwf : ∀ i, ∃ S, (ps i).WF S)
    (hps : ∀ i, ps i = if silent i then .done (r i) else if i.val = 0 then .gather sid n (msg 0) (fun _ => none) k0
      else .send 0 sid (msg i) (.recv 0 sid (k i))) :
    AlwaysHalts (Net.init ps) fun c => ∀ i : Fin n, if silent i then c.procs i = .done (r i) else
      if i.val = 0 then ∃ own got k, c.procs i = .gather sid n own got k ∧ ∃ j < n, silent j ∧ got j = none ∧ c.queues (j, 0, sid) = []
      else ∃ k, c.procs i = .recv 0 sid k ∧ c.queues (0, i, sid) = [] := by
  have hwf : (Net.init ps).WF := hwf
  by_cases h0 : silent 0
  · -- the king does not take part
    set J := (List.range n).filter (fun i => decide (silent i)) with hJ
    have hJm : ∀ i < n, (i ∈ J ↔ silent i) := by
      intro i hi
      rw [hJ]; simp [hi]
    obtain ⟨m, hm⟩ := reach_late_sends (n := n) sid msg (.done (r ⟨0, hn⟩))
      (fun i => if silent i then .done (r i) else .recv 0 sid (k i)) J n le_rfl (fun _ => [])
    have e1 : (fun i : Fin n => if i.val = 0 then Proc.done (r ⟨0, hn⟩) else if i.val ∈ J then
        (if silent i then .done (r i) else .recv 0 sid (k i)) else
        .send 0 sid (msg i) (if silent i then .done (r i) else .recv 0 sid (k i))) = ps := by
      funext i
      rw [hps i]
      simp only [hJm i i.2]
      by_cases hi : i.val = 0
      · obtain rfl : i = ⟨0, hn⟩ := Fin.ext hi
        simp [h0]
      · by_cases hsi : silent i <;> simp [hi, hsi]
    rw [e1] at hm
    have e2 : (fun i : Fin n => if i.val = 0 then Proc.done (r ⟨0, hn⟩) else if i.val ∈ J ∨ i.val < n then
        (if silent i then .done (r i) else .recv 0 sid (k i)) else
        .send 0 sid (msg i) (if silent i then .done (r i) else .recv 0 sid (k i))) =
        fun i : Fin n => if silent i then .done (r i) else .recv 0 sid (k i) := by
      funext i
      by_cases hi : i.val = 0
      · obtain rfl : i = ⟨0, hn⟩ := Fin.ext hi
        simp [h0]
      · simp [hi]
    rw [e2] at hm
    have hq : ∀ i, (fun x : Nat × Nat × Sid => if x.2 = (0, sid) ∧ x.1 ≠ 0 ∧ x.1 ∉ J ∧ x.1 < n then
        ([] : List Bytes) ++ [msg x.1] else []) (0, i, sid) = [] := by
      intro i; simp
    obtain ⟨h1, h2⟩ := reliable_of_run hwf hm
      (by
        rintro ⟨c', h⟩
        cases h with
        | mk procs Q Q' i a p' ha hstep hq' =>
          simp only at hstep
          split at hstep
          · cases hstep
          · cases hstep with
            | recv => simp [qstep] at hq'
            | recvFail => exact ha.1 rfl)
      (fun i h => by simp only at h; split at h <;> cases h)
    refine ⟨⟨m, h1⟩, fun k' c' hc' hst => ?_⟩
    rw [h2 k' c' hc' hst]
    intro i
    by_cases hsi : silent i
    · rw [if_pos hsi]; simp only [if_pos hsi]
    · rw [if_neg hsi, if_neg (by intro h; exact hsi (by rwa [h]))]
      exact ⟨k i, by simp only [if_neg hsi], hq i⟩
  · -- the king takes part
    set J := (List.range n).filter (fun i => decide (¬ silent i ∧ i ≠ 0)) with hJ
    have hJm : ∀ i, (i ∈ J ↔ i < n ∧ ¬ silent i ∧ i ≠ 0) := by
      intro i
      rw [hJ]; simp
    obtain ⟨m, hm⟩ := reach_gather_only hn sid msg k0 (fun i => .recv 0 sid (k i)) (fun _ => []) (fun _ => rfl) J
      (List.nodup_range.filter _) (fun j hj => ((hJm j).1 hj).1) (fun j hj => by have := ((hJm j).1 hj).2.2; omega)
      (fun i => .done (r i))
    have e1 : (fun i : Fin n => if i.val = 0 then Proc.gather sid n (msg 0) (fun _ => none) k0 else if i.val ∈ J then
        .send 0 sid (msg i) (.recv 0 sid (k i)) else .done (r i)) = ps := by
      funext i
      rw [hps i]
      simp only [hJm i]
      by_cases hi : i.val = 0
      · simp [hi, h0]
      · by_cases hsi : silent i <;> simp [hi, hsi]
    rw [e1] at hm
    obtain ⟨s, hsn, hss⟩ := hs
    have hs1 : 1 ≤ s := by
      rcases Nat.eq_zero_or_pos s with h | h
      · exact absurd (h ▸ hss) h0
      · exact h
    have hsJ : s ∉ J := fun h => ((hJm s).1 h).2.1 hss
    obtain ⟨h1, h2⟩ := reliable_of_run hwf hm
      (by
        rintro ⟨c', h⟩
        cases h with
        | mk procs Q Q' i a p' ha hstep hq' =>
          simp only at hstep
          split at hstep
          · cases hstep with
            | gatherRecv => simp [qstep] at hq'
            | gatherDone _ _ _ _ _ _ hfull => exact hfull s hs1 hsn (if_neg hsJ)
            | gatherExpire => exact ha.1 rfl
          · split at hstep
            · cases hstep with
              | recv => simp [qstep] at hq'
              | recvFail => exact ha.1 rfl
            · cases hstep)
      (fun i h => by simp only at h; split at h <;> [cases h; split at h <;> cases h])
    refine ⟨⟨m, h1⟩, fun k' c' hc' hst => ?_⟩
    rw [h2 k' c' hc' hst]
    intro i
    by_cases hi : i.val = 0
    · rw [if_neg (by rwa [hi]), if_pos hi]
      exact ⟨_, fun j => if j ∈ J then some (msg j) else none, k0, if_pos hi, s, hsn, hss, if_neg hsJ, rfl⟩
    · by_cases hsi : silent i
      · rw [if_pos hsi]
        simp only [if_neg hi]
        exact if_neg (fun h => ((hJm i).1 h).2.1 hsi)
      · rw [if_neg hsi, if_neg hi]
        refine ⟨k i, ?_, rfl⟩
        simp only [if_neg hi]
        exact if_pos ((hJm i).2 ⟨i.2, hsi, hi⟩)

end ZkSaas
