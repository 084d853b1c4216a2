import Verif.Lemmas.SilentProtocols
import Verif.Lemmas.Lossy

/-! What happens when the king cannot do without those that fell silent. -/

set_option linter.unusedSectionVars false

namespace ZkSaas

open Spec

variable {n : Nat} {α : Type}

theorem Spec.SilentSteps.trans {S : Nat → Prop} {k k' : Nat} {c c' c'' : Net n α} (h : SilentSteps S k c c') (h' : SilentSteps S k' c' c'') :
    ∃ k'', SilentSteps S k'' c c'' := by
  induction h with
  | refl => exact ⟨_, h'⟩
  | step h _ ih =>
    obtain ⟨m, hm⟩ := ih h'
    exact ⟨_, .step h hm⟩

theorem Reach.silentSteps {c c' : Net n α} (h : Reach All c c') (S : Nat → Prop) : ∃ k, SilentSteps S k c c' := by
  obtain ⟨k, h⟩ := h
  refine ⟨k, ?_⟩
  induction h with
  | refl => exact .refl _
  | step h _ ih => exact .step (.move (.run (h.mono fun _ h => h.1.1))) ih

/-- All of `silent` stop. -/
theorem silent_stops (silent : Finset Nat) (e : Fault) (procs : Fin n → Proc α) (hp : ∀ i : Fin n, i.val ∈ silent → ∀ r, procs i ≠ .done r)
    (Q : Queues) (m : Nat) : ∃ k, SilentSteps (· ∈ silent) k ⟨procs, Q⟩ ⟨fun i => if i.val < m ∧ i.val ∈ silent then .done (.error e) else procs i, Q⟩ := by
  induction m with
  | zero => exact ⟨0, by simpa using SilentSteps.refl _⟩
  | succ m ih =>
    obtain ⟨k, hk⟩ := ih
    by_cases h : m < n ∧ m ∈ silent
    · obtain ⟨k', hk'⟩ := hk.trans (.step (.stop _ ⟨m, h.1⟩ h.2 e (by simpa using hp ⟨m, h.1⟩ h.2)) (.refl _))
      refine ⟨k', cast ?_ hk'⟩
      congr 2
      funext i
      by_cases hi : i.val = m
      · obtain rfl : i = ⟨m, h.1⟩ := Fin.ext hi
        simp [h.2]
      · rw [Function.update_of_ne (fun h => hi (by rw [h]))]
        have : i.val < m + 1 ↔ i.val < m := by omega
        simp only [this]
    · refine ⟨k, cast ?_ hk⟩
      congr 2
      funext i
      by_cases hi : i.val = m
      · have : i.val ∉ silent := fun h' => h ⟨hi ▸ i.2, hi ▸ h'⟩
        simp [this]
      · have : i.val < m + 1 ↔ i.val < m := by omega
        simp only [this]

/-- The parties that are not silent. -/
def speaking (n : Nat) (silent : Finset Nat) : List Nat := (List.range n).filter (· ∉ silent)

theorem mem_speaking {silent : Finset Nat} {i : Nat} : i ∈ speaking n silent ↔ i < n ∧ i ∉ silent := by
  simp [speaking]

theorem speaking_nodup (n : Nat) (silent : Finset Nat) : (speaking n silent).Nodup := List.nodup_range.filter _

theorem speaking_length {silent : Finset Nat} (hs : ∀ i ∈ silent, i < n) : (speaking n silent).length + silent.card = n := by
  rw [← List.toFinset_card_of_nodup (speaking_nodup n silent)]
  have h1 : (speaking n silent).toFinset = Finset.range n \ silent := by
    ext i
    rw [List.mem_toFinset, mem_speaking, Finset.mem_sdiff, Finset.mem_range]
  rw [h1, Finset.card_sdiff_add_card_eq_card fun i hi => Finset.mem_range.2 (hs i hi), Finset.card_range]

/-- The parties in `silent` stop before they sent anything, and the king goes on without them. -/
theorem reach_silence (hn : 0 < n) (sid : Sid) (msg : Nat → Bytes) (k0 : List (Nat × Bytes) → Proc α) (kc : Fin n → Proc α)
    (silent : Finset Nat) (h0 : 0 ∉ silent) (e : Fault) :
    ∃ k, SilentSteps (· ∈ silent) k (Net.init fun i : Fin n => if i.val = 0 then .gather sid n (msg 0) (fun _ => none) k0
        else .send 0 sid (msg i) (kc i))
      ⟨fun i => if i.val = 0 then k0 ((speaking n silent).map fun i => (i, msg i)) else
        if i.val ∈ silent then .done (.error e) else kc i, fun _ => []⟩ := by
  set parties := speaking n silent with hparties
  have hmem : ∀ i, i ∈ parties ↔ i < n ∧ i ∉ silent := fun i => mem_speaking
  have hnd : parties.Nodup := speaking_nodup _ _
  set J := parties.filter (· ≠ 0) with hJ
  have hmemJ : ∀ j, j ∈ J ↔ (j < n ∧ j ∉ silent) ∧ j ≠ 0 := fun j => by simp [hJ, hmem]
  obtain ⟨k1, r1⟩ := (reach_gather_list hn sid msg k0 kc (fun _ => []) (fun _ => rfl) J (hnd.filter _)
    (fun j hj => ((hmemJ j).1 hj).1.1) (fun j hj => by have := ((hmemJ j).1 hj).2; omega)).silentSteps (· ∈ silent)
  obtain ⟨k2, r2⟩ := silent_stops silent e
    (fun i : Fin n => if i.val = 0 then .gather sid n (msg 0) (fun j => if j ∈ J then some (msg j) else none) k0
        else if i.val ∈ J then kc i else .send 0 sid (msg i) (kc i))
    (fun i hi r => by
      have h1 : ¬ i.val = 0 := fun h => h0 (h ▸ hi)
      have h2 : i.val ∉ J := fun h => ((hmemJ _).1 h).1.2 hi
      simp only [if_neg h1, if_neg h2]
      intro h
      cases h) (fun _ => []) n
  have r3 := Move.giveUp (⟨fun i => if i.val < n ∧ i.val ∈ silent then .done (.error e) else
      if i.val = 0 then .gather sid n (msg 0) (fun j => if j ∈ J then some (msg j) else none) k0
        else if i.val ∈ J then kc i else .send 0 sid (msg i) (kc i), fun _ => []⟩ : Net n α) sid ⟨0, hn⟩ rfl
      (k0 (parties.map fun i => (i, msg i)))
      (by
        simp only [h0, and_false, if_false, if_true]
        refine .expire _ _ _ _ _ (fun i h1 h2 hng hgot => hng ?_) (Enumerates.some_parties msg hnd (fun p hp => ((hmem p).1 hp).1)
          ((hmem 0).2 ⟨hn, h0⟩))
        have hi : i ∈ silent := by
          by_contra hc
          have : i ∈ J := (hmemJ i).2 ⟨⟨h2, hc⟩, by omega⟩
          rw [if_pos this] at hgot
          cases hgot
        exact ⟨h2, ⟨e, by simp [h2, hi]⟩, rfl⟩)
  obtain ⟨k4, r4⟩ := r1.trans r2
  obtain ⟨k5, r5⟩ := r4.trans (.step (.move r3) (.refl _))
  refine ⟨k5, cast ?_ r5⟩
  congr 2
  funext i
  by_cases hi : i.val = 0
  · obtain rfl : i = ⟨0, hn⟩ := Fin.ext hi
    rw [Function.update_self, if_pos rfl]
  · rw [Function.update_of_ne (fun h => hi (by rw [h])), if_neg hi]
    simp only [i.2, true_and, if_neg hi]
    by_cases hs : i.val ∈ silent
    · rw [if_pos hs, if_pos hs]
    · rw [if_neg hs, if_neg hs, if_pos ((hmemJ _).2 ⟨⟨i.2, hs⟩, hi⟩)]

section round
variable {T U : Type} [Wire T] [Wire U]

/-- What the king of a round hears when `silent` say nothing, and more than the threshold do. -/
theorem speaking_received (hn : 0 < n) (threshold : Nat) {x : Nat → T} (hx : ∀ i < n, Wire.Ok (x i)) {silent : Finset Nat} (h0 : 0 ∉ silent)
    (hlt : (speaking n silent).length < n) :
    (kingFinish n ((speaking n silent).map fun i => (i, Wire.enc (x i)))).map some =
        .ok (some (.partly ((speaking n silent).map fun i => (i, Wire.enc (x i))))) ∧
    decodeReceived (T := T) n threshold (some (.partly ((speaking n silent).map fun i => (i, Wire.enc (x i))))) =
      if (speaking n silent).length < threshold then .error (.net (.protocol 0))
      else .ok (some ⟨(speaking n silent).map x, speaking n silent⟩) := by
  constructor
  · unfold kingFinish
    rw [if_neg (by simp; omega)]
    rfl
  · simp only [decodeReceived]
    have hS : Sent x (fun j => if j ∈ (speaking n silent).filter (· ≠ 0) then some (Wire.enc (x j)) else none) := by
      intro i b h
      simp only at h
      split at h
      · cases h; rfl
      · cases h
    rw [filterMap_dec hx hS (Enumerates.some_parties (fun i => Wire.enc (x i)) (speaking_nodup _ _)
      (fun p hp => (mem_speaking.1 hp).1) (mem_speaking.2 ⟨hn, h0⟩)) hn]
    simp only [List.map_map, List.length_map]
    congr 1
    simp [Function.comp_def]

/-- A round that the king cannot finish without `silent`: the king fails, and the clients wait for ever. -/
theorem silence_breaks (hn : 0 < n) (sid : Sid) (threshold : Nat) (x : Nat → T) (hx : ∀ i < n, Wire.Ok (x i))
    (K : ReceivedShares T → Res (List U)) (f : Fin n → U → Proc α) (silent : Finset Nat) (h0 : 0 ∉ silent)
    (hlt : (speaking n silent).length < n) (e : Fault)
    (hfail : (if (speaking n silent).length < threshold then .error (.net (.protocol 0)) else K ⟨(speaking n silent).map x, speaking n silent⟩) =
      .error e) :
    ∃ k c, SilentSteps (· ∈ silent) k (Net.init fun i : Fin n => (clientSendOrKingReceiveSer n i (x i) sid threshold).bind fun r =>
        (Proc.done (kingDo K r)).bind fun a => (clientReceiveOrKingSendSer n i a sid).bind (f i)) c ∧
      (¬ ∃ c', Move c c') ∧ c.procs ⟨0, hn⟩ = .done (.error e) ∧ ∀ i r, c.procs i ≠ .done (.ok r) := by
  let k0 : List (Nat × Bytes) → Proc α := fun L =>
    (((Proc.done ((kingFinish n L).map some)).bind fun r => .done (decodeReceived (T := T) n threshold r)).bind fun r =>
      (Proc.done (kingDo K r)).bind fun a => (clientReceiveOrKingSendSer n 0 a sid).bind (f ⟨0, hn⟩))
  let kc : Fin n → Proc α := fun i => (clientReceiveOrKingSendSer (T := U) n i none sid).bind (f i)
  have e0 : (fun i : Fin n => (clientSendOrKingReceiveSer n i (x i) sid threshold).bind fun r =>
      (Proc.done (kingDo K r)).bind fun a => (clientReceiveOrKingSendSer n i a sid).bind (f i)) =
      fun i => if i.val = 0 then .gather sid n (Wire.enc (x 0)) (fun _ => none) k0 else .send 0 sid (Wire.enc (x i)) (kc i) := by
    funext i
    by_cases hi : i.val = 0
    · obtain rfl : i = ⟨0, hn⟩ := Fin.ext hi
      rfl
    · rw [if_neg hi]
      unfold clientSendOrKingReceiveSer clientSendOrKingReceive
      rw [if_neg hi]
      rfl
  obtain ⟨k, hk⟩ := reach_silence hn sid (fun i => Wire.enc (x i)) k0 kc silent h0 .panic
  rw [← e0] at hk
  have hk0 : k0 ((speaking n silent).map fun i => (i, Wire.enc (x i))) = .done (.error e) := by
    obtain ⟨h1, h2⟩ := speaking_received hn threshold hx h0 hlt
    simp only [k0]
    rw [h1]
    simp only [Proc.bind]
    rw [h2]
    split at hfail
    · rename_i h
      rw [if_pos h]
      simp only [Proc.bind]
      cases hfail
      rfl
    · rename_i h
      rw [if_neg h]
      simp only [Proc.bind, kingDo, hfail, Except.map]
  have hkc : ∀ i : Fin n, i.val ≠ 0 → ∃ g, kc i = .recv 0 sid g := fun i hi => by
    simp only [kc]
    unfold clientReceiveOrKingSendSer clientReceiveOrKingSend
    simp only [Option.map_none, if_neg hi]
    exact ⟨_, rfl⟩
  have hst : ∀ i : Fin n, (∃ e', (if i.val = 0 then k0 ((speaking n silent).map fun i => (i, Wire.enc (x i))) else
      if i.val ∈ silent then .done (.error .panic) else kc i) = .done (.error e')) ∨
      ∃ g, (if i.val = 0 then k0 ((speaking n silent).map fun i => (i, Wire.enc (x i))) else
      if i.val ∈ silent then .done (.error .panic) else kc i) = .recv 0 sid g := by
    intro i
    by_cases hi : i.val = 0
    · rw [if_pos hi]; exact .inl ⟨_, hk0⟩
    · rw [if_neg hi]
      by_cases hs : i.val ∈ silent
      · rw [if_pos hs]; exact .inl ⟨_, rfl⟩
      · rw [if_neg hs]; exact .inr (hkc i hi)
  refine ⟨k, _, hk, ?_, ?_, ?_⟩
  · rintro ⟨c', hm⟩
    cases hm with
    | run h =>
      cases h with
      | mk procs Q Q' i a p' ha hstep hq =>
        dsimp only at hstep
        rcases hst i with ⟨e', h⟩ | ⟨g, h⟩
        · rw [h] at hstep
          cases hstep
        · rw [h] at hstep
          cases hstep with
          | recv => simp [qstep] at hq
          | recvFail => exact ha rfl
    | giveUp sid' king hking x' hg =>
      simp only at hg
      rw [if_pos hking, hk0] at hg
      cases hg
  · dsimp only
    rw [if_pos rfl, hk0]
  · intro i r
    rcases hst i with ⟨e', h⟩ | ⟨g, h⟩ <;> (dsimp only; rw [h]; simp)

end round

end ZkSaas
