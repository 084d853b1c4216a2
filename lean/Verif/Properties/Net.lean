import Verif.Lemmas.Rounds
import Verif.Model.Example17

/-!
# Star rounds on the network (C38, C39, C41, C42, C45)

All statements about every schedule quantify over `GSteps Reliable` (no faults) or `GSteps Any` (messages can be late,
sends and receives can fail, time-outs can fire at any moment).
-/

set_option linter.unusedSectionVars false

namespace ZkSaas.Properties

open Spec

variable {n : Nat} {T : Type} [Wire T]

theorem getD_eq_getElem' {α : Type} {l : List α} {i : Nat} {d : α} (h : i < l.length) : l.getD i d = l[i] := by
  rw [List.getD_eq_getElem?_getD, List.getElem?_eq_getElem h]; rfl

/-! ### C38 -/

theorem raw_eq (msg : Nat → Bytes) (sid : Sid) (i : Nat) :
    clientSendOrKingReceive n i (msg i) sid = gatherProg n sid msg (fun L => (kingFinish n L).map some) i := by
  unfold clientSendOrKingReceive gatherProg
  by_cases hi : i = 0
  · rw [if_pos hi, if_pos hi, hi]
  · rw [if_neg hi, if_neg hi]

/-- **C38** All parties call `client_send_or_king_receive` on the same stream. Whatever the schedule, and whatever is in transit
on other streams or between other parties, the king ends with exactly the `n` messages in party order and the clients end with
`None`. -/
theorem C38_round (hn : 0 < n) (msg : Nat → Bytes) (sid : Sid) (Q : Queues) (hQ : ∀ i, Q (i, 0, sid) = []) :
    AlwaysYields (⟨fun i => clientSendOrKingReceive n i (msg i) sid, Q⟩ : Net n (Option KingReceived))
      fun i => if i.val = 0 then some (.full ((List.range n).map msg)) else none := by
  obtain ⟨m, hm⟩ := reach_gather (P := All) hn sid msg (fun L => Proc.done ((kingFinish n L).map some)) (fun _ => .done (.ok none)) Q hQ
  have e1 : (fun i : Fin n => clientSendOrKingReceive n i (msg i) sid) = fun i => if i.val = 0 then
      .gather sid n (msg 0) (fun _ => none) (fun L => Proc.done ((kingFinish n L).map some))
      else .send 0 sid (msg i) (.done (.ok none)) := by
    funext i; rw [raw_eq]; rfl
  have e2 : (fun i : Fin n => if i.val = 0 then Proc.done ((kingFinish n ((List.range n).map fun i => (i, msg i))).map some)
      else .done (.ok none)) =
      fun i => .done (.ok (if i.val = 0 then some (.full ((List.range n).map msg)) else none)) := by
    funext i
    rw [kingFinish_range]
    by_cases hi : i.val = 0
    · rw [if_pos hi, if_pos hi]; rfl
    · rw [if_neg hi, if_neg hi]
  rw [← e1, e2] at hm
  exact alwaysYields_of_run (fun i => ⟨only sid, clientSendOrKingReceive_wf hn _ _ _⟩) hm

/-- **C38** The same for the serialized round: the king gets the values in party order. -/
theorem C38_serialized (hn : 0 < n) (x : Nat → T) (hx : ∀ i < n, Wire.dec (Wire.enc (x i)) = some (x i)) (sid : Sid)
    (threshold : Nat) (Q : Queues) (hQ : ∀ i, Q (i, 0, sid) = []) :
    AlwaysYields (⟨fun i => clientSendOrKingReceiveSer n i (x i) sid threshold, Q⟩ : Net n (Option (ReceivedShares T)))
      fun i => if i.val = 0 then some ⟨(List.range n).map x, List.range n⟩ else none := by
  obtain ⟨m, hm⟩ := reach_sendReceive (P := All) hn sid threshold x hx Q hQ
  exact alwaysYields_of_run (fun i => ⟨only sid, sendReceive_wf hn _ _ _ _⟩) hm

/-- Three parties on stream one while a message waits on stream zero. -/
example : AlwaysYields (⟨fun i => clientSendOrKingReceive 3 i ([[7], [8, 9], []].getD i []) .one,
      fun x => if x = (2, 0, .zero) then [[1]] else []⟩ : Net 3 (Option KingReceived))
    fun i => if i.val = 0 then some (.full [[7], [8, 9], []]) else none :=
  C38_round (by decide) (fun i => [[7], [8, 9], []].getD i []) .one _ (fun i => by simp)

/-- Vectors of field elements. -/
example (x : Nat → List (ZMod 17)) (hx : ∀ i < 4, (x i).length = i + 1) :
    AlwaysYields (Net.init fun i : Fin 4 => clientSendOrKingReceiveSer 4 i (x i) .zero 2)
      fun i => if i.val = 0 then some ⟨(List.range 4).map x, List.range 4⟩ else none :=
  C38_serialized (by decide) x (fun i hi => Wire.ok_list _ (by rw [hx i hi]; omega)) .zero 2 _ (fun _ => rfl)

/-! ### C39 -/

/-- When all were heard `kingFinish` sorts, otherwise it returns the entries. -/
theorem finish_of_entries (hn : 0 < n) (msg : Nat → Bytes) (D : Nat → Prop) (hD : ∀ i, D i → i < n ∧ i ≠ 0)
    {L : List (Nat × Bytes)} (hnd : (L.map Prod.fst).Nodup) (hL : ∀ i b, (i, b) ∈ L ↔ b = msg i ∧ (i = 0 ∨ D i)) :
    ((∀ i < n, i ≠ 0 → D i) → kingFinish n L = .ok (.full ((List.range n).map msg))) ∧
    ((∃ j < n, j ≠ 0 ∧ ¬ D j) → kingFinish n L = .ok (.partly L)) := by
  have hmem : ∀ i, i ∈ L.map Prod.fst ↔ i = 0 ∨ D i := by
    intro i
    simp only [List.mem_map, Prod.exists, exists_and_right, exists_eq_right]
    constructor
    · rintro ⟨b, hb⟩; exact ((hL i b).1 hb).2
    · intro h; exact ⟨msg i, (hL _ _).2 ⟨rfl, h⟩⟩
  constructor
  · intro hall
    have hp : (L.map Prod.fst).Perm (List.range n) := by
      rw [List.perm_ext_iff_of_nodup hnd List.nodup_range]
      intro i
      rw [hmem, List.mem_range]
      constructor
      · rintro (rfl | h)
        · exact hn
        · exact (hD i h).1
      · intro hi
        by_cases h0 : i = 0
        · exact .inl h0
        · exact .inr (hall i hi h0)
    unfold kingFinish
    rw [if_pos (by simpa using hp.length_eq)]
    have : (List.range n).mapM (fun x => unwrap (L.lookup x)) = .ok ((List.range n).map msg) := by
      apply mapM_ok
      intro i hi
      have hi := List.mem_range.1 hi
      rw [lookup_of_mem hnd ((hL i (msg i)).2 ⟨rfl, by
        by_cases h0 : i = 0
        · exact .inl h0
        · exact .inr (hall i hi h0)⟩)]
      rfl
    rw [this]
    rfl
  · rintro ⟨j, hj, hj0, hjD⟩
    have hlt : (L.map Prod.fst).length < n := by
      have hsub : (j :: L.map Prod.fst).Subperm (List.range n) := by
        apply List.subperm_of_subset
        · rw [List.nodup_cons]
          exact ⟨fun h => ((hmem j).1 h).elim hj0 hjD, hnd⟩
        · intro i hi
          rw [List.mem_range]
          rcases List.mem_cons.1 hi with rfl | hi
          · exact hj
          · rcases (hmem i).1 hi with rfl | h
            · exact hn
            · exact (hD i h).1
      have := hsub.length_le
      simp only [List.length_cons, List.length_range] at this
      omega
    unfold kingFinish
    rw [if_neg (by rw [List.length_map] at hlt; omega)]
    rfl

/-- **C39** Whatever happened on the network, when the king's call has returned, it has returned the messages of all parties in
party order if all were delivered; otherwise it has returned its own message and exactly the messages delivered, each
with the number of its sender, each sender once. -/
theorem C39_raw (hn : 0 < n) (msg : Nat → Bytes) (sid : Sid) {k : Nat} {c : Net n (Option KingReceived)}
    (hs : GSteps Any k (Net.init fun i : Fin n => clientSendOrKingReceive n i (msg i) sid) c)
    {r : Res (Option KingReceived)} (hr : c.procs ⟨0, hn⟩ = .done r) :
    ((∀ i < n, i ≠ 0 → Delivered c sid i) ∧ r = .ok (some (.full ((List.range n).map msg)))) ∨
    ((∃ j < n, j ≠ 0 ∧ ¬ Delivered c sid j) ∧ ∃ entries, r = .ok (some (.partly entries)) ∧ (entries.map Prod.fst).Nodup ∧
      ∀ i b, (i, b) ∈ entries ↔ b = msg i ∧ (i = 0 ∨ Delivered c sid i)) := by
  simp only [raw_eq] at hs
  obtain ⟨L, rfl, hnd, hL⟩ := gather_finished hn sid msg _ hs hr
  obtain ⟨h1, h2⟩ := finish_of_entries hn msg (Delivered c sid) (fun i h => ⟨h.1, h.2.1⟩) hnd hL
  by_cases hall : ∀ i < n, i ≠ 0 → Delivered c sid i
  · exact .inl ⟨hall, by rw [h1 hall]; rfl⟩
  · push Not at hall
    exact .inr ⟨hall, L, by rw [h2 hall]; rfl, hnd, hL⟩

/-- **C39** Every set of responders and every iteration order of the hash map can occur. -/
theorem C39_every_subset (hn : 0 < n) (msg : Nat → Bytes) (sid : Sid) {parties : List Nat} (hnd : parties.Nodup)
    (hlt : ∀ p ∈ parties, p < n) (h0 : 0 ∈ parties) (hsn : parties.length < n) :
    ∃ k c, GSteps Any k (Net.init fun i : Fin n => clientSendOrKingReceive n i (msg i) sid) c ∧
      c.procs ⟨0, hn⟩ = .done (.ok (some (.partly (parties.map fun i => (i, msg i))))) ∧
      ∀ i, Delivered c sid i ↔ i ∈ parties ∧ i ≠ 0 := by
  obtain ⟨k, hk⟩ := reach_timeout hn sid msg (fun L => Proc.done ((kingFinish n L).map some)) (fun _ => .done (.ok none)) hnd hlt h0
  have e1 : (fun i : Fin n => clientSendOrKingReceive n i (msg i) sid) = fun i => if i.val = 0 then
      .gather sid n (msg 0) (fun _ => none) (fun L => Proc.done ((kingFinish n L).map some))
      else .send 0 sid (msg i) (.done (.ok none)) := by
    funext i; rw [raw_eq]; rfl
  rw [← e1] at hk
  refine ⟨k, _, hk, ?_, fun i => ?_⟩
  · simp only [if_true]
    unfold kingFinish
    rw [if_neg (by rw [List.length_map]; omega)]
    rfl
  · constructor
    · rintro ⟨hi, hi0, -, hq⟩
      refine ⟨?_, hi0⟩
      by_contra h
      simp only [leftOver] at hq
      rw [if_pos ⟨trivial, h, hi⟩] at hq
      cases hq
    · rintro ⟨hi, hi0⟩
      refine ⟨hlt i hi, hi0, if_neg hi0, ?_⟩
      simp only [leftOver]
      rw [if_neg (fun h => h.2.1 hi)]

/-! ### Serialized rounds with arbitrary bytes on the wire (C39, C42) -/

/-- A party that takes part in a serialized round but puts the bytes `b` on the wire. An honest party has `b = Wire.enc x`. -/
def sendBytesSer (T : Type) [Wire T] (n me : Nat) (b : Bytes) (sid : Sid) (threshold : Nat) : Proc (Option (ReceivedShares T)) := do
  let bytesIn ← clientSendOrKingReceive n me b sid
  decodeReceived n threshold bytesIn

/-- An honest party. -/
example (me : Nat) (x : T) (sid : Sid) (threshold : Nat) :
    clientSendOrKingReceiveSer n me x sid threshold = sendBytesSer T n me (Wire.enc x) sid threshold := rfl

/-- What the king makes of its hash map. -/
def serFinish (T : Type) [Wire T] (n threshold : Nat) (L : List (Nat × Bytes)) : Res (Option (ReceivedShares T)) :=
  match (kingFinish n L).map some with
  | .ok r => decodeReceived n threshold r
  | .error e => .error e

theorem ser_eq (msg : Nat → Bytes) (sid : Sid) (threshold i : Nat) :
    sendBytesSer T n i (msg i) sid threshold = gatherProg n sid msg (serFinish T n threshold) i := by
  unfold sendBytesSer gatherProg
  rw [raw_eq]
  unfold gatherProg
  by_cases hi : i = 0
  · rw [if_pos hi, if_pos hi]
    show Proc.gather sid n (msg 0) (fun _ => none) _ = _
    congr 1
    funext L
    unfold serFinish
    simp only
    cases (kingFinish n L).map some <;> rfl
  · rw [if_neg hi, if_neg hi]; rfl

theorem ser_wf (hn : 0 < n) (msg : Nat → Bytes) (sid : Sid) (threshold i : Nat) :
    (sendBytesSer T n i (msg i) sid threshold).WF (only sid) :=
  Proc.WF.bind (clientSendOrKingReceive_wf hn _ _ _) fun _ => .done _ _

/-- The dropping of undecodable entries, seen from the outside. -/
theorem filterMap_parties (msg : Nat → Bytes) (D : Nat → Prop) {L : List (Nat × Bytes)} (hnd : (L.map Prod.fst).Nodup)
    (hL : ∀ i b, (i, b) ∈ L ↔ b = msg i ∧ D i) :
    let res := L.filterMap fun e => (Wire.dec (T := T) e.2).map fun x => (e.1, x)
    (res.map Prod.fst).Nodup ∧ (∀ i, i ∈ res.map Prod.fst ↔ D i ∧ Wire.dec (T := T) (msg i) ≠ none) ∧
      (res.map Prod.snd).map some = (res.map Prod.fst).map fun i => Wire.dec (msg i) := by
  intro res
  have hsub : ∀ L : List (Nat × Bytes), ((L.filterMap fun e => (Wire.dec (T := T) e.2).map fun x => (e.1, x)).map Prod.fst).Sublist
      (L.map Prod.fst) := by
    intro L
    induction L with
    | nil => exact List.Sublist.refl _
    | cons e L ih =>
      rw [List.filterMap_cons]
      cases hd : Wire.dec (T := T) e.2 with
      | none => exact ih.cons _
      | some x => exact ih.cons_cons _
  refine ⟨(hsub L).nodup hnd, fun i => ?_, ?_⟩
  · simp only [res, List.mem_map, List.mem_filterMap, Prod.exists, exists_and_right, exists_eq_right, Option.map_eq_some_iff, Prod.mk.injEq]
    constructor
    · rintro ⟨x, j, b, hm, y, hy, rfl, rfl⟩
      obtain ⟨rfl, hD⟩ := (hL _ _).1 hm
      exact ⟨hD, by rw [hy]; simp⟩
    · rintro ⟨hD, hne⟩
      obtain ⟨x, hx⟩ := Option.ne_none_iff_exists'.1 hne
      exact ⟨x, i, msg i, (hL _ _).2 ⟨rfl, hD⟩, x, hx, rfl, rfl⟩
  · have : ∀ e ∈ res, Wire.dec (T := T) (msg e.1) = some e.2 := by
      rintro ⟨i, x⟩ he
      simp only [res, List.mem_filterMap, Prod.exists, Option.map_eq_some_iff, Prod.mk.injEq] at he
      obtain ⟨j, b, hm, y, hy, rfl, rfl⟩ := he
      obtain ⟨rfl, -⟩ := (hL _ _).1 hm
      exact hy
    rw [List.map_map, List.map_map]
    apply List.map_congr_left
    intro e he
    exact (this e he).symm

/-- **C42** After a round in which some party's message did not reach the king in time: exactly the decodable messages among
those delivered (and the king's own) are kept, values and party numbers aligned; undecodable ones are dropped; with fewer than
`threshold` of them the round fails with a protocol error. -/
theorem C42_timeout (hn : 0 < n) (msg : Nat → Bytes) (sid : Sid) (threshold : Nat) {k : Nat} {c : Net n (Option (ReceivedShares T))}
    (hs : GSteps Any k (Net.init fun i : Fin n => sendBytesSer T n i (msg i) sid threshold) c)
    {r : Res (Option (ReceivedShares T))} (hr : c.procs ⟨0, hn⟩ = .done r) (hlate : ∃ j < n, j ≠ 0 ∧ ¬ Delivered c sid j) :
    ∃ (shares : List T) (parties : List Nat), parties.Nodup ∧
      (∀ i, i ∈ parties ↔ (i = 0 ∨ Delivered c sid i) ∧ Wire.dec (T := T) (msg i) ≠ none) ∧
      shares.map some = parties.map (fun i => Wire.dec (msg i)) ∧
      r = if parties.length < threshold then .error (.net (.protocol 0)) else .ok (some ⟨shares, parties⟩) := by
  simp only [ser_eq] at hs
  obtain ⟨L, rfl, hnd, hL⟩ := gather_finished hn sid msg _ hs hr
  obtain ⟨-, h2⟩ := finish_of_entries hn msg (Delivered c sid) (fun i h => ⟨h.1, h.2.1⟩) hnd hL
  obtain ⟨q1, q2, q3⟩ := filterMap_parties (T := T) msg (fun i => i = 0 ∨ Delivered c sid i) hnd hL
  refine ⟨_, _, q1, q2, q3, ?_⟩
  simp only [serFinish, h2 hlate, Except.map, decodeReceived, List.length_map]

/-- **C42** Whatever happened on the network: if all messages were delivered, one undecodable message makes the king's call fail,
and if all can be decoded the king has all values in party order. -/
theorem C42_all_delivered (hn : 0 < n) (msg : Nat → Bytes) (sid : Sid) (threshold : Nat) {k : Nat}
    {c : Net n (Option (ReceivedShares T))}
    (hs : GSteps Any k (Net.init fun i : Fin n => sendBytesSer T n i (msg i) sid threshold) c)
    {r : Res (Option (ReceivedShares T))} (hr : c.procs ⟨0, hn⟩ = .done r) (hall : ∀ j < n, j ≠ 0 → Delivered c sid j) :
    ((∃ i < n, Wire.dec (T := T) (msg i) = none) → r = .error (.net .generic)) ∧
    ∀ x : Nat → T, (∀ i < n, Wire.dec (msg i) = some (x i)) → r = .ok (some ⟨(List.range n).map x, List.range n⟩) := by
  simp only [ser_eq] at hs
  obtain ⟨L, rfl, hnd, hL⟩ := gather_finished hn sid msg _ hs hr
  obtain ⟨h1, -⟩ := finish_of_entries hn msg (Delivered c sid) (fun i h => ⟨h.1, h.2.1⟩) hnd hL
  have hfin : serFinish T n threshold L = decodeReceived n threshold (some (.full ((List.range n).map msg))) := by
    simp only [serFinish, h1 hall, Except.map]
  rw [hfin]
  constructor
  · rintro ⟨i, hi, hd⟩
    have : ∀ (l : List Nat), i ∈ l → (l.map msg).mapM (decodeOrError (T := T)) = .error (.net .generic) := by
      intro l
      induction l with
      | nil => intro h; simp at h
      | cons a l ih =>
        intro h
        rw [List.map_cons, List.mapM_cons]
        cases hda : Wire.dec (T := T) (msg a) with
        | none => simp only [decodeOrError, hda]; rfl
        | some x =>
          have hil : i ∈ l := by
            rcases List.mem_cons.1 h with rfl | h
            · rw [hd] at hda; cases hda
            · exact h
          have : decodeOrError (T := T) (msg a) = .ok x := by simp only [decodeOrError, hda]
          rw [this, ok_bind, ih hil]
          rfl
    simp only [decodeReceived]
    rw [this _ (List.mem_range.2 hi)]
    rfl
  · intro x hx
    have : ((List.range n).map msg).mapM (decodeOrError (T := T)) = .ok ((List.range n).map x) := by
      rw [List.mapM_map]
      apply mapM_ok
      intro i hi
      simp only [Function.comp, decodeOrError]
      rw [hx i (List.mem_range.1 hi)]
    simp only [decodeReceived]
    rw [this]
    rfl

/-- A core execution to a state in which all parties have finished determines all reliable executions. -/
theorem alwaysHalts_of_done {α : Type} {c : Net n α} (hc : c.WF) {Q : Queues} {rs : Fin n → Res α}
    (h : Reach All c ⟨fun i => .done (rs i), Q⟩) : AlwaysHalts c fun c' => ∀ i, c'.procs i = .done (rs i) := by
  obtain ⟨m, hm⟩ := h
  obtain ⟨h1, h2⟩ := reliable_of_run hc hm
    (by
      rintro ⟨c', h⟩
      cases h with
      | mk procs Q Q' i a p' ha hstep hq => cases hstep)
    (fun i h => by cases h)
  exact ⟨⟨m, h1⟩, fun k c' h hs i => by rw [h2 k c' h hs]⟩

/-- **C42** On a reliable network one undecodable message makes the round fail under every schedule: the king fails, the clients
(also the honest ones) end the round without noticing. -/
theorem C42_full (hn : 0 < n) (msg : Nat → Bytes) (sid : Sid) (threshold : Nat) (i₀ : Nat) (hi₀ : i₀ < n)
    (hbad : Wire.dec (T := T) (msg i₀) = none) :
    AlwaysHalts (Net.init fun i : Fin n => sendBytesSer T n i (msg i) sid threshold) fun c =>
      ∀ i, c.procs i = .done (if i.val = 0 then .error (.net .generic) else .ok none) := by
  have hrun := reach_gather (P := All) hn sid msg (fun L => Proc.done (serFinish T n threshold L)) (fun _ => .done (.ok none)) (fun _ => [])
    (fun _ => rfl)
  have e1 : (fun i : Fin n => if i.val = 0 then
      Proc.gather sid n (msg 0) (fun _ => none) (fun L => Proc.done (serFinish T n threshold L))
      else .send 0 sid (msg i) (.done (.ok none))) = fun i : Fin n => sendBytesSer T n i (msg i) sid threshold := by
    funext i; rw [ser_eq]; rfl
  have e2 : (fun i : Fin n => if i.val = 0 then Proc.done (serFinish T n threshold ((List.range n).map fun i => (i, msg i)))
      else .done (.ok none)) = fun i => .done (if i.val = 0 then .error (.net .generic) else .ok none) := by
    funext i
    by_cases hi : i.val = 0
    · rw [if_pos hi, if_pos hi]
      congr 1
      have hE := Enumerates.range (own := msg 0) msg hn rfl
      -- the delivered case of the previous theorem
      have hfin : serFinish T n threshold ((List.range n).map fun i => (i, msg i)) =
          decodeReceived n threshold (some (.full ((List.range n).map msg))) := by
        simp only [serFinish, kingFinish_range, Except.map]
      rw [hfin]
      have : ∀ (l : List Nat), i₀ ∈ l → (l.map msg).mapM (decodeOrError (T := T)) = .error (.net .generic) := by
        intro l
        induction l with
        | nil => intro h; simp at h
        | cons a l ih =>
          intro h
          rw [List.map_cons, List.mapM_cons]
          cases hda : Wire.dec (T := T) (msg a) with
          | none => simp only [decodeOrError, hda]; rfl
          | some x =>
            have hil : i₀ ∈ l := by
              rcases List.mem_cons.1 h with rfl | h
              · rw [hbad] at hda; cases hda
              · exact h
            have : decodeOrError (T := T) (msg a) = .ok x := by simp only [decodeOrError, hda]
            rw [this, ok_bind, ih hil]
            rfl
      simp only [decodeReceived]
      rw [this _ (List.mem_range.2 hi₀)]
      rfl
    · rw [if_neg hi, if_neg hi]
  rw [e1, e2] at hrun
  exact alwaysHalts_of_done (fun i => ⟨only sid, ser_wf hn _ _ _ _⟩) hrun

/-- **C39** The serialized round of honest parties. After any execution in which the king's call returned: either all messages were
delivered and the king has all values in party order; or the king has its own value and exactly the values delivered, aligned
with their senders, provided there are at least `threshold` of them; or there are fewer and it has failed. -/
theorem C39_serialized (hn : 0 < n) (x : Nat → T) (hx : ∀ i < n, Wire.dec (Wire.enc (x i)) = some (x i)) (sid : Sid) (threshold : Nat)
    {k : Nat} {c : Net n (Option (ReceivedShares T))}
    (hs : GSteps Any k (Net.init fun i : Fin n => clientSendOrKingReceiveSer n i (x i) sid threshold) c)
    {r : Res (Option (ReceivedShares T))} (hr : c.procs ⟨0, hn⟩ = .done r) :
    ((∀ j < n, j ≠ 0 → Delivered c sid j) ∧ r = .ok (some ⟨(List.range n).map x, List.range n⟩)) ∨
    ((∃ j < n, j ≠ 0 ∧ ¬ Delivered c sid j) ∧ ∃ parties : List Nat, parties.Nodup ∧
      (∀ i, i ∈ parties ↔ i = 0 ∨ Delivered c sid i) ∧
      r = if parties.length < threshold then .error (.net (.protocol 0)) else .ok (some ⟨parties.map x, parties⟩)) := by
  by_cases hall : ∀ i < n, i ≠ 0 → Delivered c sid i
  · exact .inl ⟨hall, (C42_all_delivered hn (fun i => Wire.enc (x i)) sid threshold hs hr hall).2 x hx⟩
  · push Not at hall
    obtain ⟨shares, parties, hnd, hmem, hal, hrr⟩ := C42_timeout hn (fun i => Wire.enc (x i)) sid threshold hs hr hall
    have hlt : ∀ i, (i = 0 ∨ Delivered c sid i) → i < n := by
      rintro i (rfl | h)
      · exact hn
      · exact h.1
    have hmem' : ∀ i, i ∈ parties ↔ i = 0 ∨ Delivered c sid i := by
      intro i
      rw [hmem]
      constructor
      · exact fun h => h.1
      · intro h
        exact ⟨h, by rw [hx i (hlt i h)]; simp⟩
    refine .inr ⟨hall, parties, hnd, hmem', ?_⟩
    have hsh : shares = parties.map x := by
      have : shares.map some = (parties.map x).map some := by
        rw [hal, List.map_map]
        apply List.map_congr_left
        intro i hi
        exact hx i (hlt i ((hmem' i).1 hi))
      exact List.map_injective_iff.2 (Option.some_injective T) this
    rw [hrr, hsh]

/-- C39: five parties, the king hears 3 and 1 only. -/
example (msg : Nat → Bytes) : ∃ k c, GSteps Any k (Net.init fun i : Fin 5 => clientSendOrKingReceive 5 i (msg i) .two) c ∧
    c.procs 0 = .done (.ok (some (.partly [(3, msg 3), (0, msg 0), (1, msg 1)]))) ∧
    ∀ i, Delivered c .two i ↔ i ∈ [3, 0, 1] ∧ i ≠ 0 :=
  C39_every_subset (by decide) msg .two (parties := [3, 0, 1]) (by decide) (by decide) (by decide) (by decide)

/-- **C42** Bytes after an encoding do not matter: if every message is the encoding of a vector followed by anything, the king has
the vectors in party order when all messages were delivered. -/
theorem C42_trailing {V : Type} [FixedWire V] (hn : 0 < n) (x : Nat → List V) (hx : ∀ i < n, (x i).length < 2 ^ 64) (junk : Nat → Bytes)
    (sid : Sid) (threshold : Nat) {k : Nat} {c : Net n (Option (ReceivedShares (List V)))}
    (hs : GSteps Any k (Net.init fun i : Fin n => sendBytesSer (List V) n i (Wire.enc (x i) ++ junk i) sid threshold) c)
    {r : Res (Option (ReceivedShares (List V)))} (hr : c.procs ⟨0, hn⟩ = .done r) (hall : ∀ j < n, j ≠ 0 → Delivered c sid j) :
    r = .ok (some ⟨(List.range n).map x, List.range n⟩) :=
  (C42_all_delivered hn (fun i => Wire.enc (x i) ++ junk i) sid threshold hs hr hall).2 x fun i hi => by
    show (Wire.read _).map Prod.fst = _
    rw [Wire.read_list _ (hx i hi)]
    rfl

theorem readMany_short {V : Type} [FixedWire V] : ∀ (v : List V) (m : Nat), m < (v.flatMap Wire.enc).length →
    readMany (T := V) v.length ((v.flatMap Wire.enc).take m) = none := by
  intro v
  induction v with
  | nil => intro m hm; simp at hm
  | cons a v ih =>
    intro m hm
    rw [List.flatMap_cons, List.length_append] at hm
    have hw := FixedWire.enc_length a
    rw [List.flatMap_cons, List.length_cons, readMany]
    by_cases h : m < (FixedWire.width V)
    · rw [FixedWire.read_short _ (by rw [List.length_take]; omega)]
      rfl
    · rw [List.take_append, List.take_of_length_le (by omega), FixedWire.read_enc]
      show (readMany v.length _).bind _ = none
      rw [ih _ (by omega)]
      rfl

/-- **C42** A vector whose encoding was cut short makes the round fail. -/
theorem C42_truncated {V : Type} [FixedWire V] (hn : 0 < n) (msg : Nat → Bytes) (sid : Sid) (threshold : Nat) (i₀ : Nat) (hi₀ : i₀ < n)
    (v : List V) (hv : v.length < 2 ^ 64) (m : Nat) (hm : m < (Wire.enc v).length) (hbad : msg i₀ = (Wire.enc v).take m) :
    AlwaysHalts (Net.init fun i : Fin n => sendBytesSer (List V) n i (msg i) sid threshold) fun c =>
      ∀ i, c.procs i = .done (if i.val = 0 then .error (.net .generic) else .ok none) := by
  refine C42_full hn msg sid threshold i₀ hi₀ ?_
  rw [hbad]
  have e : Wire.enc v = leBytes 8 v.length ++ v.flatMap Wire.enc := rfl
  have h8 : (leBytes 8 v.length).length = 8 := leBytes_length _ _
  rw [e, List.length_append, h8] at hm
  show (Wire.read _).map Prod.fst = none
  rw [Option.map_eq_none_iff, e]
  show (if _ then none else readMany _ _) = none
  split
  · rfl
  · next h =>
    rw [List.length_take, List.length_append, h8] at h
    have h8m : 8 ≤ m := by omega
    rw [List.take_append, List.take_of_length_le (by omega : (leBytes 8 v.length).length ≤ m), h8,
      List.take_append, List.take_of_length_le (by omega : (leBytes 8 v.length).length ≤ 8), h8,
      List.drop_append, List.drop_of_length_le (by omega : (leBytes 8 v.length).length ≤ 8), h8]
    simp only [Nat.sub_self, List.take_zero, List.append_nil, List.nil_append, List.drop_zero]
    rw [ofLeBytes_leBytes _ _ (by omega)]
    exact readMany_short v _ (by omega)

/-- C42: the king and one client send more bytes than needed. -/
example {k : Nat} {c : Net 2 (Option (ReceivedShares (List (ZMod 17))))}
    (hs : GSteps Any k (Net.init fun i : Fin 2 => sendBytesSer (List (ZMod 17)) 2 i (Wire.enc [(i.val : ZMod 17), 5] ++ [1, 2]) .one 1) c)
    {r : Res (Option (ReceivedShares (List (ZMod 17))))} (hr : c.procs ⟨0, by decide⟩ = .done r) (hall : ∀ j < 2, j ≠ 0 → Delivered c .one j) :
    r = .ok (some ⟨[[0, 5], [1, 5]], [0, 1]⟩) :=
  C42_trailing (by decide) (fun i => [(i : ZMod 17), 5]) (fun i _ => by norm_num) (fun _ => [1, 2]) .one 1 hs hr hall

/-- C42: a vector of two elements of which the last byte is missing. -/
example : AlwaysHalts (Net.init fun i : Fin 2 => sendBytesSer (List (ZMod 17)) 2 i
      (if i.val = 1 then (Wire.enc [(3 : ZMod 17), 5]).take ((Wire.enc [(3 : ZMod 17), 5]).length - 1) else Wire.enc [(5 : ZMod 17)]) .zero 1) fun c =>
    ∀ i, c.procs i = .done (if i.val = 0 then .error (.net .generic) else .ok none) :=
  C42_truncated (by decide) (fun i => if i = 1 then (Wire.enc [(3 : ZMod 17), 5]).take ((Wire.enc [(3 : ZMod 17), 5]).length - 1)
    else Wire.enc [(5 : ZMod 17)]) .zero 1 1 (by decide) [3, 5] (by norm_num) _ (by decide +kernel) rfl

/-- C42: party 2 of 3 sends one byte instead of a field element. -/
example : AlwaysHalts (Net.init fun i : Fin 3 => sendBytesSer (List (ZMod 17)) 3 i (if i.val = 2 then [255] else Wire.enc [(5 : ZMod 17)]) .zero 1)
    fun c => ∀ i, c.procs i = .done (if i.val = 0 then .error (.net .generic) else .ok none) :=
  C42_full (by decide) (fun i => if i = 2 then [255] else Wire.enc [(5 : ZMod 17)]) .zero 1 2 (by decide) (by decide +kernel)

/-! ### C41 -/

/-- **C41** The king hands in a vector of `n` messages of equal length, the clients nothing. Whatever the schedule, party `i`
ends with element `i`. -/
theorem C41_delivers (hn : 0 < n) (out : List Bytes) (hlen : out.length = n) (m : Nat) (hm : ∀ b ∈ out, b.length = m) (sid : Sid)
    (Q : Queues) (hQ : ∀ i, Q (0, i, sid) = []) :
    AlwaysYields (⟨fun i => clientReceiveOrKingSend n i (if i.val = 0 then some out else none) sid, Q⟩ : Net n Bytes)
      fun i => out[i.val]'(by omega) := by
  have hmsg : out = (List.range n).map fun i => out.getD i [] := by
    subst hlen; exact list_eq_map_range out []
  have hgm : ∀ i < n, (out.getD i []).length = m := by
    intro i hi
    rw [getD_eq_getElem' (by omega)]
    exact hm _ (List.getElem_mem _)
  have hrd : ∀ i < n, rd out i = .ok (out.getD i []) := fun i hi => by
    unfold rd
    rw [List.getElem?_eq_getElem (by omega), getD_eq_getElem' (by omega)]
  obtain ⟨k, hk⟩ := reach_scatter (P := All) hn sid (fun i => out.getD i []) m hgm (fun _ => Proc.done (rd out 0))
    (fun _ b => .done (.ok b)) Q hQ
  have e1 : (fun i : Fin n => clientReceiveOrKingSend n i (if i.val = 0 then some out else none) sid) = fun i => if i.val = 0 then
      (kingSendLoop out m sid ((List.range n).filter (· ≠ 0))).bind fun _ => Proc.done (rd out 0)
      else .recv 0 sid fun b => .done (.ok b) := by
    funext i
    unfold clientReceiveOrKingSend
    by_cases hi : i.val = 0
    · simp only [hi, if_true, ne_eq, not_true_eq_false, if_false]
      rw [hrd 0 hn]
      show Proc.bind (.done (.ok _)) _ = _
      simp only [Proc.bind]
      rw [hgm 0 hn]
      rfl
    · simp only [hi, if_false]
  rw [← hmsg, ← e1] at hk
  have e2 : (fun i : Fin n => if i.val = 0 then Proc.done (rd out 0) else .done (.ok (out.getD i []))) =
      fun i => .done (.ok (out[i.val]'(by omega))) := by
    funext i
    by_cases hi : i.val = 0
    · rw [if_pos hi, hrd 0 hn, getD_eq_getElem' (by omega)]
      simp only [hi]
    · rw [if_neg hi, getD_eq_getElem' (by omega)]
  rw [e2] at hk
  exact alwaysYields_of_run (fun i => ⟨only sid, clientReceiveOrKingSend_wf _ _ _⟩) hk

/-- Party `i` waits for a message of the king that is not in transit. -/
def Waiting {α : Type} (c : Net n α) (sid : Sid) (i : Fin n) : Prop :=
  ∃ k, c.procs i = .recv 0 sid k ∧ c.queues (0, i, sid) = []

/-- **C41** The king hands in a vector whose first `j` elements have the same length (`0 < j < n`) but element `j` has another
length, or is missing. Whatever the schedule: the parties before `j` get their element; the king ends with a protocol error
naming `j`, or panics when the element is missing; party `j` and the later ones wait forever. -/
theorem C41_bad_vector (hn : 0 < n) (out : List Bytes) (j : Nat) (hj0 : 0 < j) (hjn : j < n) (hjl : j ≤ out.length)
    (hpre : ∀ i < j, (out.getD i []).length = (out.getD 0 []).length)
    (hbad : out.length = j ∨ (j < out.length ∧ (out.getD j []).length ≠ (out.getD 0 []).length)) (sid : Sid) :
    AlwaysHalts (Net.init fun i : Fin n => clientReceiveOrKingSend n i (if i.val = 0 then some out else none) sid) fun c =>
      c.procs ⟨0, hn⟩ = .done (.error (if out.length = j then .panic else .net (.protocol j))) ∧
      ∀ i : Fin n, i.val ≠ 0 → if i.val < j then c.procs i = .done (.ok (out.getD i [])) else Waiting c sid i := by
  set m := (out.getD 0 []).length with hmdef
  have hget : ∀ i < out.length, out[i]? = some (out.getD i []) := by
    intro i hi
    rw [List.getElem?_eq_getElem hi, getD_eq_getElem' hi]
  obtain ⟨k, hk⟩ := reach_scatter_prefix hn sid out m (fun _ => Proc.done (rd out 0))
    (fun _ b => .done (.ok b)) (fun _ => []) (fun _ => rfl) j hj0 hjn.le (fun i _ h2 => ⟨_, hget i (by omega), hpre i h2⟩)
  have e1 : (fun i : Fin n => if i.val = 0 then
      (kingSendLoop out m sid ((List.range n).filter (· ≠ 0))).bind fun _ => Proc.done (rd out 0)
      else .recv 0 sid fun b => .done (.ok b)) =
      fun i : Fin n => clientReceiveOrKingSend n i (if i.val = 0 then some out else none) sid := by
    funext i
    unfold clientReceiveOrKingSend
    by_cases hi : i.val = 0
    · simp only [hi, if_true, ne_eq, not_true_eq_false, if_false]
      have : rd out 0 = .ok (out.getD 0 []) := by unfold rd; rw [hget 0 (by omega)]
      rw [this]
      rfl
    · simp only [hi, if_false]
  rw [e1] at hk
  have hking : (kingSendLoop out m sid (List.range' j (n - j))).bind (fun _ => Proc.done (rd out 0)) =
      Proc.done (.error (if out.length = j then Fault.panic else .net (.protocol j))) := by
    obtain ⟨d, hd⟩ : ∃ d, n - j = d + 1 := ⟨n - j - 1, by omega⟩
    rw [hd, List.range'_succ]
    show Proc.bind (Proc.bind (.done (rd out j)) _) _ = _
    rcases hbad with h | ⟨h1, h2⟩
    · rw [if_pos h]
      have : rd out j = .error .panic := by
        unfold rd
        rw [List.getElem?_eq_none (by omega)]
        rfl
      rw [this]
      rfl
    · rw [if_neg (by omega)]
      have : rd out j = .ok (out.getD j []) := by unfold rd; rw [hget j h1]
      rw [this]
      simp only [Proc.bind]
      rw [if_pos h2]
      rfl
  rw [hking] at hk
  have hwf : (Net.init fun i : Fin n => clientReceiveOrKingSend n i (if i.val = 0 then some out else none) sid).WF :=
    fun i => ⟨only sid, clientReceiveOrKingSend_wf _ _ _⟩
  obtain ⟨h1, h2⟩ := reliable_of_run hwf hk
    (by
      rintro ⟨c', h⟩
      cases h with
      | mk procs Q Q' i a p' ha hstep hq =>
        by_cases hi : i.val = 0
        · simp only [hi, if_true] at hstep; cases hstep
        · simp only [hi, if_false] at hstep
          split at hstep
          · cases hstep
          · cases hstep with
            | recv => simp [qstep] at hq
            | recvFail => exact ha.1 rfl)
    (fun i h => by simp only at h; split at h <;> [cases h; split at h <;> cases h])
  refine ⟨⟨k, h1⟩, fun k' c' hc' hst => ?_⟩
  rw [h2 k' c' hc' hst]
  refine ⟨by simp only [if_true], fun i hi => ?_⟩
  by_cases hij : i.val < j
  · rw [if_pos hij]; simp only [hi, if_false, hij, if_true]
  · rw [if_neg hij]
    exact ⟨fun b => .done (.ok b), by simp only [hi, if_false, hij], rfl⟩

/-- **C41** A client that hands in data gets `BadInput` at once: its program ends without a send or receive. -/
theorem C41_client_with_data (me : Nat) (hme : me ≠ 0) (out : List Bytes) (sid : Sid) :
    clientReceiveOrKingSend n me (some out) sid = .done (.error (.net .badInput)) := by
  unfold clientReceiveOrKingSend
  simp only [hme, ne_eq, not_false_eq_true, if_true]

/-- **C41** A king that hands in nothing gets `BadInput`, nothing is sent, and the clients wait forever. -/
theorem C41_king_without_data (hn : 0 < n) (sid : Sid) :
    AlwaysHalts (Net.init fun i : Fin n => clientReceiveOrKingSend n i none sid) fun c =>
      c.procs ⟨0, hn⟩ = .done (.error (.net .badInput)) ∧ (∀ i : Fin n, i.val ≠ 0 → Waiting c sid i) ∧ ∀ x, c.queues x = [] := by
  have hwf : (Net.init fun i : Fin n => clientReceiveOrKingSend n i none sid).WF :=
    fun i => ⟨only sid, clientReceiveOrKingSend_wf (n := n) i none sid⟩
  obtain ⟨h1, h2⟩ := reliable_of_run (P := All) hwf (.refl _)
    (by
      rintro ⟨c', h⟩
      generalize hc : Net.init (fun i : Fin n => clientReceiveOrKingSend n i none sid) = c at h
      cases h with
      | mk procs Q Q' i a p' ha hstep hq =>
        cases hc
        simp only [clientReceiveOrKingSend] at hstep
        split at hstep
        · cases hstep
        · cases hstep with
          | recv => simp [qstep] at hq
          | recvFail => exact ha.1 rfl)
    (fun i h => by
      simp only [Net.init, clientReceiveOrKingSend] at h
      split at h <;> cases h)
  refine ⟨⟨0, h1⟩, fun k' c' hc' hst => ?_⟩
  rw [h2 k' c' hc' hst]
  refine ⟨rfl, fun i hi => ⟨fun b => .done (.ok b), ?_, rfl⟩, fun _ => rfl⟩
  simp only [Net.init, clientReceiveOrKingSend, hi, if_false]

/-- C41: three parties; and a vector with a wrong element 2. -/
example : AlwaysYields (Net.init fun i : Fin 3 => clientReceiveOrKingSend 3 i (if i.val = 0 then some [[1], [2], [3]] else none) .one)
    fun i => [[1], [2], [3]][i.val] :=
  C41_delivers (by decide) [[1], [2], [3]] rfl 1 (by decide) .one _ (fun _ => rfl)

example : AlwaysHalts (Net.init fun i : Fin 4 => clientReceiveOrKingSend 4 i (if i.val = 0 then some [[1], [2], [3, 4], [5]] else none) .one)
    fun c => c.procs 0 = .done (.error (.net (.protocol 2))) ∧
      ∀ i : Fin 4, i.val ≠ 0 → if i.val < 2 then c.procs i = .done (.ok ([[1], [2], [3, 4], [5]].getD i [])) else Waiting c .one i :=
  C41_bad_vector (n := 4) (by decide) [[1], [2], [3, 4], [5]] 2 (by decide) (by decide) (by decide) (by decide) (by decide) .one

/-! ### C45 -/

/-- Two rounds one after the other on the same stream. -/
def twoRounds (n me : Nat) (b1 b2 : Bytes) (sid : Sid) : Proc (Option KingReceived) := do
  let _ ← clientSendOrKingReceive n me b1 sid
  clientSendOrKingReceive n me b2 sid

/-- **C45** (negation) In a first round the king hears any proper subset `parties` and times out. Then a state is reached from which,
whatever the schedule and with no further fault, the second round "succeeds" with all `n` messages — and for every party that
was late the king holds the message of the *first* round as that party's message. -/
theorem C45_stale_message (hn : 0 < n) (msg1 msg2 : Nat → Bytes) (sid : Sid) {parties : List Nat} (hnd : parties.Nodup)
    (hlt : ∀ p ∈ parties, p < n) (h0 : 0 ∈ parties) :
    ∃ k c, GSteps Any k (Net.init fun i : Fin n => twoRounds n i (msg1 i) (msg2 i) sid) c ∧
      AlwaysYields c fun i => if i.val = 0 then
        some (.full ((List.range n).map fun j => if j ∈ parties then msg2 j else msg1 j)) else none := by
  let k2 : Fin n → Proc (Option KingReceived) := fun i => clientSendOrKingReceive n i (msg2 i) sid
  obtain ⟨k, hk⟩ := reach_timeout hn sid msg1 (fun L => (Proc.done ((kingFinish n L).map some)).bind fun _ => k2 ⟨0, hn⟩) k2 hnd hlt h0
  have e1 : (fun i : Fin n => if i.val = 0 then Proc.gather sid n (msg1 0) (fun _ => none)
      (fun L => (Proc.done ((kingFinish n L).map some)).bind fun _ => k2 ⟨0, hn⟩)
      else .send 0 sid (msg1 i) (k2 i)) = fun i : Fin n => twoRounds n i (msg1 i) (msg2 i) sid := by
    funext i
    unfold twoRounds
    rw [raw_eq]
    unfold gatherProg
    by_cases hi : i.val = 0
    · obtain rfl : i = ⟨0, hn⟩ := Fin.ext hi
      rfl
    · rw [if_neg hi, if_neg hi]; rfl
  rw [e1] at hk
  have hking : (Proc.done ((kingFinish n (parties.map fun i => (i, msg1 i))).map some)).bind (fun _ => k2 ⟨0, hn⟩) = k2 ⟨0, hn⟩ := by
    have hE := Enumerates.some_parties (n := n) msg1 hnd hlt h0
    by_cases hl : parties.length = n
    · -- everybody was heard
      have hmem : ∀ i < n, i ∈ parties := by
        have hp : parties.Perm (List.range n) := by
          have hsub : parties.Subperm (List.range n) := List.subperm_of_subset hnd fun i hi => List.mem_range.2 (hlt i hi)
          exact hsub.perm_of_length_le (by rw [List.length_range, hl])
        intro i hi
        exact hp.mem_iff.2 (List.mem_range.2 hi)
      have := (finish_of_entries hn msg1 (fun i => i ∈ parties ∧ i ≠ 0) (fun i h => ⟨hlt i h.1, h.2⟩) hE.1 (fun i b => by
        rw [hE.2 i b]
        simp only [List.mem_filter, decide_not, Bool.not_eq_true', decide_eq_false_iff_not]
        constructor
        · rintro (⟨rfl, rfl⟩ | ⟨a1, a2, a3⟩)
          · exact ⟨rfl, .inl rfl⟩
          · split at a3
            · rename_i h; cases a3; exact ⟨rfl, .inr h⟩
            · cases a3
        · rintro ⟨rfl, rfl | h⟩
          · exact .inl ⟨rfl, rfl⟩
          · exact .inr ⟨by have := h.2; omega, hlt i h.1, by rw [if_pos h]⟩)).1 (fun i hi hi0 => ⟨hmem i hi, hi0⟩)
      rw [this]
      rfl
    · unfold kingFinish
      rw [if_neg (by rw [List.length_map]; exact hl)]
      rfl
  have e2 : (fun i : Fin n => if i.val = 0 then (Proc.done ((kingFinish n (parties.map fun i => (i, msg1 i))).map some)).bind
      (fun _ => k2 ⟨0, hn⟩) else k2 i) = k2 := by
    funext i
    by_cases hi : i.val = 0
    · obtain rfl : i = ⟨0, hn⟩ := Fin.ext hi
      rw [if_pos rfl, hking]
    · rw [if_neg hi]
  rw [e2] at hk
  refine ⟨k, _, hk, ?_⟩
  obtain ⟨Q', m, hm⟩ := reach_gather_old hn sid msg2 (fun L => Proc.done ((kingFinish n L).map some)) (fun _ => .done (.ok none))
    (leftOver n parties sid msg1)
  have e3 : (fun i : Fin n => if i.val = 0 then .gather sid n (msg2 0) (fun _ => none) (fun L => Proc.done ((kingFinish n L).map some))
      else .send 0 sid (msg2 i) (.done (.ok none))) = k2 := by
    funext i
    simp only [k2]
    rw [raw_eq]; rfl
  have hmsg : ((List.range n).map fun i => (i, if i = 0 then msg2 0 else (leftOver n parties sid msg1 (i, 0, sid)).headD (msg2 i))) =
      (List.range n).map fun i => (i, if i ∈ parties then msg2 i else msg1 i) := by
    apply List.map_congr_left
    intro i hi
    have hi := List.mem_range.1 hi
    by_cases hz : i = 0
    · subst hz; rw [if_pos rfl, if_pos h0]
    · rw [if_neg hz]
      simp only [leftOver]
      by_cases hp : i ∈ parties
      · rw [if_pos hp, if_neg (fun h => h.2.1 hp)]; rfl
      · rw [if_neg hp, if_pos ⟨trivial, hp, hi⟩]; rfl
  rw [e3, hmsg, kingFinish_range] at hm
  have e4 : (fun i : Fin n => if i.val = 0 then Proc.done ((Except.ok (KingReceived.full ((List.range n).map fun j =>
      if j ∈ parties then msg2 j else msg1 j)) : Res KingReceived).map some) else .done (.ok none)) =
      fun i => .done (.ok (if i.val = 0 then
        some (.full ((List.range n).map fun j => if j ∈ parties then msg2 j else msg1 j)) else none)) := by
    funext i
    by_cases hi : i.val = 0
    · rw [if_pos hi, if_pos hi]; rfl
    · rw [if_neg hi, if_neg hi]
  rw [e4] at hm
  exact alwaysYields_of_run (fun i => ⟨only sid, clientSendOrKingReceive_wf hn _ _ _⟩) hm

/-- C45: three parties, party 2 late; the king ends with `[1]` from the first round instead of `[22]`. -/
example : ∃ k c, GSteps Any k (Net.init fun i : Fin 3 => twoRounds 3 i [1] [20 + UInt8.ofNat i] .zero) c ∧
    AlwaysYields c fun i => if i.val = 0 then some (.full [[20], [21], [1]]) else none :=
  C45_stale_message (n := 3) (by decide) (fun _ => [1]) (fun i => [20 + UInt8.ofNat i]) .zero (parties := [0, 1]) (by decide) (by decide)
    (by decide)

/-- **C45** (what does hold) When nothing is left over from before on the stream, two rounds in a row that time out nowhere give the
second round's messages, under every schedule. -/
theorem C45_no_timeout (hn : 0 < n) (msg1 msg2 : Nat → Bytes) (sid : Sid) :
    AlwaysYields (Net.init fun i : Fin n => twoRounds n i (msg1 i) (msg2 i) sid)
      fun i => if i.val = 0 then some (.full ((List.range n).map msg2)) else none := by
  obtain ⟨Q1, r1⟩ := core_run_of_alwaysYields (C38_round hn msg1 sid (fun _ => []) (fun _ => rfl))
  have run : ∀ msg : Nat → Bytes, Runs (n := n) All (only sid) (fun i => clientSendOrKingReceive n i (msg i) sid)
      (fun i => if i.val = 0 then some (.full ((List.range n).map msg)) else none) := by
    intro msg Q hQ
    have hm := reach_gather (P := All) hn sid msg (fun L => Proc.done ((kingFinish n L).map some)) (fun _ => .done (.ok none)) Q
      (fun i => hQ i 0 sid rfl)
    have e1 : (fun i : Fin n => if i.val = 0 then
        Proc.gather sid n (msg 0) (fun _ => none) (fun L => Proc.done ((kingFinish n L).map some))
        else .send 0 sid (msg i) (.done (.ok none))) = fun i : Fin n => clientSendOrKingReceive n i (msg i) sid := by
      funext i; rw [raw_eq]; rfl
    have e2 : (fun i : Fin n => if i.val = 0 then Proc.done ((kingFinish n ((List.range n).map fun i => (i, msg i))).map some)
        else .done (.ok none)) =
        fun i => .done (.ok (if i.val = 0 then some (.full ((List.range n).map msg)) else none)) := by
      funext i
      rw [kingFinish_range]
      by_cases hi : i.val = 0
      · rw [if_pos hi, if_pos hi]; rfl
      · rw [if_neg hi, if_neg hi]
    rw [e1, e2] at hm
    exact hm
  exact Runs.alwaysYields ((run msg1).bind (f := fun i _ => clientSendOrKingReceive n i (msg2 i) sid) (run msg2))
    fun i => (clientSendOrKingReceive_wf hn _ _ _).bind fun _ => clientSendOrKingReceive_wf hn _ _ _

example : AlwaysYields (Net.init fun i : Fin 3 => twoRounds 3 i [1] [20 + UInt8.ofNat i] .zero)
    fun i => if i.val = 0 then some (.full [[20], [21], [22]]) else none :=
  C45_no_timeout (n := 3) (by decide) (fun _ => [1]) (fun i => [20 + UInt8.ofNat i]) .zero

/-! ### C43 -/

section concurrency
variable {β γ δ : Type}

/-- **C43** Two programs on disjoint streams, each of which always yields its results, run together with `try_join!`: under every
interleaving the join ends with the same results. -/
theorem C43_concurrent {S1 S2 : Sid → Prop} (hdis : ∀ s, S1 s → S2 s → False) {ps : Fin n → Proc β} {qs : Fin n → Proc γ}
    {rs : Fin n → β} {ss : Fin n → γ} (w1 : ∀ i, (ps i).WF S1) (w2 : ∀ i, (qs i).WF S2)
    (h1 : AlwaysYields (Net.init ps) rs) (h2 : AlwaysYields (Net.init qs) ss) :
    AlwaysYields (Net.init fun i => Proc.par (ps i) (qs i) fun r s => .done (.ok (r, s))) fun i => (rs i, ss i) :=
  alwaysYields_par hdis w1 w2 h1 h2

/-- **C43** … and so does running them one after the other, so concurrency makes no difference. -/
theorem C43_sequential {S1 S2 : Sid → Prop} (hdis : ∀ s, S1 s → S2 s → False) {ps : Fin n → Proc β} {qs : Fin n → Proc γ}
    {rs : Fin n → β} {ss : Fin n → γ} (w1 : ∀ i, (ps i).WF S1) (w2 : ∀ i, (qs i).WF S2)
    (h1 : AlwaysYields (Net.init ps) rs) (h2 : AlwaysYields (Net.init qs) ss) :
    AlwaysYields (Net.init fun i => (ps i).bind fun r => (qs i).bind fun s => .done (.ok (r, s))) fun i => (rs i, ss i) :=
  alwaysYields_seq hdis w1 w2 h1 h2

/-- **C43** Three programs on the three streams, as in `try_join!` of three. -/
theorem C43_three {ps : Fin n → Proc β} {qs : Fin n → Proc γ} {us : Fin n → Proc δ}
    {rs : Fin n → β} {ss : Fin n → γ} {ts : Fin n → δ}
    (w1 : ∀ i, (ps i).WF (· = .zero)) (w2 : ∀ i, (qs i).WF (· = .one)) (w3 : ∀ i, (us i).WF (· = .two))
    (h1 : AlwaysYields (Net.init ps) rs) (h2 : AlwaysYields (Net.init qs) ss) (h3 : AlwaysYields (Net.init us) ts) :
    AlwaysYields (Net.init fun i => Proc.par (Proc.par (ps i) (qs i) fun r s => .done (.ok (r, s))) (us i)
      fun r t => .done (.ok (r, t))) fun i => ((rs i, ss i), ts i) :=
  alwaysYields_par (S1 := fun s => s = .zero ∨ s = .one) (S2 := (· = .two))
    (by rintro s (h | h) h' <;> rw [h] at h' <;> cases h')
    (fun i => .par (S1 := (· = .zero)) (S2 := (· = .one)) (by intro s h h'; rw [h] at h'; cases h') (fun _ h => .inl h)
      (fun _ h => .inr h) (w1 i) (w2 i) fun _ _ => .done _ _) w3
    (alwaysYields_par (by intro s h h'; rw [h] at h'; cases h') w1 w2 h1 h2) h3

/-- C43: a serialized round on stream zero together with a scatter on stream two. -/
example (x : Nat → ZMod 17) :
    AlwaysYields (Net.init fun i : Fin 3 => Proc.par (clientSendOrKingReceiveSer 3 i (x i) .zero 1)
      (clientReceiveOrKingSend 3 i (if i.val = 0 then some [[1], [2], [3]] else none) .two) fun r s => .done (.ok (r, s)))
      fun i => (if i.val = 0 then some ⟨(List.range 3).map x, List.range 3⟩ else none, [[1], [2], [3]][i.val]) :=
  C43_concurrent (S1 := only .zero) (S2 := only .two) (by intro s h h'; rw [h] at h'; cases h') (fun i => sendReceive_wf (by decide) _ _ _ _)
    (fun i => clientReceiveOrKingSend_wf _ _ _)
    (C38_serialized (by decide) x (fun i _ => Wire.ok_fixed _) .zero 1 _ (fun _ => rfl))
    (C41_delivers (by decide) [[1], [2], [3]] rfl 1 (by decide) .two _ (fun _ => rfl))

/-! ### C44 -/

/-- **C44** Schedule independence of every program whose concurrent branches use disjoint streams: if *one* schedule of a reliable
network ends with every party successful, then every schedule ends, and ends with every party holding the same result. -/
theorem C44_schedule_independent {c : Net n β} (hwf : ∀ i, ∃ S, (c.procs i).WF S) {k : Nat} {Q : Queues} {rs : Fin n → β}
    (hrun : GSteps Reliable k c ⟨fun i => .done (.ok (rs i)), Q⟩) : AlwaysYields c rs := by
  have hcore : GSteps Core k c ⟨fun i => .done (.ok (rs i)), Q⟩ := by
    generalize ht : (⟨fun i => .done (.ok (rs i)), Q⟩ : Net n β) = t at hrun
    induction hrun with
    | refl => exact .refl _
    | @step k c c1 c2 h1 hs ih =>
      have hwf1 : ∀ i, ∃ S, (c1.procs i).WF S := h1.wf hwf
      refine .step ?_ (ih hwf1 ht)
      cases h1 with
      | mk procs Q Q' i a p' ha hstep hq =>
        refine .mk procs Q Q' i a p' ⟨ha, fun hab => ?_⟩ hstep hq
        have hb : Bad p' := hstep.bad ha (.inl (hstep.hasErr_of_abort hab))
        have := hs.bad (i := i) (by simp only [Function.update_self]; exact hb)
        rw [← ht] at this
        rcases this with h | ⟨e, h⟩ <;> cases h
  exact alwaysYields_of_run (P := All) hwf (hcore.mono fun _ h => ⟨h, fun _ _ _ _ => trivial⟩)

/-- C44: party 1 sends two messages to party 0 on different streams, which receives them in the other order. One schedule is
given, all are covered. -/
example : AlwaysYields (Net.init fun i : Fin 2 => if i.val = 0 then .recv 1 .one fun b => .recv 1 .zero fun b' => .done (.ok (b ++ b'))
      else .send 0 .zero [5] (.send 0 .one [6] (.done (.ok []))) : Net 2 Bytes) fun i => if i.val = 0 then [6, 5] else [] := by
  refine C44_schedule_independent (k := 4) (Q := fun _ => []) (fun i => ⟨fun _ => True, ?_⟩) ?_
  · simp only [Net.init]
    split
    · exact .recv trivial fun _ => .recv trivial fun _ => .done _ _
    · exact .send trivial (.send trivial (.done _ _))
  · refine .step (.mk _ _ _ 1 (.send 0 .zero [5]) _ (by simp [Reliable]) (.send _ _ _ _) rfl) ?_
    refine .step (.mk _ _ _ 1 (.send 0 .one [6]) _ (by simp [Reliable]) (by simpa using .send _ _ _ _) rfl) ?_
    refine .step (.mk _ _ _ 0 (.recv 1 .one [6]) _ (by simp [Reliable]) (by simpa using .recv _ _ _ _)
      (by simp [qstep]; rfl)) ?_
    refine .step (.mk _ _ (fun _ => []) 0 (.recv 1 .zero [5]) (.done (.ok [6, 5])) (by simp [Reliable]) (by
      simp only [Function.update_self]; exact .recv 1 .zero [5] _) ?_) ?_
    · simp only [qstep]
      rw [Function.update_of_ne (by decide)]
      simp
      funext x
      by_cases h : x = (1, 0, Sid.zero)
      · subst h; simp
      · rw [Function.update_of_ne h]
        by_cases h' : x = (1, 0, Sid.one)
        · subst h'; simp
        · simp [Function.update_of_ne h, Function.update_of_ne h']
    · have : ∀ X Y : Fin 2 → Proc Bytes, X = Y → GSteps Reliable 0 (⟨X, fun _ => []⟩ : Net 2 Bytes) ⟨Y, fun _ => []⟩ := by
        rintro X _ rfl; exact .refl _
      apply this
      funext i
      fin_cases i <;> simp

end concurrency

/-- Example for C39: in a round of five parties in which the king heard parties 3 and 1. -/
example (msg : Nat → Bytes) : ∃ k c, GSteps Any k (Net.init fun i : Fin 5 => clientSendOrKingReceive 5 i (msg i) .two) c ∧
    ∃ entries, c.procs 0 = .done (.ok (some (.partly entries))) ∧ ∀ i b, (i, b) ∈ entries ↔ b = msg i ∧ (i = 0 ∨ Delivered c .two i) := by
  obtain ⟨k, c, h1, h2, h3⟩ := C39_every_subset (n := 5) (by decide) msg .two (parties := [3, 0, 1]) (by decide) (by decide) (by decide) (by decide)
  refine ⟨k, c, h1, ?_⟩
  rcases C39_raw (by decide) msg .two h1 h2 with ⟨h, -⟩ | ⟨-, entries, h, -, h4⟩
  · exact absurd ((h3 2).1 (h 2 (by decide) (by decide))).1 (by decide)
  · exact ⟨entries, h2.trans (by rw [h]), h4⟩

/-- Example for C39: any run of three parties that send vectors, with threshold 2. -/
example {k : Nat} {c : Net 3 (Option (ReceivedShares (List (ZMod 17))))}
    (hs : GSteps Any k (Net.init fun i : Fin 3 => clientSendOrKingReceiveSer 3 i [(i.val : ZMod 17), 5] .one 2) c)
    {r : Res (Option (ReceivedShares (List (ZMod 17))))} (hr : c.procs ⟨0, by decide⟩ = .done r) (h2 : ¬ Delivered c .one 2)
    (h1 : ¬ Delivered c .one 1) : r = .error (.net (.protocol 0)) := by
  rcases C39_serialized (by decide) (fun i => [(i : ZMod 17), 5]) (fun i _ => Wire.ok_list _ (by norm_num)) .one 2 hs hr with
    ⟨h, -⟩ | ⟨-, parties, hnd, hp, hr'⟩
  · exact absurd (h 2 (by decide) (by decide)) h2
  · have hsub : ∀ i ∈ parties, i = 0 := fun i hi => by
      rcases (hp i).1 hi with h | h
      · exact h
      · obtain ⟨hlt, h0, -⟩ := id h
        have : i = 1 ∨ i = 2 := by omega
        rcases this with rfl | rfl
        · exact absurd h h1
        · exact absurd h h2
    have hlen : parties.length < 2 := by
      match parties, hnd, hsub with
      | [], _, _ => decide
      | [_], _, _ => simp
      | a :: b :: t, hnd, hsub =>
        have h1 := hsub a (by simp)
        have h2 := hsub b (by simp)
        simp [h1, h2] at hnd
    rw [hr', if_pos hlen]

/-- Examples for C42: party 1 of 2 sends one byte instead of a vector. When its message comes too late the king goes on alone; when it
arrives, the king fails. -/
example {k : Nat} {c : Net 2 (Option (ReceivedShares (List (ZMod 17))))}
    (hs : GSteps Any k (Net.init fun i : Fin 2 => sendBytesSer (List (ZMod 17)) 2 i (if i.val = 1 then [255] else Wire.enc [(5 : ZMod 17)]) .one 1) c)
    {r : Res (Option (ReceivedShares (List (ZMod 17))))} (hr : c.procs ⟨0, by decide⟩ = .done r) (hlate : ¬ Delivered c .one 1) :
    r = .ok (some ⟨[[5]], [0]⟩) := by
  obtain ⟨shares, parties, hnd, hp, hsh, hr'⟩ := C42_timeout (by decide) (fun i => if i = 1 then [255] else Wire.enc [(5 : ZMod 17)]) .one 1 hs hr
    ⟨1, by decide, by decide, hlate⟩
  have h0 : 0 ∈ parties := (hp 0).2 ⟨.inl rfl, by decide +kernel⟩
  have hsub : ∀ i ∈ parties, i = 0 := fun i hi => by
    rcases ((hp i).1 hi).1 with h | h
    · exact h
    · obtain ⟨hlt, h0, -⟩ := id h
      obtain rfl : i = 1 := by omega
      exact absurd h hlate
  have hpar : parties = [0] := by
    match parties, hnd, hsub, h0 with
    | [], _, _, h => simp at h
    | [a], _, hs, _ => rw [hs a (by simp)]
    | a :: b :: t, hnd, hsub, _ =>
      have h1 := hsub a (by simp)
      have h2 := hsub b (by simp)
      simp [h1, h2] at hnd
  subst hpar
  have hsh' : shares = [[5]] := by
    have hd : Wire.dec (T := List (ZMod 17)) (Wire.enc [(5 : ZMod 17)]) = some [5] := Wire.ok_list [(5 : ZMod 17)] (by norm_num)
    match shares, hsh with
    | [a], hsh =>
      simp [hd] at hsh
      rw [hsh]
  rw [hr', hsh']
  rfl

example {k : Nat} {c : Net 2 (Option (ReceivedShares (List (ZMod 17))))}
    (hs : GSteps Any k (Net.init fun i : Fin 2 => sendBytesSer (List (ZMod 17)) 2 i (if i.val = 1 then [255] else Wire.enc [(5 : ZMod 17)]) .one 1) c)
    {r : Res (Option (ReceivedShares (List (ZMod 17))))} (hr : c.procs ⟨0, by decide⟩ = .done r) (hall : ∀ j < 2, j ≠ 0 → Delivered c .one j) :
    r = .error (.net .generic) :=
  (C42_all_delivered (by decide) (fun i => if i = 1 then [255] else Wire.enc [(5 : ZMod 17)]) .one 1 hs hr hall).1 ⟨1, by decide, by decide +kernel⟩

/-- Examples for C41. -/
example : clientReceiveOrKingSend 3 2 (some [[1]]) .one = .done (.error (.net .badInput)) := C41_client_with_data 2 (by decide) [[1]] .one

example : AlwaysHalts (Net.init fun i : Fin 3 => clientReceiveOrKingSend 3 i none .one) fun c => c.procs 0 = .done (.error (.net .badInput)) :=
  let ⟨h1, h2⟩ := C41_king_without_data (n := 3) (by decide) .one
  ⟨h1, fun k c hc hst => (h2 k c hc hst).1⟩

/-- Examples for C43: two rounds on streams Zero and Two one after the other, and three rounds at once. -/
example (x : Nat → ZMod 17) :
    AlwaysYields (Net.init fun i : Fin 3 => (clientSendOrKingReceiveSer 3 i (x i) .zero 1).bind fun r =>
      (clientReceiveOrKingSend 3 i (if i.val = 0 then some [[1], [2], [3]] else none) .two).bind fun s => .done (.ok (r, s)))
      fun i => (if i.val = 0 then some ⟨(List.range 3).map x, List.range 3⟩ else none, [[1], [2], [3]][i.val]) :=
  C43_sequential (S1 := only .zero) (S2 := only .two) (by intro s h h'; rw [h] at h'; cases h') (fun i => sendReceive_wf (by decide) _ _ _ _)
    (fun i => clientReceiveOrKingSend_wf _ _ _)
    (C38_serialized (by decide) x (fun i _ => Wire.ok_fixed _) .zero 1 _ (fun _ => rfl))
    (C41_delivers (by decide) [[1], [2], [3]] rfl 1 (by decide) .two _ (fun _ => rfl))

example (x y : Nat → ZMod 17) :
    AlwaysYields (Net.init fun i : Fin 3 => Proc.par (Proc.par (clientSendOrKingReceiveSer 3 i (x i) .zero 1)
      (clientSendOrKingReceiveSer 3 i (y i) .one 1) fun r s => .done (.ok (r, s)))
      (clientReceiveOrKingSend 3 i (if i.val = 0 then some [[1], [2], [3]] else none) .two) fun r t => .done (.ok (r, t)))
      fun i => ((if i.val = 0 then some ⟨(List.range 3).map x, List.range 3⟩ else none,
        if i.val = 0 then some ⟨(List.range 3).map y, List.range 3⟩ else none), [[1], [2], [3]][i.val]) :=
  C43_three (fun i => sendReceive_wf (by decide) _ _ _ _) (fun i => sendReceive_wf (by decide) _ _ _ _)
    (fun i => clientReceiveOrKingSend_wf _ _ _)
    (C38_serialized (by decide) x (fun i _ => Wire.ok_fixed _) .zero 1 _ (fun _ => rfl))
    (C38_serialized (by decide) y (fun i _ => Wire.ok_fixed _) .one 1 _ (fun _ => rfl))
    (C41_delivers (by decide) [[1], [2], [3]] rfl 1 (by decide) .two _ (fun _ => rfl))

end ZkSaas.Properties
