import Verif.Model.ProdNet
import Verif.Lemmas.Wire

/-! The set-up run. -/

set_option linter.unusedSectionVars false

namespace ZkSaas

variable {n : Nat} {α β γ : Type}

theorem alwaysHalts_of_run {c t : Net n α} (hc : c.WF) (h : Reach All c t) (ht : ∀ i a p', LStep (t.procs i) a p' → Core a →
      qstep i a t.queues = none) (hne : ∀ i, ¬ HasErr (t.procs i)) {P : Net n α → Prop} (hP : P t) : Spec.AlwaysHalts c P := by
  obtain ⟨m, hm⟩ := h
  obtain ⟨h1, h2⟩ := reliable_of_run hc hm (by
    rintro ⟨c', h⟩
    cases h with
    | mk procs Q Q' i a p' ha hstep hq =>
      have := ht i a p' hstep ha
      rw [hq] at this
      cases this) hne
  exact ⟨⟨m, h1⟩, fun k c' h hs => by rw [h2 k c' h hs]; exact hP⟩

/-- A message from one party to another that waits for it. -/
theorem reach_transfer {ps : Fin n → Proc α} {Q : Queues} (i j : Fin n) (hij : i ≠ j) (sid : Sid) (b : Bytes) (p : Proc α)
    (k : Bytes → Proc α) (hi : ps i = .send j sid b p) (hj : ps j = .recv i sid k) (hQ : Q (i, j, sid) = []) :
    Reach All ⟨ps, Q⟩ ⟨Function.update (Function.update ps i p) j (k b), Q⟩ := by
  refine Reach.trans (Reach.step i (.send j sid b) p (core_send _ _ _) (by rw [hi]; exact .send _ _ _ _) rfl) ?_
  refine Reach.step (Q' := Q) j (.recv i sid b) (k b) (core_recv _ _ _) ?_ ?_
  · rw [Function.update_of_ne (Ne.symm hij), hj]; exact .recv _ _ _ _
  · simp only [qstep]
    rw [Function.update_self, hQ]
    simp only [List.nil_append, if_true]
    rw [Function.update_idem]
    congr 1
    have := Function.update_eq_self ((i : Nat), (j : Nat), sid) Q
    rwa [hQ] at this

/-- The same, described party by party. -/
theorem reach_transfer' {ps : Fin n → Proc α} {Q : Queues} (i j : Fin n) (hij : i ≠ j) (sid : Sid) (b : Bytes) (p : Proc α)
    (k : Bytes → Proc α) (hi : ps i = .send j sid b p) (hj : ps j = .recv i sid k) (hQ : Q (i, j, sid) = []) :
    ∃ ps', Reach All ⟨ps, Q⟩ ⟨ps', Q⟩ ∧ ps' i = p ∧ ps' j = k b ∧ ∀ x, x ≠ i → x ≠ j → ps' x = ps x :=
  ⟨_, reach_transfer i j hij sid b p k hi hj hQ, by rw [Function.update_of_ne hij, Function.update_self],
    Function.update_self _ _ _, fun x h1 h2 => by rw [Function.update_of_ne h2, Function.update_of_ne h1]⟩

/-- Party `j` of the connections. -/
def conn {c : Nat} (j : Nat) (h : j < c) : Fin (c + 1) := ⟨j + 1, by omega⟩

theorem conn_ne {c j j' : Nat} {h : j < c} {h' : j' < c} (hne : j ≠ j') : conn j h ≠ conn j' h' := by
  intro e; apply hne; simpa [conn] using Fin.ext_iff.1 e

theorem conn_ne_zero {c j : Nat} {h : j < c} : conn j h ≠ (0 : Fin (c + 1)) := by
  intro e; have := Fin.ext_iff.1 e; simp [conn] at this

theorem conn_of {c : Nat} (i : Fin (c + 1)) (h : i ≠ 0) : ∃ (j : Nat) (hj : j < c), i = conn j hj := by
  have h1 : i.val ≠ 0 := fun e => h (Fin.ext e)
  exact ⟨i.val - 1, by omega, Fin.ext (by simp [conn]; omega)⟩

/-- What the peer does once the king knows it. -/
def awaitSyn (reply : Bytes) : Proc (List Peer) :=
  .recv 0 .zero fun b =>
    match recvPacket (.frame b) with
    | .error e => .done (.error e)
    | .ok q =>
      if q ≠ .syn then .done (.error (.net (.protocol 0)))
      else .send 0 .zero reply (.done (.ok [⟨0, some 0⟩]))

def replySyn (reply : Bytes) : Proc (List Peer) := .send 0 .zero reply (.done (.ok [⟨0, some 0⟩]))

/-- The hash map after the connections `js`. -/
def acceptedFrom (ids : Nat → Nat) (js : List Nat) (peers : List Peer) : List Peer :=
  js.foldl (fun peers j => insertPeer peers ⟨ids j, some j⟩) peers

theorem reach_accept {c : Nat} (ids : Nat → Nat) (hids : ∀ j < c, ids j < 2 ^ 32) (reply : Nat → Bytes) (f : List Peer → Proc (List Peer))
    (js : List Nat) (hjs : ∀ j ∈ js, j < c) (hnd : js.Nodup) (peers : List Peer) (ps : Fin (c + 1) → Proc (List Peer))
    (Q : Queues) (hQ : ∀ i, Q (i, 0, .zero) = []) (h0 : ps 0 = (acceptPeers js peers).bind f)
    (hp : ∀ j (h : j < c), j ∈ js → ps (conn j h) = peerHandshake (ids j) (reply j)) :
    ∃ ps', Reach All ⟨ps, Q⟩ ⟨ps', Q⟩ ∧ ps' 0 = f (acceptedFrom ids js peers) ∧
      (∀ j (h : j < c), j ∈ js → ps' (conn j h) = awaitSyn (reply j)) ∧
      ∀ j (h : j < c), j ∉ js → ps' (conn j h) = ps (conn j h) := by
  induction js generalizing peers ps with
  | nil => exact ⟨ps, .refl _, by rw [h0]; rfl, by simp, fun _ _ _ => rfl⟩
  | cons j js ih =>
    have hj : j < c := hjs j (by simp)
    have hne : conn j hj ≠ (0 : Fin (c + 1)) := conn_ne_zero
    have hQ' : Q (((conn j hj : Fin (c + 1)) : Nat), ((0 : Fin (c + 1)) : Nat), .zero) = [] := hQ _
    rw [acceptPeers] at h0
    simp only [Proc.bind] at h0
    have hpj := hp j hj (by simp)
    rw [peerHandshake] at hpj
    obtain ⟨ps1, s1, b1, a1, o1⟩ := reach_transfer' (conn j hj) 0 hne .zero _ _ _ hpj h0 hQ'
    obtain ⟨ps2, s2, b2, a2, o2⟩ := reach_transfer' (conn j hj) 0 hne .zero _ _ _ b1 a1 hQ'
    obtain ⟨ps3, s3, b3, a3, o3⟩ := reach_transfer' (conn j hj) 0 hne .zero _ _ _ b2 a2 hQ'
    obtain ⟨ps4, s4, b4, a4, o4⟩ := reach_transfer' (conn j hj) 0 hne .zero _ _ _ b3 a3 hQ'
    have other : ∀ i, i ≠ 0 → i ≠ conn j hj → ps4 i = ps i := by
      intro i h1 h2
      rw [o4 i h2 h1, o3 i h2 h1, o2 i h2 h1, o1 i h2 h1]
    have hids' : ofBeBytes (beBytes 4 (ids j)) = ids j := ofBeBytes_beBytes _ _ (by have := hids j hj; norm_num at this ⊢; omega)
    rw [hids'] at a4
    obtain ⟨ps', r, h1, h2, h3⟩ := ih (fun x hx => hjs x (List.mem_cons_of_mem _ hx)) (List.nodup_cons.1 hnd).2 _ ps4 a4
      (fun x hx hmem => by
        rw [other _ conn_ne_zero (conn_ne (by rintro rfl; exact (List.nodup_cons.1 hnd).1 hmem))]
        exact hp x hx (List.mem_cons_of_mem _ hmem))
    refine ⟨ps', (((s1.trans s2).trans s3).trans s4).trans r, h1, fun x hx hmem => ?_, fun x hx hmem => ?_⟩
    · rcases List.mem_cons.1 hmem with rfl | hmem
      · rw [h3 x hx (List.nodup_cons.1 hnd).1, b4]; rfl
      · exact h2 x hx hmem
    · rw [List.mem_cons, not_or] at hmem
      rw [h3 x hx hmem.2, other _ conn_ne_zero (conn_ne hmem.1)]

theorem recvPacket_enc (p : ProtocolPacket) (hp : p = .syn ∨ p = .synAck) : recvPacket (.frame p.enc) = .ok p := by
  rcases hp with rfl | rfl <;> decide +kernel

theorem reach_syns {c : Nat} (reply : Nat → Bytes) (f : Unit → Proc (List Peer)) (peers : List Peer) (conns : List Nat)
    (hpeers : peers.map Peer.streams = conns.map some) (hjs : ∀ j ∈ conns, j < c) (hnd : conns.Nodup)
    (ps : Fin (c + 1) → Proc (List Peer)) (Q : Queues) (hQ : ∀ i, Q (0, i, .zero) = [])
    (h0 : ps 0 = (sendSyns peers).bind f) (hp : ∀ j (h : j < c), j ∈ conns → ps (conn j h) = awaitSyn (reply j)) :
    ∃ ps', Reach All ⟨ps, Q⟩ ⟨ps', Q⟩ ∧ ps' 0 = f () ∧ (∀ j (h : j < c), j ∈ conns → ps' (conn j h) = replySyn (reply j)) ∧
      ∀ j (h : j < c), j ∉ conns → ps' (conn j h) = ps (conn j h) := by
  induction peers generalizing conns ps with
  | nil =>
    obtain rfl : conns = [] := by simpa using hpeers.symm
    exact ⟨ps, .refl _, by rw [h0]; rfl, by simp, fun _ _ _ => rfl⟩
  | cons p peers ih =>
    obtain _ | ⟨j, js⟩ := conns
    · simp at hpeers
    rw [List.map_cons, List.map_cons, List.cons.injEq] at hpeers
    have hj : j < c := hjs j (by simp)
    have hne : conn j hj ≠ (0 : Fin (c + 1)) := conn_ne_zero
    rw [sendSyns, hpeers.1] at h0
    simp only [Proc.bind] at h0
    obtain ⟨ps1, s1, a1, b1, o1⟩ := reach_transfer' (ps := ps) (Q := Q) 0 (conn j hj) (Ne.symm hne) .zero _ _ _ h0
      (hp j hj (by simp)) (hQ _)
    simp only [recvPacket_enc _ (.inl rfl), ne_eq, not_true_eq_false, if_false] at b1
    have other : ∀ i, i ≠ 0 → i ≠ conn j hj → ps1 i = ps i := o1
    obtain ⟨ps', r, h1, h2, h3⟩ := ih js hpeers.2 (fun x hx => hjs x (List.mem_cons_of_mem _ hx)) (List.nodup_cons.1 hnd).2 ps1 a1
      (fun x hx hmem => by
        rw [other _ conn_ne_zero (conn_ne (by rintro rfl; exact (List.nodup_cons.1 hnd).1 hmem))]
        exact hp x hx (List.mem_cons_of_mem _ hmem))
    refine ⟨ps', s1.trans r, h1, fun x hx hmem => ?_, fun x hx hmem => ?_⟩
    · rcases List.mem_cons.1 hmem with rfl | hmem
      · rw [h3 x hx (List.nodup_cons.1 hnd).1, b1]; rfl
      · exact h2 x hx hmem
    · rw [List.mem_cons, not_or] at hmem
      rw [h3 x hx hmem.2, other _ conn_ne_zero (conn_ne hmem.1)]

/-- The peers that nobody waits for send their replies. -/
theorem reach_replies {c : Nat} (reply : Nat → Bytes) (js : List Nat) (hjs : ∀ j ∈ js, j < c) (hnd : js.Nodup)
    (ps : Fin (c + 1) → Proc (List Peer)) (Q : Queues)
    (hp : ∀ j (h : j < c), j ∈ js → ps (conn j h) = replySyn (reply j)) :
    ∃ ps' Q', Reach All ⟨ps, Q⟩ ⟨ps', Q'⟩ ∧ ps' 0 = ps 0 ∧ (∀ j (h : j < c), j ∈ js → ps' (conn j h) = .done (.ok [⟨0, some 0⟩])) ∧
      (∀ j (h : j < c), j ∉ js → ps' (conn j h) = ps (conn j h)) ∧ ∀ i, i ≠ 0 → Q' (0, i, .zero) = Q (0, i, .zero) := by
  induction js generalizing ps Q with
  | nil => exact ⟨ps, Q, .refl _, rfl, by simp, fun _ _ _ => rfl, fun _ _ => rfl⟩
  | cons j js ih =>
    have hj : j < c := hjs j (by simp)
    have hne : conn j hj ≠ (0 : Fin (c + 1)) := conn_ne_zero
    have s1 := Reach.step (P := All) (ps := ps) (Q := Q) (conn j hj) (.send 0 .zero (reply j)) (.done (.ok [⟨0, some 0⟩])) (core_send _ _ _)
      (by rw [hp j hj (by simp)]; exact .send _ _ _ _) rfl
    obtain ⟨ps', Q', r, h1, h2, h3, h4⟩ := ih (fun x hx => hjs x (List.mem_cons_of_mem _ hx)) (List.nodup_cons.1 hnd).2
      (Function.update ps (conn j hj) (.done (.ok [⟨0, some 0⟩]))) _
      (fun x hx hmem => by
        rw [Function.update_of_ne (conn_ne (by rintro rfl; exact (List.nodup_cons.1 hnd).1 hmem))]
        exact hp x hx (List.mem_cons_of_mem _ hmem))
    refine ⟨ps', Q', s1.trans r, ?_, fun x hx hmem => ?_, fun x hx hmem => ?_, fun i hi => ?_⟩
    · rw [h1, Function.update_of_ne (Ne.symm hne)]
    · rcases List.mem_cons.1 hmem with rfl | hmem
      · rw [h3 x hx (List.nodup_cons.1 hnd).1, Function.update_self]
      · exact h2 x hx hmem
    · rw [List.mem_cons, not_or] at hmem
      rw [h3 x hx hmem.2, Function.update_of_ne (conn_ne hmem.1)]
    · rw [h4 i hi, Function.update_of_ne]
      intro e
      have := (Prod.ext_iff.1 e).1
      simp [conn] at this

/-- The first peer whose reply is not a SynAck. -/
def firstBad (reply : Nat → ProtocolPacket) (peers : List Peer) : Option Peer :=
  peers.find? fun p => match p.streams with | none => false | some j => reply j ≠ .synAck

theorem reach_acks {c : Nat} (reply : Nat → ProtocolPacket) (hreply : ∀ j, recvPacket (.frame (reply j).enc) = .ok (reply j))
    (f : Unit → Proc (List Peer)) (peers : List Peer) (conns : List Nat)
    (hpeers : peers.map Peer.streams = conns.map some) (hjs : ∀ j ∈ conns, j < c) (hnd : conns.Nodup)
    (ps : Fin (c + 1) → Proc (List Peer)) (Q : Queues) (hQ : ∀ i, Q (i, 0, .zero) = [])
    (h0 : ps 0 = (recvAcks peers).bind f) (hp : ∀ j (h : j < c), j ∈ conns → ps (conn j h) = replySyn (reply j).enc) :
    ∃ ps' Q', Reach All ⟨ps, Q⟩ ⟨ps', Q'⟩ ∧
      ps' 0 = (match firstBad reply peers with | none => f () | some p => .done (.error (.net (.protocol p.id)))) ∧
      (∀ j (h : j < c), j ∈ conns → ps' (conn j h) = .done (.ok [⟨0, some 0⟩])) ∧
      (∀ j (h : j < c), j ∉ conns → ps' (conn j h) = ps (conn j h)) ∧ ∀ i, i ≠ 0 → Q' (0, i, .zero) = Q (0, i, .zero) := by
  induction peers generalizing conns ps with
  | nil =>
    obtain rfl : conns = [] := by simpa using hpeers.symm
    exact ⟨ps, Q, .refl _, by rw [h0]; rfl, by simp, fun _ _ _ => rfl, fun _ _ => rfl⟩
  | cons p peers ih =>
    obtain _ | ⟨j, js⟩ := conns
    · simp at hpeers
    rw [List.map_cons, List.map_cons, List.cons.injEq] at hpeers
    have hj : j < c := hjs j (by simp)
    have hne : conn j hj ≠ (0 : Fin (c + 1)) := conn_ne_zero
    rw [recvAcks, hpeers.1] at h0
    simp only [Proc.bind] at h0
    obtain ⟨ps1, s1, b1, a1, o1⟩ := reach_transfer' (ps := ps) (Q := Q) (conn j hj) 0 hne .zero _ _ _ (hp j hj (by simp)) h0 (hQ _)
    simp only [hreply] at a1
    have other : ∀ i, i ≠ 0 → i ≠ conn j hj → ps1 i = ps i := fun i h1 h2 => o1 i h2 h1
    have hp1 : ∀ x (hx : x < c), x ∈ js → ps1 (conn x hx) = replySyn (reply x).enc := fun x hx hmem => by
        rw [other _ conn_ne_zero (conn_ne (by rintro rfl; exact (List.nodup_cons.1 hnd).1 hmem))]
        exact hp x hx (List.mem_cons_of_mem _ hmem)
    by_cases hbad : reply j ≠ .synAck
    · rw [if_pos hbad] at a1
      obtain ⟨ps', Q', r, h1, h2, h3, h4⟩ := reach_replies (fun j => (reply j).enc) js
        (fun x hx => hjs x (List.mem_cons_of_mem _ hx)) (List.nodup_cons.1 hnd).2 ps1 Q hp1
      refine ⟨ps', Q', s1.trans r, ?_, fun x hx hmem => ?_, fun x hx hmem => ?_, h4⟩
      · rw [h1, a1, firstBad, List.find?_cons_of_pos (by simp [hpeers.1, hbad])]
        rfl
      · rcases List.mem_cons.1 hmem with rfl | hmem
        · rw [h3 x hx (List.nodup_cons.1 hnd).1, b1]
        · exact h2 x hx hmem
      · rw [List.mem_cons, not_or] at hmem
        rw [h3 x hx hmem.2, other _ conn_ne_zero (conn_ne hmem.1)]
    · rw [if_neg hbad] at a1
      obtain ⟨ps', Q', r, h1, h2, h3, h4⟩ := ih js hpeers.2 (fun x hx => hjs x (List.mem_cons_of_mem _ hx)) (List.nodup_cons.1 hnd).2
        ps1 a1 hp1
      refine ⟨ps', Q', s1.trans r, ?_, fun x hx hmem => ?_, fun x hx hmem => ?_, h4⟩
      · rw [h1, firstBad, firstBad, List.find?_cons_of_neg (by simpa [hpeers.1] using hbad)]
      · rcases List.mem_cons.1 hmem with rfl | hmem
        · rw [h3 x hx (List.nodup_cons.1 hnd).1, b1]
        · exact h2 x hx hmem
      · rw [List.mem_cons, not_or] at hmem
        rw [h3 x hx hmem.2, other _ conn_ne_zero (conn_ne hmem.1)]

end ZkSaas

namespace ZkSaas

/-- The hash map of the king after `c` connections. -/
def accepted (ids : Nat → Nat) (c : Nat) : List Peer := acceptedFrom ids (List.range c) []

theorem accepted_succ (ids : Nat → Nat) (c : Nat) : accepted ids (c + 1) = insertPeer (accepted ids c) ⟨ids c, some c⟩ := by
  rw [accepted, acceptedFrom, List.range_succ, List.foldl_append]; rfl

/-- No later connection announces the same id. -/
def LastWith (ids : Nat → Nat) (c j : Nat) : Prop := j < c ∧ ∀ j', j < j' → j' < c → ids j' ≠ ids j

theorem mem_accepted (ids : Nat → Nat) (c : Nat) (p : Peer) :
    p ∈ accepted ids c ↔ ∃ j, LastWith ids c j ∧ p = ⟨ids j, some j⟩ := by
  induction c generalizing p with
  | zero => simp [accepted, acceptedFrom, LastWith]
  | succ c ih =>
    rw [accepted_succ, insertPeer, List.mem_append, List.mem_filter, ih]
    simp only [List.mem_singleton, ne_eq, decide_not, Bool.not_eq_true', decide_eq_false_iff_not]
    constructor
    · rintro (⟨⟨j, ⟨h1, h2⟩, rfl⟩, h3⟩ | rfl)
      · refine ⟨j, ⟨by omega, fun j' ha hb => ?_⟩, rfl⟩
        by_cases hc : j' = c
        · subst hc; exact fun e => h3 e.symm
        · exact h2 j' ha (by omega)
      · exact ⟨c, ⟨by omega, fun j' ha hb => by omega⟩, rfl⟩
    · rintro ⟨j, ⟨h1, h2⟩, rfl⟩
      by_cases hc : j = c
      · subst hc; exact .inr rfl
      · exact .inl ⟨⟨j, ⟨by omega, fun j' ha hb => h2 j' ha (by omega)⟩, rfl⟩, fun e => h2 c (by omega) (by omega) e.symm⟩

theorem accepted_streams (ids : Nat → Nat) (c : Nat) :
    ∃ js : List Nat, (accepted ids c).map Peer.streams = js.map some ∧ js.Nodup ∧ ∀ j, j ∈ js ↔ LastWith ids c j := by
  have h1 : ∃ js : List Nat, (accepted ids c).map Peer.streams = js.map some ∧ js.Nodup := by
    induction c with
    | zero => exact ⟨[], rfl, List.nodup_nil⟩
    | succ c ih =>
      obtain ⟨js, e, hnd⟩ := ih
      have hsub : ∃ js' : List Nat, ((accepted ids c).filter fun q => q.id ≠ ids c).map Peer.streams = js'.map some ∧ js'.Sublist js := by
        generalize accepted ids c = L at e
        clear hnd
        induction L generalizing js with
        | nil => exact ⟨[], rfl, List.nil_sublist _⟩
        | cons p L ihL =>
          obtain _ | ⟨j, js⟩ := js
          · simp at e
          rw [List.map_cons, List.map_cons, List.cons.injEq] at e
          obtain ⟨js', e', hs⟩ := ihL js e.2
          by_cases hp : p.id ≠ ids c
          · refine ⟨j :: js', ?_, hs.cons_cons j⟩
            rw [List.filter_cons_of_pos (by simpa using hp), List.map_cons, e', e.1, List.map_cons]
          · refine ⟨js', ?_, hs.cons j⟩
            rw [List.filter_cons_of_neg (by simpa using hp), e']
      obtain ⟨js', e', hs⟩ := hsub
      refine ⟨js' ++ [c], ?_, ?_⟩
      · rw [accepted_succ, insertPeer, List.map_append, List.map_append, e']; rfl
      · rw [List.nodup_append]
        refine ⟨hnd.sublist hs, List.nodup_singleton _, ?_⟩
        rintro a ha b hb rfl
        rw [List.mem_singleton] at hb
        subst hb
        have : some a ∈ (accepted ids a).map Peer.streams := by
          rw [e, List.mem_map]; exact ⟨a, hs.subset ha, rfl⟩
        obtain ⟨p, hp, hpe⟩ := List.mem_map.1 this
        obtain ⟨j, hj, rfl⟩ := (mem_accepted ids a p).1 hp
        cases hpe
        exact absurd hj.1 (lt_irrefl _)
  obtain ⟨js, e, hnd⟩ := h1
  refine ⟨js, e, hnd, fun j => ?_⟩
  have : j ∈ js ↔ some j ∈ (accepted ids c).map Peer.streams := by rw [e]; simp
  rw [this, List.mem_map]
  constructor
  · rintro ⟨p, hp, hpe⟩
    obtain ⟨j', hj, rfl⟩ := (mem_accepted ids c p).1 hp
    cases hpe
    exact hj
  · intro h
    exact ⟨_, (mem_accepted ids c _).2 ⟨j, h, rfl⟩, rfl⟩

theorem acceptPeers_wf {S : Sid → Prop} (hS : S .zero) (js : List Nat) (peers : List Peer) : (acceptPeers js peers).WF S := by
  induction js generalizing peers with
  | nil => exact .done _ _
  | cons j js ih => exact .recv hS fun b => .recv hS fun _ => .recv hS fun _ => .recv hS fun _ => ih _

theorem sendSyns_wf {S : Sid → Prop} (hS : S .zero) (ps : List Peer) : (sendSyns ps).WF S := by
  induction ps with
  | nil => exact .done _ _
  | cons p ps ih =>
    rw [sendSyns]
    split
    · exact .done _ _
    · exact .send hS ih

theorem recvAcks_wf {S : Sid → Prop} (hS : S .zero) (ps : List Peer) : (recvAcks ps).WF S := by
  induction ps with
  | nil => exact .done _ _
  | cons p ps ih =>
    rw [recvAcks]
    split
    · exact .done _ _
    · refine .recv hS fun b => ?_
      split
      · exact .done _ _
      · split
        · exact .done _ _
        · exact ih

theorem kingSetup_wf {S : Sid → Prop} (hS : S .zero) (order : List Peer → List Peer) (c : Nat) : (kingSetup order c).WF S :=
  (acceptPeers_wf hS _ _).bind fun _ => (sendSyns_wf hS _).bind fun _ => (recvAcks_wf hS _).bind fun _ => .done _ _

theorem peerHandshake_wf {S : Sid → Prop} (hS : S .zero) (id : Nat) (reply : Bytes) : (peerHandshake id reply).WF S := by
  refine .send hS (.send hS (.send hS (.send hS (.recv hS fun b => ?_))))
  split
  · exact .done _ _
  · split
    · exact .done _ _
    · exact .send hS (.done _ _)

/-- The outcome of set-up for arbitrary announced ids and replies. -/
theorem setup_halts (c : Nat) (ids : Nat → Nat) (hids : ∀ j < c, ids j < 2 ^ 32) (reply : Nat → ProtocolPacket)
    (hreply : ∀ j, recvPacket (.frame (reply j).enc) = .ok (reply j)) (order : List Peer → List Peer)
    (horder : ∀ l, (order l).Perm l) :
    Spec.AlwaysHalts (Net.init fun i : Fin (c + 1) =>
        if i = 0 then kingSetup order c else peerHandshake (ids (i.val - 1)) (reply (i.val - 1)).enc) fun t =>
      t.procs 0 = (match firstBad reply (order (accepted ids c)) with
        | none => .done (.ok (accepted ids c))
        | some p => .done (.error (.net (.protocol p.id)))) ∧
      ∀ j (h : j < c), (LastWith ids c j → t.procs (conn j h) = .done (.ok [⟨0, some 0⟩])) ∧
        (¬ LastWith ids c j → t.procs (conn j h) = awaitSyn (reply j).enc ∧ t.queues (0, j + 1, .zero) = []) := by
  have hwf : (Net.init fun i : Fin (c + 1) =>
        if i = 0 then kingSetup order c else peerHandshake (ids (i.val - 1)) (reply (i.val - 1)).enc).WF := by
    intro i
    refine ⟨fun _ => True, ?_⟩
    simp only [Net.init]
    split
    · exact kingSetup_wf trivial _ _
    · exact peerHandshake_wf trivial _ _
  obtain ⟨js, hjs, hnd, hmem⟩ := accepted_streams ids c
  -- the same connections in the order of the hash map
  obtain ⟨js', hjs', hperm⟩ : ∃ js' : List Nat, (order (accepted ids c)).map Peer.streams = js'.map some ∧ js'.Perm js := by
    have hp : ((order (accepted ids c)).map Peer.streams).Perm (js.map some) := by
      rw [← hjs]; exact (horder _).map _
    refine ⟨((order (accepted ids c)).map Peer.streams).filterMap id, ?_, ?_⟩
    · have hall : ∀ x ∈ (order (accepted ids c)).map Peer.streams, ∃ j, x = some j := by
        intro x hx
        have := hp.subset hx
        obtain ⟨j, -, rfl⟩ := List.mem_map.1 this
        exact ⟨j, rfl⟩
      generalize (order (accepted ids c)).map Peer.streams = L at hall
      induction L with
      | nil => rfl
      | cons x L ih =>
        obtain ⟨j, rfl⟩ := hall x (by simp)
        rw [List.filterMap_cons_some (f := id) (a := some j) (b := j) rfl, List.map_cons, ← ih fun y hy => hall y (List.mem_cons_of_mem _ hy)]
    · have := hp.filterMap id
      have e : (js.map some).filterMap id = js := by
        rw [List.filterMap_map]; exact List.filterMap_some
      rwa [e] at this
  have hnd' : js'.Nodup := hperm.nodup_iff.2 hnd
  have hmem' : ∀ j, j ∈ js' ↔ LastWith ids c j := fun j => (hperm.mem_iff).trans (hmem j)
  have hlt' : ∀ j ∈ js', j < c := fun j h => ((hmem' j).1 h).1
  obtain ⟨ps1, r1, a1, b1, -⟩ := reach_accept (c := c) ids hids (fun j => (reply j).enc)
    (fun peers => (sendSyns (order peers)).bind fun _ => (recvAcks (order peers)).bind fun _ => .done (.ok peers))
    (List.range c) (fun j h => List.mem_range.1 h) List.nodup_range []
    (fun i : Fin (c + 1) => if i = 0 then kingSetup order c else peerHandshake (ids (i.val - 1)) (reply (i.val - 1)).enc)
    (fun _ => []) (fun _ => rfl) (by simp only [if_true]; rfl)
    (fun j h _ => by simp only [if_neg (conn_ne_zero (h := h))]; rfl)
  obtain ⟨ps2, r2, a2, b2, c2⟩ := reach_syns (c := c) (fun j => (reply j).enc) _ (order (accepted ids c)) js' hjs' hlt' hnd' ps1
    (fun _ => []) (fun _ => rfl) a1 (fun j h _ => b1 j h (List.mem_range.2 h))
  obtain ⟨ps3, Q3, r3, a3, b3, c3, d3⟩ := reach_acks (c := c) reply hreply _ (order (accepted ids c)) js' hjs' hlt' hnd' ps2
    (fun _ => []) (fun _ => rfl) a2 b2
  have hrest : ∀ j (h : j < c), ¬ LastWith ids c j → ps3 (conn j h) = awaitSyn (reply j).enc ∧ Q3 (0, j + 1, .zero) = [] := by
    intro j h hl
    have hn : j ∉ js' := fun hm => hl ((hmem' j).1 hm)
    exact ⟨by rw [c3 j h hn, c2 j h hn, b1 j h (List.mem_range.2 h)], d3 (j + 1) (by omega)⟩
  refine alwaysHalts_of_run hwf ((r1.trans r2).trans r3) ?_ ?_ ⟨a3, fun j h => ⟨fun hl => b3 j h ((hmem' j).2 hl), hrest j h⟩⟩
  · intro i a p' hst ha
    simp only at hst
    by_cases hi : i = 0
    · subst hi
      rw [a3] at hst
      split at hst <;> cases hst
    · obtain ⟨j, hj, rfl⟩ := conn_of i hi
      by_cases hl : LastWith ids c j
      · rw [b3 j hj ((hmem' j).2 hl)] at hst
        cases hst
      · obtain ⟨h1, h2⟩ := hrest j hj hl
        rw [h1] at hst
        cases hst with
        | recv => simp only [qstep, conn, h2]
        | recvFail => exact absurd rfl ha.1
  · intro i he
    simp only at he
    by_cases hi : i = 0
    · subst hi
      rw [a3] at he
      split at he <;> cases he
    · obtain ⟨j, hj, rfl⟩ := conn_of i hi
      by_cases hl : LastWith ids c j
      · rw [b3 j hj ((hmem' j).2 hl)] at he
        cases he
      · rw [(hrest j hj hl).1] at he
        cases he

end ZkSaas
