import Verif.Model.Packets
import Verif.Spec.Packets
import Verif.Lemmas.Routing
import Verif.Lemmas.Rounds

/-!
# Protocols as packets
-/

namespace ZkSaas

open Spec

variable {α β : Type} {n me : Nat}

/-! ### Programs at their beginning -/

theorem Proc.Fresh.bind {p : Proc α} {f : α → Proc β} (hp : p.Fresh) (hf : ∀ a, (f a).Fresh) : (p.bind f).Fresh := by
  induction hp with
  | done r => cases r with
    | ok a => exact hf a
    | error e => exact .done _
  | send _ ih => exact .send (ih hf)
  | recv _ ih => exact .recv fun b => ih b hf
  | gather _ ih => exact .gather fun L => ih L hf
  | par hp hq _ _ _ ih => exact .par hp hq fun r s => ih r s hf

theorem clientSendOrKingReceive_fresh (n me : Nat) (bytes : Bytes) (sid : Sid) : (clientSendOrKingReceive n me bytes sid).Fresh := by
  unfold clientSendOrKingReceive
  split
  · exact .gather fun L => .done _
  · exact .send (.done _)

theorem kingSendLoop_fresh (out : List Bytes) (m : Nat) (sid : Sid) (ids : List Nat) : (kingSendLoop out m sid ids).Fresh := by
  induction ids with
  | nil => exact .done _
  | cons id ids ih =>
    show (Proc.bind (.done (rd out id)) _).Fresh
    refine Proc.Fresh.bind (.done _) fun b => ?_
    split
    · exact .done _
    · exact .send ih

theorem clientReceiveOrKingSend_fresh (n me : Nat) (out : Option (List Bytes)) (sid : Sid) :
    (clientReceiveOrKingSend n me out sid).Fresh := by
  unfold clientReceiveOrKingSend
  cases out with
  | none =>
    simp only
    split
    · exact .done _
    · exact .recv fun b => .done _
  | some out =>
    simp only
    split
    · exact .done _
    · exact Proc.Fresh.bind (.done _) fun b => Proc.Fresh.bind (kingSendLoop_fresh _ _ _ _) fun _ => .done _

theorem sendReceive_fresh {T : Type} [Wire T] (n me : Nat) (out : T) (sid : Sid) (threshold : Nat) :
    (clientSendOrKingReceiveSer n me out sid threshold).Fresh :=
  (clientSendOrKingReceive_fresh _ _ _ _).bind fun _ => .done _

theorem receiveSend_fresh {T : Type} [Wire T] (n me : Nat) (out : Option (List T)) (sid : Sid) :
    (clientReceiveOrKingSendSer n me out sid).Fresh :=
  (clientReceiveOrKingSend_fresh _ _ _ _).bind fun _ => .done _

theorem round_fresh {T U : Type} [Wire T] [Wire U] (sid : Sid) (threshold me : Nat) (x : T)
    (K : ReceivedShares T → Res (List U)) (f : U → Proc α) (hf : ∀ y, (f y).Fresh) :
    ((clientSendOrKingReceiveSer n me x sid threshold).bind fun r =>
      (Proc.done (kingDo K r)).bind fun a => (clientReceiveOrKingSendSer n me a sid).bind f).Fresh :=
  (sendReceive_fresh _ _ _ _ _).bind fun _ => (Proc.Fresh.done _).bind fun _ => (receiveSend_fresh _ _ _ _).bind hf

/-! ### What concurrent receives have got -/

/-- The concurrent receives have got only messages in `P`. -/
inductive Proc.Got (P : Bytes → Prop) : {α : Type} → Proc α → Prop where
  | done {α : Type} (r : Res α) : Proc.Got P (.done r)
  | send {α : Type} {dst : Nat} {sid : Sid} {b : Bytes} {k : Proc α} (h : k.Got P) : Proc.Got P (.send dst sid b k)
  | recv {α : Type} {frm : Nat} {sid : Sid} {k : Bytes → Proc α} (h : ∀ b, (k b).Got P) : Proc.Got P (.recv frm sid k)
  | gather {α : Type} {sid : Sid} {n : Nat} {own : Bytes} {got : Nat → Option Bytes} {k : List (Nat × Bytes) → Proc α}
      (hg : ∀ i b, got i = some b → P b) (h : ∀ L, (k L).Got P) : Proc.Got P (.gather sid n own got k)
  | par {α β γ : Type} {p : Proc β} {q : Proc γ} {k : β → γ → Proc α} (hp : p.Got P) (hq : q.Got P) (hk : ∀ r s, (k r s).Got P) :
      Proc.Got P (.par p q k)

variable {P : Bytes → Prop}

theorem Proc.Fresh.got {p : Proc α} (h : p.Fresh) : p.Got P := by
  induction h with
  | done r => exact .done _
  | send _ ih => exact .send ih
  | recv _ ih => exact .recv ih
  | gather _ ih => exact .gather (fun _ _ h => by cases h) ih
  | par _ _ _ ihp ihq ihk => exact .par ihp ihq ihk

theorem Proc.Got.step {p p' : Proc α} {a : Act} (h : p.Got P) (hs : LStep p a p') (ha : ∀ f s b, a = .recv f s b → P b) : p'.Got P := by
  induction hs with
  | send => cases h with | send h => exact h
  | recv => cases h with | recv h => exact h _
  | gatherRecv sid m own got k i b h1 h2 h3 =>
    cases h with | gather hg h =>
    refine .gather (fun j b' e => ?_) h
    by_cases hj : j = i
    · subst hj
      rw [Function.update_self] at e
      cases e
      exact ha _ _ _ rfl
    · rw [Function.update_of_ne hj] at e
      exact hg _ _ e
  | gatherDone => cases h with | gather _ h => exact h _
  | gatherExpire => cases h with | gather _ h => exact h _
  | sendFail => exact .done _
  | recvFail => exact .done _
  | parL _ _ _ _ _ _ ih => cases h with | par hp hq h => exact .par (ih hp ha) hq h
  | parR _ _ _ _ _ _ ih => cases h with | par hp hq h => exact .par hp (ih hq ha) h
  | join => cases h with | par _ _ h => exact h _ _
  | abortL => exact .done _
  | abortR => exact .done _

/-! ### The packed program does the same -/

/-- The packet around a message. -/
abbrev inPacket (b : Bytes) : Bytes := (ProtocolPacket.packet b).enc

def Act.packed : Act → Act
  | .send d s b => .send d s (ZkSaas.inPacket b)
  | .recv f s b => .recv f s (ZkSaas.inPacket b)
  | a => a

def Queues.packed (Q : Queues) : Queues := fun x => (Q x).map ZkSaas.inPacket

theorem unpackedAll_congr {own : Bytes} {got : Nat → Option Bytes} {L L' : List (Nat × Bytes)}
    (h : Enumerates n own got L) (h' : Enumerates n own got L') : unpackedAll n L = unpackedAll n L' := by
  have hl : ∀ x, L.lookup x = L'.lookup x := by
    intro x
    cases hx : L.lookup x with
    | some b =>
      have := mem_of_lookup_eq_some hx
      rw [lookup_of_mem h'.1 ((h'.2 x b).2 ((h.2 x b).1 this))]
    | none =>
      cases hx' : L'.lookup x with
      | none => rfl
      | some b =>
        have := mem_of_lookup_eq_some hx'
        rw [lookup_of_mem h.1 ((h.2 x b).2 ((h'.2 x b).1 this))] at hx
        cases hx
  unfold unpackedAll
  congr 1
  funext id
  simp only [unpackedEntry, hl]

theorem unpackedEntry_fst {L : List (Nat × Bytes)} {id : Nat} {e : Nat × Bytes} (h : unpackedEntry L id = some e) : e.1 = id := by
  unfold unpackedEntry at h
  split at h
  · cases h
  · split at h
    · cases h; rename_i h; exact h.symm
    · split at h
      · cases h; rfl
      · cases h

/-- The packed entries, and these unpacked. -/
theorem Enumerates.packed (hP : ∀ b, P b → prodRecv (.frame (ZkSaas.inPacket b)) = .ok b) (hn : 0 < n) {own : Bytes} {got : Nat → Option Bytes}
    (hg : ∀ i b, got i = some b → P b) {L : List (Nat × Bytes)} (h : Enumerates n own got L) :
    ∃ L', Enumerates n own (fun i => (got i).map ZkSaas.inPacket) L' ∧ Enumerates n own got (unpackedAll n L') := by
  have hs : Enumerates n own (fun i => (got i).map ZkSaas.inPacket) (L.map fun e => (e.1, if e.1 = 0 then e.2 else ZkSaas.inPacket e.2)) := by
    refine ⟨?_, fun i b => ?_⟩
    · rw [List.map_map]
      exact h.1
    · rw [List.mem_map]
      constructor
      · rintro ⟨⟨j, b'⟩, he, e⟩
        cases e
        rcases (h.2 j b').1 he with ⟨rfl, rfl⟩ | ⟨h1, h2, h3⟩
        · exact .inl ⟨rfl, by simp⟩
        · refine .inr ⟨h1, h2, ?_⟩
          dsimp only
          rw [h3, if_neg (by omega)]
          rfl
      · rintro (⟨rfl, rfl⟩ | ⟨h1, h2, h3⟩)
        · exact ⟨(0, b), (h.2 0 b).2 (.inl ⟨rfl, rfl⟩), by simp⟩
        · obtain ⟨b', hb', rfl⟩ := Option.map_eq_some_iff.1 h3
          exact ⟨(i, b'), (h.2 i b').2 (.inr ⟨h1, h2, hb'⟩), by simp only; rw [if_neg (by omega)]⟩
  refine ⟨_, hs, ?_, fun i b => ?_⟩
  · generalize (L.map fun e => (e.1, if e.1 = 0 then e.2 else ZkSaas.inPacket e.2)) = L'
    have hsub : ((unpackedAll n L').map Prod.fst).Sublist (List.range n) := by
      unfold unpackedAll
      generalize List.range n = M
      induction M with
      | nil => simp
      | cons id M ih =>
        cases hf : unpackedEntry L' id with
        | none => rw [List.filterMap_cons_none hf]; exact ih.cons _
        | some e =>
          rw [List.filterMap_cons_some hf, List.map_cons, unpackedEntry_fst hf]
          exact ih.cons_cons _
    exact List.nodup_range.sublist hsub
  · unfold unpackedAll
    rw [List.mem_filterMap]
    constructor
    · rintro ⟨id, hid, he⟩
      have := unpackedEntry_fst he
      simp only at this
      subst this
      unfold unpackedEntry at he
      split at he
      · cases he
      · rename_i f hf
        rcases (hs.2 _ _).1 (mem_of_lookup_eq_some hf) with ⟨rfl, rfl⟩ | ⟨h1, h2, h3⟩
        · rw [if_pos rfl] at he
          cases he
          exact .inl ⟨rfl, rfl⟩
        · obtain ⟨b', hb', rfl⟩ := Option.map_eq_some_iff.1 h3
          rw [if_neg (by omega), hP b' (hg _ _ hb')] at he
          cases he
          exact .inr ⟨h1, h2, hb'⟩
    · rintro (⟨rfl, rfl⟩ | ⟨h1, h2, h3⟩)
      · refine ⟨0, List.mem_range.2 hn, ?_⟩
        rw [unpackedEntry, lookup_of_mem hs.1 ((hs.2 0 b).2 (.inl ⟨rfl, rfl⟩))]
        rfl
      · refine ⟨i, List.mem_range.2 h2, ?_⟩
        rw [unpackedEntry, lookup_of_mem hs.1 ((hs.2 i (ZkSaas.inPacket b)).2 (.inr ⟨h1, h2, by dsimp only; rw [h3]; rfl⟩))]
        simp only
        rw [if_neg (by omega), hP b (hg _ _ h3)]

/-- A step of a program is a step of the packed program. -/
theorem LStep.packed (hP : ∀ b, P b → prodRecv (.frame (ZkSaas.inPacket b)) = .ok b) {S : Sid → Prop} {p p' : Proc α} {a : Act} (hs : LStep p a p')
    (hw : p.WF S) (hg : p.Got P) (hst : Star n me p) (hn : 0 < n) (hr : ∀ f s b, a = .recv f s b → P b) (ha : Core a) :
    LStep p.packets a.packed p'.packets := by
  induction hs generalizing S with
  | send dst sid b k => exact .send _ _ _ _
  | recv frm sid b k =>
    have e := hP b (hr _ _ _ rfl)
    simp only [Proc.packets]
    have h := LStep.recv frm sid (ZkSaas.inPacket b) (fun f => match prodRecv (.frame f) with
      | .ok b => (k b).packets
      | .error e => .done (.error e) : Bytes → Proc _)
    simp only [e] at h
    exact h
  | gatherRecv sid m own got k i b h1 h2 h3 =>
    simp only [Proc.packets]
    have e : (fun j => (Function.update got i (some b) j).map fun b => (ProtocolPacket.packet b).enc) =
        Function.update (fun j => (got j).map fun b => (ProtocolPacket.packet b).enc) i (some (ZkSaas.inPacket b)) := by
      funext j
      by_cases hj : j = i
      · subst hj; rw [Function.update_self, Function.update_self]; rfl
      · rw [Function.update_of_ne hj, Function.update_of_ne hj]
    rw [e]
    exact .gatherRecv _ _ _ _ _ _ _ h1 h2 (by rw [h3]; rfl)
  | gatherDone sid m own got k L hfull hL =>
    cases hst with | gather hk _ =>
    cases hg with | gather hg _ =>
    simp only [Proc.packets]
    obtain ⟨L', hL', e⟩ := hL.packed hP hn hg
    have := LStep.gatherDone sid n own (fun i => (got i).map ZkSaas.inPacket) (fun L => (k (unpackedAll n L)).packets) L'
      (fun q h1 h2 => by
        obtain ⟨b, hb⟩ := Option.ne_none_iff_exists'.1 (hfull q h1 h2)
        rw [hb]
        exact Option.some_ne_none _) hL'
    cases hw with | gather _ _ hord =>
    rw [hord got L _ hfull hL e]
    exact this
  | gatherExpire => exact absurd rfl ha.1
  | sendFail => exact absurd rfl ha.1
  | recvFail => exact absurd rfl ha.1
  | parL p p' q k a h ih =>
    cases hst with | par sp _ _ => cases hg with | par gp _ _ => cases hw with | par _ _ _ wp _ _ => exact .parL _ _ _ _ _ (ih wp gp sp hr ha)
  | parR p q q' k a h ih =>
    cases hst with | par _ sq _ => cases hg with | par _ gq _ => cases hw with | par _ _ _ _ wq _ => exact .parR _ _ _ _ _ (ih wq gq sq hr ha)
  | join r s k => exact .join r s fun r s => (k r s).packets
  | abortL => exact absurd rfl ha.2
  | abortR => exact absurd rfl ha.2

theorem Proc.WF.packets {S : Sid → Prop} {p : Proc α} (h : p.WF S) : p.packets.WF S := by
  induction h with
  | done S r => exact .done _ _
  | send hs _ ih => exact .send hs ih
  | recv hs _ ih =>
    rw [Proc.packets]
    refine .recv hs fun f => ?_
    split
    · exact ih _
    · exact .done _ _
  | gather hs _ _ ih => exact .gather hs (fun L => ih _) fun got' L L' _ hL hL' => by rw [unpackedAll_congr hL hL']
  | par hdis h1 h2 _ _ _ ihp ihq ihk => exact .par hdis h1 h2 ihp ihq ihk

theorem Spec.Star.packets {p : Proc α} (h : Star n me p) : Star n me p.packets := by
  induction h with
  | done r => exact .done _
  | send hl _ ih => exact .send hl ih
  | recv hl _ ih =>
    rw [Proc.packets]
    refine .recv hl fun f => ?_
    split
    · exact ih _
    · exact .done _
  | gather hk _ ih => exact .gather hk fun L => ih _
  | par _ _ _ ihp ihq ihk => exact .par ihp ihq ihk

theorem qstep_packed {i : Nat} {a : Act} {Q Q' : Queues} (h : qstep i a Q = some Q') : qstep i a.packed Q.packed = some Q'.packed := by
  cases a with
  | tau => cases h; rfl
  | abort => cases h; rfl
  | fault => cases h; rfl
  | send d s b =>
    cases h
    simp only [Act.packed, qstep, Queues.packed]
    congr 1
    funext x
    by_cases hx : x = (i, d, s)
    · subst hx; simp [Queues.packed]
    · simp only [Queues.packed, Function.update_of_ne hx]
  | recv f s b =>
    simp only [qstep] at h
    split at h
    · cases h
    · rename_i y rest hQ
      split at h
      · rename_i e
        subst e
        cases h
        simp only [Act.packed, qstep, Queues.packed, hQ, List.map_cons, if_true]
        congr 1
        funext x
        by_cases hx : x = (f, i, s)
        · subst hx; simp [Queues.packed]
        · simp only [Queues.packed, Function.update_of_ne hx]
      · cases h

/-- The messages under way are in `P`, and stay so. -/
theorem qstep_mem {i : Nat} {a : Act} {Q Q' : Queues} (h : qstep i a Q = some Q') (hQ : ∀ x, ∀ b ∈ Q x, P b)
    (ha : ∀ d s b, a = .send d s b → P b) : (∀ x, ∀ b ∈ Q' x, P b) ∧ ∀ f s b, a = .recv f s b → P b := by
  cases a with
  | tau => cases h; exact ⟨hQ, by simp⟩
  | abort => cases h; exact ⟨hQ, by simp⟩
  | fault => cases h; exact ⟨hQ, by simp⟩
  | send d s b =>
    cases h
    refine ⟨fun x b' hb' => ?_, by simp⟩
    by_cases hx : x = (i, d, s)
    · subst hx
      rw [Function.update_self, List.mem_append, List.mem_singleton] at hb'
      rcases hb' with h | rfl
      · exact hQ _ _ h
      · exact ha _ _ _ rfl
    · rw [Function.update_of_ne hx] at hb'; exact hQ _ _ hb'
  | recv f s b =>
    simp only [qstep] at h
    split at h
    · cases h
    · rename_i y rest hq
      split at h
      · rename_i e
        subst e
        cases h
        refine ⟨fun x b' hb' => ?_, fun _ _ _ e => ?_⟩
        · by_cases hx : x = (f, i, s)
          · subst hx
            rw [Function.update_self] at hb'
            exact hQ (f, i, s) _ (by rw [hq]; exact List.mem_cons_of_mem _ hb')
          · rw [Function.update_of_ne hx] at hb'; exact hQ _ _ hb'
        · cases e
          exact hQ (f, i, s) _ (by rw [hq]; exact List.mem_cons_self)
      · cases h

/-- An execution of a protocol is an execution of the packed protocol. -/
theorem Reach.packed {P' : Bytes → Prop} (hn : 0 < n) (hP : ∀ b, P b → prodRecv (.frame (ZkSaas.inPacket b)) = .ok b)
    (hP' : ∀ b, P b → P' (ZkSaas.inPacket b)) {c c' : Net n α} (h : Reach P c c') (hs : ∀ i : Fin n, Star n i (c.procs i))
    (hw : ∀ i, ∃ S, (c.procs i).WF S) (hg : ∀ i, (c.procs i).Got P) (hQ : ∀ x, ∀ b ∈ c.queues x, P b) :
    Reach P' ⟨fun i => (c.procs i).packets, c.queues.packed⟩ ⟨fun i => (c'.procs i).packets, c'.queues.packed⟩ := by
  obtain ⟨k, h⟩ := h
  refine ⟨k, ?_⟩
  induction h with
  | refl => exact .refl _
  | step h1 _ ih =>
    cases h1 with
    | mk procs Q Q' i a p' ha hstep hq =>
      obtain ⟨hQ', hr⟩ := qstep_mem hq hQ ha.2
      refine .step ?_ (ih (fun j => ?_) (fun j => ?_) (fun j => ?_) hQ')
      · obtain ⟨S, hS⟩ := hw i
        have := GStep.mk (ok := CoreP P') (fun i => (procs i).packets) (Queues.packed Q) (Queues.packed Q') i a.packed p'.packets
          ⟨by cases a <;> simp_all [Core, Act.packed, CoreP], fun d s b e => by
            cases a with
            | send d' s' b' => cases e; exact hP' _ (ha.2 _ _ _ rfl)
            | tau => cases e
            | recv => cases e
            | abort => cases e
            | fault => cases e⟩
          (hstep.packed hP hS (hg i) (hs i) hn hr ha.1) (qstep_packed hq)
        have e : (fun j => (Function.update procs i p' j).packets) = Function.update (fun j => (procs j).packets) i p'.packets := by
          funext j
          by_cases hj : j = i
          · subst hj; rw [Function.update_self, Function.update_self]
          · rw [Function.update_of_ne hj, Function.update_of_ne hj]
        simp only
        rw [e]
        exact this
      · simp only
        by_cases hj : j = i
        · subst hj; rw [Function.update_self]; exact (hs j).step hstep
        · rw [Function.update_of_ne hj]; exact hs j
      · simp only
        by_cases hj : j = i
        · subst hj; rw [Function.update_self]
          obtain ⟨S, hS⟩ := hw j
          exact ⟨S, hstep.wf hS⟩
        · rw [Function.update_of_ne hj]; exact hw j
      · simp only
        by_cases hj : j = i
        · subst hj; rw [Function.update_self]; exact (hg j).step hstep hr
        · rw [Function.update_of_ne hj]; exact hg j

/-! ### Executions with short messages -/

/-- A program that always succeeds on a network of short messages has a successful core execution with short messages. -/
theorem core_run_of_alwaysYieldsWithin {lim : Nat} {c : Net n α} {rs : Fin n → α} (h : Spec.AlwaysYieldsWithin lim c rs) :
    ∃ Q, Reach (Upto lim) c ⟨fun i => .done (.ok (rs i)), Q⟩ := by
  obtain ⟨⟨m, hm⟩, hend⟩ := h
  have hcr : ∀ a, CoreP (Upto lim) a → Reliable a ∧ Within lim a := fun a ha => ⟨ha.1.1, ha.2⟩
  obtain ⟨k, t, ht, hst⟩ := exists_stuck (ok := CoreP (Upto lim)) fun k c' h => hm k c' (h.mono hcr)
  have htr := ht.mono hcr
  have hstuck : ¬ ∃ t', GStep (fun a => Reliable a ∧ Within lim a) t t' := by
    rintro ⟨t', h⟩
    have hbad : ∃ i, Bad (t.procs i) := by
      cases h with
      | mk procs Q Q' i a p' ha hstep hq =>
        by_cases hab : a = .abort
        · exact ⟨i, .inl (hstep.hasErr_of_abort hab)⟩
        · exact absurd ⟨_, .mk procs Q Q' i a p' ⟨⟨ha.1, hab⟩, ha.2⟩ hstep hq⟩ hst
    obtain ⟨i, hbad⟩ := hbad
    obtain ⟨k2, t2, ht2, hst2⟩ := exists_stuck (ok := fun a => Reliable a ∧ Within lim a) (c := t) (m := m) fun k' c' h' => by
      have := hm _ _ (htr.trans h'); omega
    have hb2 := (ht2.mono fun _ h => h.1).bad hbad
    rw [hend _ _ (htr.trans ht2) hst2 i] at hb2
    rcases hb2 with h | ⟨e, h⟩ <;> cases h
  refine ⟨t.queues, k, ?_⟩
  have : t = ⟨fun i => .done (.ok (rs i)), t.queues⟩ := by
    obtain ⟨procs, Q⟩ := t
    congr 1
    funext i
    exact hend k _ htr hstuck i
  rw [← this]
  exact ht

/-- An execution with short messages, and well-formedness, determine all executions on a network of short messages. -/
theorem alwaysYieldsWithin_of_run {B lim : Nat} (hB : B ≤ lim) {c : Net n α} (hc : c.WF) {rs : Fin n → α} {Q : Queues}
    (h : Reach (Upto B) c ⟨fun i => .done (.ok (rs i)), Q⟩) : Spec.AlwaysYieldsWithin lim c rs := by
  obtain ⟨m, hm⟩ := h
  obtain ⟨⟨m', h1⟩, h2⟩ := alwaysYields_of_run hc hm
  refine ⟨⟨m', fun k c' hk => h1 k c' (hk.mono fun _ ha => ha.1)⟩, fun k c' hk hs => h2 k c' (hk.mono fun _ ha => ha.1) ?_⟩
  rintro ⟨c'', hc'⟩
  refine hs ⟨c'', ?_⟩
  cases hc' with
  | mk procs Q Q' i a p' ha hstep hq =>
    refine .mk procs Q Q' i a p' ⟨ha, ?_⟩ hstep hq
    rintro d s b rfl
    exact le_trans (sends_of_run hc hm (hk.mono fun _ ha => ha.1) hstep) hB

/-! ### Programs that only ever send messages in `P` -/

/-- Whatever they receive, they send messages in `P`. -/
inductive Proc.Sends (P : Bytes → Prop) : {α : Type} → Proc α → Prop where
  | done {α : Type} (r : Res α) : Proc.Sends P (.done r)
  | send {α : Type} {dst : Nat} {sid : Sid} {b : Bytes} {k : Proc α} (hb : P b) (h : k.Sends P) : Proc.Sends P (.send dst sid b k)
  | recv {α : Type} {frm : Nat} {sid : Sid} {k : Bytes → Proc α} (h : ∀ b, (k b).Sends P) : Proc.Sends P (.recv frm sid k)
  | gather {α : Type} {sid : Sid} {n : Nat} {own : Bytes} {got : Nat → Option Bytes} {k : List (Nat × Bytes) → Proc α}
      (h : ∀ L, (k L).Sends P) : Proc.Sends P (.gather sid n own got k)
  | par {α β γ : Type} {p : Proc β} {q : Proc γ} {k : β → γ → Proc α} (hp : p.Sends P) (hq : q.Sends P) (hk : ∀ r s, (k r s).Sends P) :
      Proc.Sends P (.par p q k)

theorem Proc.Sends.step {p p' : Proc α} {a : Act} (h : p.Sends P) (hs : LStep p a p') : p'.Sends P ∧ ∀ d s b, a = .send d s b → P b := by
  induction hs with
  | send => cases h with | send hb h => exact ⟨h, fun _ _ _ e => by cases e; exact hb⟩
  | recv => cases h with | recv h => exact ⟨h _, by simp⟩
  | gatherRecv => cases h with | gather h => exact ⟨.gather h, by simp⟩
  | gatherDone => cases h with | gather h => exact ⟨h _, by simp⟩
  | gatherExpire => cases h with | gather h => exact ⟨h _, by simp⟩
  | sendFail => exact ⟨.done _, by simp⟩
  | recvFail => exact ⟨.done _, by simp⟩
  | parL _ _ _ _ _ _ ih => cases h with | par hp hq h => exact ⟨.par (ih hp).1 hq h, (ih hp).2⟩
  | parR _ _ _ _ _ _ ih => cases h with | par hp hq h => exact ⟨.par hp (ih hq).1 h, (ih hq).2⟩
  | join => cases h with | par _ _ h => exact ⟨h _ _, by simp⟩
  | abortL => exact ⟨.done _, by simp⟩
  | abortR => exact ⟨.done _, by simp⟩

theorem Proc.Sends.bind {p : Proc α} {f : α → Proc β} (hp : p.Sends P) (hf : ∀ a, (f a).Sends P) : (p.bind f).Sends P := by
  induction hp with
  | done r => cases r with
    | ok a => exact hf a
    | error e => exact .done _
  | send hb _ ih => exact .send hb (ih hf)
  | recv _ ih => exact .recv fun b => ih b hf
  | gather _ ih => exact .gather fun L => ih L hf
  | par hp hq _ _ _ ih => exact .par hp hq fun r s => ih r s hf

theorem Reach.sends {c c' : Net n α} (h : Reach All c c') (hs : ∀ i, (c.procs i).Sends P) : Reach P c c' := by
  obtain ⟨k, h⟩ := h
  refine ⟨k, ?_⟩
  induction h with
  | refl => exact .refl _
  | step h1 _ ih =>
    cases h1 with
    | mk procs Q Q' i a p' ha hstep hq =>
      refine .step (.mk procs Q Q' i a p' ⟨ha.1, ((hs i).step hstep).2⟩ hstep hq) (ih fun j => ?_)
      simp only
      by_cases hj : j = i
      · subst hj; rw [Function.update_self]; exact ((hs j).step hstep).1
      · rw [Function.update_of_ne hj]; exact hs j

theorem acceptPeers_sends (js : List Nat) (peers : List Peer) : (acceptPeers js peers).Sends P := by
  induction js generalizing peers with
  | nil => exact .done _
  | cons j js ih => exact .recv fun _ => .recv fun _ => .recv fun _ => .recv fun _ => ih _

theorem sendSyns_sends (hP : P ProtocolPacket.syn.enc) (peers : List Peer) : (sendSyns peers).Sends P := by
  induction peers with
  | nil => exact .done _
  | cons p ps ih =>
    rw [sendSyns]
    split
    · exact .done _
    · exact .send hP ih

theorem recvAcks_sends (peers : List Peer) : (recvAcks peers).Sends P := by
  induction peers with
  | nil => exact .done _
  | cons p ps ih =>
    rw [recvAcks]
    split
    · exact .done _
    · refine .recv fun b => ?_
      split
      · exact .done _
      · split
        · exact .done _
        · exact ih

theorem kingSetup_sends (hP : P ProtocolPacket.syn.enc) (order : List Peer → List Peer) (c : Nat) : (kingSetup order c).Sends P :=
  (acceptPeers_sends _ _).bind fun _ => (sendSyns_sends hP _).bind fun _ => (recvAcks_sends _).bind fun _ => .done _

theorem peerHandshake_sends {id : Nat} {reply : Bytes} (h1 : P (beBytes 4 id)) (h2 : P openStream) (h3 : P reply) :
    (peerHandshake id reply).Sends P := by
  refine .send h1 (.send h2 (.send h2 (.send h2 (.recv fun b => ?_))))
  split
  · exact .done _
  · split
    · exact .done _
    · exact .send h3 (.done _)

end ZkSaas
