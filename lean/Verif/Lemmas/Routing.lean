import Verif.Model.Routing
import Verif.Model.Bench
import Verif.Spec.Star
import Verif.Lemmas.ProdNet
import Verif.Lemmas.Protocols

/-!
# Protocols over the production network
-/

namespace ZkSaas

open Spec

variable {α β : Type} {n me : Nat}

/-! ### Programs on a star -/

theorem Spec.Star.bind {p : Proc α} {f : α → Proc β} (hp : Star n me p) (hf : ∀ a, Star n me (f a)) : Star n me (p.bind f) := by
  induction hp with
  | done r => cases r with
    | ok a => exact hf a
    | error e => exact .done _
  | send hl _ ih => exact .send hl (ih hf)
  | recv hl _ ih => exact .recv hl fun b => ih b hf
  | gather hking _ ih => exact .gather hking fun L => ih L hf
  | par hp hq _ _ _ ih => exact .par hp hq fun r s => ih r s hf

theorem Spec.Star.step {p p' : Proc α} {a : Act} (h : Star n me p) (hs : LStep p a p') : Star n me p' := by
  induction hs with
  | send => cases h with | send _ h => exact h
  | recv => cases h with | recv _ h => exact h _
  | gatherRecv => cases h with | gather hk h => exact .gather hk h
  | gatherDone => cases h with | gather _ h => exact h _
  | gatherExpire => cases h with | gather _ h => exact h _
  | sendFail => exact .done _
  | recvFail => exact .done _
  | parL _ _ _ _ _ _ ih => cases h with | par hp hq h => exact .par (ih hp) hq h
  | parR _ _ _ _ _ _ ih => cases h with | par hp hq h => exact .par hp (ih hq) h
  | join => cases h with | par _ _ h => exact h _ _
  | abortL => exact .done _
  | abortR => exact .done _

theorem clientSendOrKingReceive_star (n me : Nat) (bytes : Bytes) (sid : Sid) : Star n me (clientSendOrKingReceive n me bytes sid) := by
  unfold clientSendOrKingReceive
  split
  · exact .gather ‹_› fun L => .done _
  · exact .send (.inr ⟨‹_›, rfl⟩) (.done _)

theorem kingSendLoop_star (out : List Bytes) (m : Nat) (sid : Sid) (ids : List Nat) (hids : ∀ x ∈ ids, Linked n me x) :
    Star n me (kingSendLoop out m sid ids) := by
  induction ids with
  | nil => exact .done _
  | cons id ids ih =>
    show Star n me (Proc.bind (.done (rd out id)) _)
    refine Star.bind (.done _) fun b => ?_
    split
    · exact .done _
    · exact .send (hids id (by simp)) (ih fun x hx => hids x (List.mem_cons_of_mem _ hx))

theorem clientReceiveOrKingSend_star (n me : Nat) (out : Option (List Bytes)) (sid : Sid) :
    Star n me (clientReceiveOrKingSend n me out sid) := by
  unfold clientReceiveOrKingSend
  cases out with
  | none =>
    simp only
    split
    · exact .done _
    · exact .recv (.inr ⟨‹_›, rfl⟩) fun b => .done _
  | some out =>
    simp only
    split
    · exact .done _
    · rename_i h
      refine Star.bind (.done _) fun b => Star.bind (kingSendLoop_star _ _ _ _ fun x hx => ?_) fun _ => .done _
      rw [List.mem_filter, List.mem_range] at hx
      have h1 : me = 0 := not_not.1 h
      have h2 : x ≠ me := by simpa using hx.2
      exact .inl ⟨h1, by omega, hx.1⟩

theorem sendReceive_star {T : Type} [Wire T] (n me : Nat) (out : T) (sid : Sid) (threshold : Nat) :
    Star n me (clientSendOrKingReceiveSer n me out sid threshold) :=
  (clientSendOrKingReceive_star _ _ _ _).bind fun _ => .done _

theorem receiveSend_star {T : Type} [Wire T] (n me : Nat) (out : Option (List T)) (sid : Sid) :
    Star n me (clientReceiveOrKingSendSer n me out sid) :=
  (clientReceiveOrKingSend_star _ _ _ _).bind fun _ => .done _

theorem round_star {T U : Type} [Wire T] [Wire U] (sid : Sid) (threshold me : Nat) (x : T)
    (K : ReceivedShares T → Res (List U)) (f : U → Proc α) (hf : ∀ y, Star n me (f y)) :
    Star n me ((clientSendOrKingReceiveSer n me x sid threshold).bind fun r =>
      (Proc.done (kingDo K r)).bind fun a => (clientReceiveOrKingSendSer n me a sid).bind f) :=
  (sendReceive_star _ _ _ _ _).bind fun _ => (Star.done _).bind fun _ => (receiveSend_star _ _ _ _).bind hf

/-! ### A numbering of the connections -/

/-- The positions `at'` of the ids below `n` and the ids `of` of the positions; the king is at position `0`. -/
structure Numbering (n : Nat) (pos idf : Nat → Nat) : Prop where
  zero : pos 0 = 0
  idf_pos : ∀ i, idf (pos i) = i
  pos_idf : ∀ q, pos (idf q) = q
  lt : ∀ i, i < n → pos i < n
  idf_lt : ∀ q, q < n → idf q < n

namespace Numbering

variable {pos idf : Nat → Nat}

theorem idf_zero (h : Numbering n pos idf) : idf 0 = 0 := by have := h.idf_pos 0; rwa [h.zero] at this
theorem inj (h : Numbering n pos idf) {i j : Nat} (e : pos i = pos j) : i = j := by rw [← h.idf_pos i, e, h.idf_pos]
theorem idf_inj (h : Numbering n pos idf) {i j : Nat} (e : idf i = idf j) : i = j := by rw [← h.pos_idf i, e, h.pos_idf]
theorem pos_pos (h : Numbering n pos idf) {i : Nat} (hi : 1 ≤ i) : 1 ≤ pos i := by
  by_contra hc
  have : pos i = pos 0 := by rw [h.zero]; omega
  have := h.inj this
  omega
theorem idf_pos' (h : Numbering n pos idf) {i : Nat} (hi : 1 ≤ i) : 1 ≤ idf i := by
  by_contra hc
  have : idf i = idf 0 := by rw [h.idf_zero]; omega
  have := h.idf_inj this
  omega

end Numbering

/-- The table of party `me` leads to the positions of the parties it is linked to, and nowhere else. -/
structure Routes (n me : Nat) (pos : Nat → Nat) (rt : Nat → Res Nat) : Prop where
  linked : ∀ x, Linked n me x → rt x = .ok (pos x)
  king : me = 0 → ∀ x, rt 0 ≠ .ok x

/-- Position of the other end of an action. -/
def Act.at (pos : Nat → Nat) : Act → Act
  | .send d s b => .send (pos d) s b
  | .recv d s b => .recv (pos d) s b
  | a => a

theorem idReached_eq {pos idf : Nat → Nat} {rt : Nat → Res Nat} (hN : Numbering n pos idf) (hR : Routes n 0 pos rt) {q : Nat}
    (hq : q < n) : idReached rt n q = idf q := by
  unfold idReached
  by_cases h0 : q = 0
  · subst h0
    rw [hN.idf_zero, List.find?_eq_none.2]
    · rfl
    · intro i hi
      by_cases hi0 : i = 0
      · subst hi0
        cases h : rt 0 with
        | ok x => exact absurd h (hR.king rfl x)
        | error e => simp
      · rw [hR.linked i (.inl ⟨rfl, by omega, List.mem_range.1 hi⟩)]
        have := hN.pos_pos (i := i) (by omega)
        simp
        omega
  · have hid : 1 ≤ idf q := hN.idf_pos' (by omega)
    have hmem : idf q ∈ List.range n := List.mem_range.2 (hN.idf_lt q hq)
    cases hf : (List.range n).find? fun id => match rt id with | .ok x => x == q | .error _ => false with
    | none =>
      rw [List.find?_eq_none] at hf
      have := hf _ hmem
      rw [hR.linked _ (.inl ⟨rfl, hid, hN.idf_lt q hq⟩), hN.pos_idf] at this
      simp at this
    | some i =>
      have h1 := List.find?_some hf
      have h2 := List.mem_range.1 (List.mem_of_find?_eq_some hf)
      by_cases hi0 : i = 0
      · subst hi0
        cases h : rt 0 with
        | ok x => exact absurd h (hR.king rfl x)
        | error e => simp [h] at h1
      · rw [hR.linked i (.inl ⟨rfl, by omega, h2⟩)] at h1
        simp at h1
        rw [← h1, hN.idf_pos]
        rfl

theorem idReached_large {pos idf : Nat → Nat} {rt : Nat → Res Nat} (hN : Numbering n pos idf) (hR : Routes n 0 pos rt) {q : Nat}
    (hq : n ≤ q) : idReached rt n q = 0 := by
  unfold idReached
  rw [List.find?_eq_none.2]
  · rfl
  · intro i hi
    by_cases hi0 : i = 0
    · subst hi0
      cases h : rt 0 with
      | ok x => exact absurd h (hR.king rfl x)
      | error e => simp
    · have := List.mem_range.1 hi
      rw [hR.linked i (.inl ⟨rfl, by omega, this⟩)]
      have := hN.lt i this
      simp
      omega

theorem mem_of_lookup_eq_some {L : List (Nat × Bytes)} {x : Nat} {b : Bytes} (h : L.lookup x = some b) : (x, b) ∈ L := by
  induction L with
  | nil => cases h
  | cons e L ih =>
    obtain ⟨y, b'⟩ := e
    rw [List.lookup_cons] at h
    split at h
    · rename_i hxy
      cases h
      rw [beq_iff_eq] at hxy
      subst hxy
      exact List.mem_cons_self
    · exact List.mem_cons_of_mem _ (ih h)

theorem byId_congr (rt : Nat → Res Nat) {own : Bytes} {got : Nat → Option Bytes} {L L' : List (Nat × Bytes)}
    (h : Enumerates n own got L) (h' : Enumerates n own got L') : byId rt n L = byId rt n L' := by
  have hl : ∀ x, L.lookup x = L'.lookup x := by
    intro x
    cases hx : L.lookup x with
    | some b =>
      have := mem_of_lookup_eq_some hx
      rw [lookup_of_mem h'.1 ((h'.2 x b).2 ((h.2 x b).1 this))]
    | none =>
      cases hx' : L'.lookup x with
      | none => rfl
      | some b =>
        have := mem_of_lookup_eq_some hx'
        rw [lookup_of_mem h.1 ((h.2 x b).2 ((h'.2 x b).1 this))] at hx
        cases hx
  unfold byId
  congr 1
  funext id
  simp only [entryFor, hl]

/-- From positions back to ids. -/
theorem Enumerates.ids {pos idf : Nat → Nat} {rt : Nat → Res Nat} (hN : Numbering n pos idf) (hR : Routes n 0 pos rt) (hn : 0 < n)
    {own : Bytes} {got : Nat → Option Bytes} {L : List (Nat × Bytes)} (h : Enumerates n own got L) :
    Enumerates n own (fun i => got (pos i)) (byId rt n L) := by
  have h0 : L.lookup 0 = some own := lookup_of_mem h.1 ((h.2 0 own).2 (.inl ⟨rfl, rfl⟩))
  have hx : ∀ x b, 1 ≤ x → x < n → (L.lookup x = some b ↔ got x = some b) := by
    intro x b h1 h2
    constructor
    · intro e
      rcases (h.2 x b).1 (mem_of_lookup_eq_some e) with ⟨e, -⟩ | ⟨-, -, e⟩
      · omega
      · exact e
    · intro e
      exact lookup_of_mem h.1 ((h.2 x b).2 (.inr ⟨h1, h2, e⟩))
  have hfst : ∀ id e, entryFor rt L id = some e → e.1 = id := by
    intro id e he
    unfold entryFor at he
    split at he
    · rename_i h; subst h
      obtain ⟨b, -, rfl⟩ := Option.map_eq_some_iff.1 he
      rfl
    · split at he
      · obtain ⟨b, -, rfl⟩ := Option.map_eq_some_iff.1 he
        rfl
      · cases he
  refine ⟨?_, fun i b => ?_⟩
  · have hsub : ((byId rt n L).map Prod.fst).Sublist (List.range n) := by
      unfold byId
      generalize List.range n = M
      induction M with
      | nil => simp
      | cons id M ih =>
        cases hf : entryFor rt L id with
        | none => rw [List.filterMap_cons_none hf]; exact ih.cons _
        | some e =>
          rw [List.filterMap_cons_some hf, List.map_cons, hfst id e hf]
          exact ih.cons_cons _
    exact List.nodup_range.sublist hsub
  · unfold byId
    rw [List.mem_filterMap]
    constructor
    · rintro ⟨id, hid, he⟩
      have := hfst id _ he
      simp only at this
      subst this
      unfold entryFor at he
      by_cases hi : i = 0
      · subst hi
        rw [if_pos rfl, h0] at he
        cases he
        exact .inl ⟨rfl, rfl⟩
      · have hlt := List.mem_range.1 hid
        rw [if_neg hi, hR.linked i (.inl ⟨rfl, by omega, hlt⟩)] at he
        obtain ⟨b', hb', e⟩ := Option.map_eq_some_iff.1 he
        cases e
        exact .inr ⟨by omega, hlt, (hx _ _ (hN.pos_pos (by omega)) (hN.lt i hlt)).1 hb'⟩
    · rintro (⟨rfl, rfl⟩ | ⟨h1, h2, h3⟩)
      · exact ⟨0, List.mem_range.2 hn, by rw [entryFor, if_pos rfl, h0]; rfl⟩
      · refine ⟨i, List.mem_range.2 h2, ?_⟩
        rw [entryFor, if_neg (by omega), hR.linked i (.inl ⟨rfl, h1, h2⟩)]
        simp only [(hx _ _ (hN.pos_pos h1) (hN.lt i h2)).2 h3]
        rfl

/-- From ids to positions. -/
theorem Enumerates.positions {pos idf : Nat → Nat} {rt : Nat → Res Nat} (hN : Numbering n pos idf) (hR : Routes n 0 pos rt)
    (hn : 0 < n) {own : Bytes} {got : Nat → Option Bytes} {L : List (Nat × Bytes)} (h : Enumerates n own got L) :
    ∃ L', Enumerates n own (fun q => got (idReached rt n q)) L' ∧ Enumerates n own got (byId rt n L') := by
  suffices hs : Enumerates n own (fun q => got (idReached rt n q)) (L.map fun e => (pos e.1, e.2)) by
    refine ⟨_, hs, ?_⟩
    have := hs.ids hN hR hn
    refine ⟨this.1, fun i b => (this.2 i b).trans (or_congr Iff.rfl (and_congr_right fun h1 => and_congr_right fun h2 => ?_))⟩
    dsimp only
    rw [idReached_eq hN hR (hN.lt i h2), hN.idf_pos]
  refine ⟨?_, fun q b => ?_⟩
  · rw [List.map_map]
    have : (L.map (Prod.fst ∘ fun e : Nat × Bytes => (pos e.1, e.2))) = (L.map Prod.fst).map pos := by
      rw [List.map_map]; rfl
    rw [this]
    exact h.1.map fun a b e => hN.inj e
  · rw [List.mem_map]
    constructor
    · rintro ⟨⟨i, b'⟩, he, e⟩
      cases e
      rcases (h.2 i b').1 he with ⟨rfl, rfl⟩ | ⟨h1, h2, h3⟩
      · exact .inl ⟨hN.zero, rfl⟩
      · exact .inr ⟨hN.pos_pos h1, hN.lt i h2, by dsimp only; rw [idReached_eq hN hR (hN.lt i h2), hN.idf_pos]; exact h3⟩
    · rintro (⟨rfl, rfl⟩ | ⟨h1, h2, h3⟩)
      · exact ⟨(0, b), (h.2 0 b).2 (.inl ⟨rfl, rfl⟩), by rw [hN.zero]⟩
      · dsimp only at h3
        rw [idReached_eq hN hR h2] at h3
        exact ⟨(idf q, b), (h.2 (idf q) b).2 (.inr ⟨hN.idf_pos' h1, hN.idf_lt q h2, h3⟩), by rw [hN.pos_idf]⟩

/-- A step of a program is a step over the connections. -/
theorem LStep.over {pos idf : Nat → Nat} {rt : Nat → Res Nat} (hn : 0 < n) (hN : Numbering n pos idf) (hR : Routes n me pos rt)
    {S : Sid → Prop} {p p' : Proc α} {a : Act} (hs : LStep p a p') (hp : Star n me p) (hw : p.WF S) (ha : Core a) : LStep (p.over rt) (a.at pos) (p'.over rt) := by
  induction hs generalizing S with
  | send dst sid b k =>
    cases hp with | send hl _ =>
    simp only [Proc.over, hR.linked _ hl]
    exact .send _ _ _ _
  | recv frm sid b k =>
    cases hp with | recv hl _ =>
    simp only [Proc.over, hR.linked _ hl]
    exact .recv _ _ b fun b => (k b).over rt
  | gatherRecv sid m own got k i b h1 h2 h3 =>
    cases hp with | gather hk _ =>
    subst hk
    simp only [Proc.over]
    have e : (fun q => Function.update got i (some b) (idReached rt n q)) =
        Function.update (fun q => got (idReached rt n q)) (pos i) (some b) := by
      funext q
      by_cases hq : q = pos i
      · subst hq
        rw [Function.update_self, idReached_eq hN hR (hN.lt i h2), hN.idf_pos, Function.update_self]
      · rw [Function.update_of_ne hq, Function.update_of_ne]
        intro e
        by_cases hqn : q < n
        · rw [idReached_eq hN hR hqn] at e
          exact hq (by rw [← e, hN.pos_idf])
        · rw [idReached_large hN hR (by omega)] at e
          omega
    rw [e]
    exact .gatherRecv _ _ _ _ _ _ _ (hN.pos_pos h1) (hN.lt i h2) (by rw [idReached_eq hN hR (hN.lt i h2), hN.idf_pos]; exact h3)
  | gatherDone sid m own got k L hfull hL =>
    cases hp with | gather hk _ =>
    subst hk
    simp only [Proc.over]
    obtain ⟨L', hL', e⟩ := hL.positions hN hR hn
    have := LStep.gatherDone sid n own (fun q => got (idReached rt n q))
      (fun L => (k (byId rt n L)).over rt) L'
      (fun q h1 h2 => by rw [idReached_eq hN hR h2]; exact hfull _ (hN.idf_pos' h1) (hN.idf_lt q h2)) hL'
    cases hw with | gather _ _ hord =>
    rw [hord got L _ hfull hL e]
    exact this
  | gatherExpire => exact absurd rfl ha.1
  | sendFail => exact absurd rfl ha.1
  | recvFail => exact absurd rfl ha.1
  | parL p p' q k a h ih => cases hp with | par hp hq _ => cases hw with | par _ _ _ wp wq _ => exact .parL _ _ _ _ _ (ih hp wp ha)
  | parR p q q' k a h ih => cases hp with | par hp hq _ => cases hw with | par _ _ _ wp wq _ => exact .parR _ _ _ _ _ (ih hq wq ha)
  | join r s k => exact .join r s fun r s => (k r s).over rt
  | abortL => exact absurd rfl ha.2
  | abortR => exact absurd rfl ha.2

theorem Proc.WF.over {S : Sid → Prop} (rt : Nat → Res Nat) {p : Proc α} (h : p.WF S) : (p.over rt).WF S := by
  induction h with
  | done S r => exact .done _ _
  | send hs _ ih =>
    rw [Proc.over]
    split
    · exact .send hs ih
    · exact .done _ _
  | recv hs _ ih =>
    rw [Proc.over]
    split
    · exact .recv hs ih
    · exact .done _ _
  | gather hs _ _ ih => exact .gather hs (fun L => ih _) fun got' L L' _ hL hL' => by rw [byId_congr rt hL hL']
  | par hdis h1 h2 _ _ _ ihp ihq ihk => exact .par hdis h1 h2 ihp ihq ihk

/-- The queues by positions. -/
def Queues.at (idf : Nat → Nat) (Q : Queues) : Queues := fun x => Q (idf x.1, idf x.2.1, x.2.2)

theorem Queues.at_update {pos idf : Nat → Nat} (hN : Numbering n pos idf) (Q : Queues) (x y : Nat) (s : Sid) (l : List Bytes) :
    Queues.at idf (Function.update Q (x, y, s) l) = Function.update (Queues.at idf Q) (pos x, pos y, s) l := by
  funext ⟨u, v, w⟩
  simp only [Queues.at, Function.update_apply, Prod.mk.injEq]
  have e : ∀ a b, (idf a = b) = (a = pos b) := fun a b => propext
    ⟨fun e => by rw [← e, hN.pos_idf], fun e => by rw [e, hN.idf_pos]⟩
  simp only [e]

theorem qstep_at {pos idf : Nat → Nat} (hN : Numbering n pos idf) {i : Nat} {a : Act} {Q Q' : Queues} (h : qstep i a Q = some Q') :
    qstep (pos i) (a.at pos) (Queues.at idf Q) = some (Queues.at idf Q') := by
  cases a with
  | send d s b =>
    simp only [qstep, Option.some.injEq] at h
    subst h
    rw [Queues.at_update hN]
    simp only [Act.at, qstep, Queues.at, hN.idf_pos]
  | recv d s b =>
    simp only [Act.at, qstep] at h ⊢
    have e : Queues.at idf Q (pos d, pos i, s) = Q (d, i, s) := by simp only [Queues.at, hN.idf_pos]
    rw [e]
    cases hQ : Q (d, i, s) with
    | nil => rw [hQ] at h; exact absurd h (by simp)
    | cons x rest =>
      rw [hQ] at h
      simp only at h ⊢
      split at h
      · rename_i hx
        rw [if_pos hx]
        simp only [Option.some.injEq] at h
        subst h
        rw [Queues.at_update hN]
      · exact absurd h (by simp)
  | tau => cases h; rfl
  | abort => cases h; rfl
  | fault => cases h; rfl

/-- An execution of a protocol is an execution over the connections. -/
theorem Reach.over {P : Bytes → Prop} {pos idf : Nat → Nat} (hn : 0 < n) (hN : Numbering n pos idf) (rt : Fin n → Nat → Res Nat)
    (hR : ∀ i : Fin n, Routes n i pos (rt i)) {c c' : Net n α} (h : Reach P c c') (hs : ∀ i : Fin n, Star n i (c.procs i))
    (hw : ∀ i, ∃ S, (c.procs i).WF S) :
    Reach P ⟨fun q => (c.procs ⟨idf q, hN.idf_lt q q.2⟩).over (rt ⟨idf q, hN.idf_lt q q.2⟩), Queues.at idf c.queues⟩
      ⟨fun q => (c'.procs ⟨idf q, hN.idf_lt q q.2⟩).over (rt ⟨idf q, hN.idf_lt q q.2⟩), Queues.at idf c'.queues⟩ := by
  obtain ⟨k, h⟩ := h
  refine ⟨k, ?_⟩
  induction h with
  | refl => exact .refl _
  | step h1 _ ih =>
    cases h1 with
    | mk procs Q Q' i a p' ha hstep hq =>
      refine .step ?_ (ih (fun j => ?_) fun j => ?_)
      · obtain ⟨S, hS⟩ := hw i
        have hst := hstep.over hn hN (hR i) (hs i) hS ha.1
        have ei : (⟨idf (pos i), hN.idf_lt _ (hN.lt i i.2)⟩ : Fin n) = i := Fin.ext (hN.idf_pos i)
        have := GStep.mk (ok := CoreP P)
          (fun q : Fin n => (procs ⟨idf q, hN.idf_lt q q.2⟩).over (rt ⟨idf q, hN.idf_lt q q.2⟩)) (Queues.at idf Q) (Queues.at idf Q')
          ⟨pos i, hN.lt i i.2⟩ (a.at pos) (p'.over (rt i)) ⟨by cases a <;> simp_all [Core, Act.at, CoreP], fun d s b e => by
            cases a with
            | send d' s' b' => cases e; exact ha.2 _ _ _ rfl
            | _ => cases e⟩
          (by simp only [ei]; exact hst) (qstep_at hN hq)
        have e : (fun q : Fin n => (Function.update procs i p' ⟨idf q, hN.idf_lt q q.2⟩).over (rt ⟨idf q, hN.idf_lt q q.2⟩)) =
            Function.update (fun q : Fin n => (procs ⟨idf q, hN.idf_lt q q.2⟩).over (rt ⟨idf q, hN.idf_lt q q.2⟩))
              ⟨pos i, hN.lt i i.2⟩ (p'.over (rt i)) := by
          funext q
          by_cases hq : q = ⟨pos i, hN.lt i i.2⟩
          · subst hq
            rw [Function.update_self]
            simp only [ei, Function.update_self]
          · rw [Function.update_of_ne hq, Function.update_of_ne]
            intro e
            apply hq
            apply Fin.ext
            have := congrArg Fin.val e
            simp only at this
            show q.val = pos i
            rw [← this, hN.pos_idf]
        simp only
        rw [e]
        exact this
      · simp only
        by_cases hj : j = i
        · subst hj; rw [Function.update_self]; exact (hs j).step hstep
        · rw [Function.update_of_ne hj]; exact hs j
      · simp only
        by_cases hj : j = i
        · subst hj; rw [Function.update_self]
          obtain ⟨S, hS⟩ := hw j
          exact ⟨S, hstep.wf hS⟩
        · rw [Function.update_of_ne hj]; exact hw j

/-! ### Set-up, then the protocol -/

/-- All peers answer with a SynAck: the queues are empty again. -/
theorem reach_acks_ok {c : Nat} (f : Unit → Proc (List Peer)) (peers : List Peer) (conns : List Nat)
    (hpeers : peers.map Peer.streams = conns.map some) (hjs : ∀ j ∈ conns, j < c) (hnd : conns.Nodup)
    (ps : Fin (c + 1) → Proc (List Peer)) (Q : Queues) (hQ : ∀ i, Q (i, 0, .zero) = [])
    (h0 : ps 0 = (recvAcks peers).bind f)
    (hp : ∀ j (h : j < c), j ∈ conns → ps (conn j h) = replySyn ProtocolPacket.synAck.enc) :
    ∃ ps', Reach All ⟨ps, Q⟩ ⟨ps', Q⟩ ∧ ps' 0 = f () ∧
      (∀ j (h : j < c), j ∈ conns → ps' (conn j h) = .done (.ok [⟨0, some 0⟩])) ∧
      (∀ j (h : j < c), j ∉ conns → ps' (conn j h) = ps (conn j h)) := by
  induction peers generalizing conns ps with
  | nil =>
    obtain rfl : conns = [] := by simpa using hpeers.symm
    exact ⟨ps, .refl _, by rw [h0]; rfl, by simp, fun _ _ _ => rfl⟩
  | cons p peers ih =>
    obtain _ | ⟨j, js⟩ := conns
    · simp at hpeers
    rw [List.map_cons, List.map_cons, List.cons.injEq] at hpeers
    have hj : j < c := hjs j (by simp)
    have hne : conn j hj ≠ (0 : Fin (c + 1)) := conn_ne_zero
    rw [recvAcks, hpeers.1] at h0
    simp only [Proc.bind] at h0
    obtain ⟨ps1, s1, b1, a1, o1⟩ := reach_transfer' (ps := ps) (Q := Q) (conn j hj) 0 hne .zero _ _ _ (hp j hj (by simp)) h0 (hQ _)
    simp only [recvPacket_enc _ (.inr rfl), ne_eq, not_true_eq_false, if_false] at a1
    have other : ∀ i, i ≠ 0 → i ≠ conn j hj → ps1 i = ps i := fun i h1 h2 => o1 i h2 h1
    obtain ⟨ps', r, h1, h2, h3⟩ := ih js hpeers.2 (fun x hx => hjs x (List.mem_cons_of_mem _ hx)) (List.nodup_cons.1 hnd).2
      ps1 a1 (fun x hx hmem => by
        rw [other _ conn_ne_zero (conn_ne (by rintro rfl; exact (List.nodup_cons.1 hnd).1 hmem))]
        exact hp x hx (List.mem_cons_of_mem _ hmem))
    refine ⟨ps', s1.trans r, h1, fun x hx hmem => ?_, fun x hx hmem => ?_⟩
    · rcases List.mem_cons.1 hmem with rfl | hmem
      · rw [h3 x hx (List.nodup_cons.1 hnd).1, b1]
      · exact h2 x hx hmem
    · rw [List.mem_cons, not_or] at hmem
      rw [h3 x hx hmem.2, other _ conn_ne_zero (conn_ne hmem.1)]

theorem perm_map_some {L : List (Option Nat)} {js : List Nat} (hp : L.Perm (js.map some)) :
    ∃ js' : List Nat, L = js'.map some ∧ js'.Perm js := by
  refine ⟨L.filterMap id, ?_, ?_⟩
  · have hall : ∀ x ∈ L, ∃ j, x = some j := by
      intro x hx
      obtain ⟨j, -, rfl⟩ := List.mem_map.1 (hp.subset hx)
      exact ⟨j, rfl⟩
    clear hp
    induction L with
    | nil => rfl
    | cons x L ih =>
      obtain ⟨j, rfl⟩ := hall x (by simp)
      rw [List.filterMap_cons_some (f := id) (a := some j) (b := j) rfl, List.map_cons, ← ih fun y hy => hall y (List.mem_cons_of_mem _ hy)]
  · have := hp.filterMap id
    have e : (js.map some).filterMap id = js := by
      rw [List.filterMap_map]; exact List.filterMap_some
    rwa [e] at this

/-- One execution of set-up with distinct ids, after which nothing is in transit. -/
theorem setup_runs (c : Nat) (ids : Nat → Nat) (hids : ∀ j < c, ids j < 2 ^ 32) (hnd : ∀ j < c, ∀ j' < c, ids j = ids j' → j = j')
    (order : List Peer → List Peer) (horder : ∀ l, (order l).Perm l) :
    Reach All (Net.init fun i : Fin (c + 1) =>
        if i = 0 then kingSetup order c else peerHandshake (ids (i.val - 1)) ProtocolPacket.synAck.enc)
      (Net.init fun i : Fin (c + 1) => if i = 0 then .done (.ok (accepted ids c)) else .done (.ok [⟨0, some 0⟩])) := by
  obtain ⟨js, hjs, hndj, hmem⟩ := accepted_streams ids c
  have hmem1 : ∀ j, j ∈ js ↔ j < c := fun j => (hmem j).trans
    ⟨fun h => h.1, fun h => ⟨h, fun j' ha hb e => by have := hnd j' hb j h e; omega⟩⟩
  obtain ⟨js', hjs', hperm⟩ : ∃ js' : List Nat, (order (accepted ids c)).map Peer.streams = js'.map some ∧ js'.Perm js := by
    have hp : ((order (accepted ids c)).map Peer.streams).Perm (js.map some) := by
      rw [← hjs]; exact (horder _).map _
    exact perm_map_some hp
  have hnd' : js'.Nodup := hperm.nodup_iff.2 hndj
  have hmem' : ∀ j, j ∈ js' ↔ j < c := fun j => (hperm.mem_iff).trans (hmem1 j)
  obtain ⟨ps1, r1, a1, b1, -⟩ := reach_accept (c := c) ids hids (fun _ => ProtocolPacket.synAck.enc)
    (fun peers => (sendSyns (order peers)).bind fun _ => (recvAcks (order peers)).bind fun _ => .done (.ok peers))
    (List.range c) (fun j h => List.mem_range.1 h) List.nodup_range []
    (fun i : Fin (c + 1) => if i = 0 then kingSetup order c else peerHandshake (ids (i.val - 1)) ProtocolPacket.synAck.enc)
    (fun _ => []) (fun _ => rfl) (by simp only [if_true]; rfl)
    (fun j h _ => by simp only [if_neg (conn_ne_zero (h := h))]; rfl)
  obtain ⟨ps2, r2, a2, b2, -⟩ := reach_syns (c := c) (fun _ => ProtocolPacket.synAck.enc) _ (order (accepted ids c)) js' hjs'
    (fun j h => (hmem' j).1 h) hnd' ps1 (fun _ => []) (fun _ => rfl) a1 (fun j h _ => b1 j h (List.mem_range.2 h))
  obtain ⟨ps3, r3, a3, b3, -⟩ := reach_acks_ok (c := c) _ (order (accepted ids c)) js' hjs'
    (fun j h => (hmem' j).1 h) hnd' ps2 (fun _ => []) (fun _ => rfl) a2 b2
  have e : ps3 = fun i : Fin (c + 1) => if i = 0 then .done (.ok (accepted ids c)) else .done (.ok [⟨0, some 0⟩]) := by
    funext i
    by_cases hi : i = 0
    · subst hi; rw [a3, if_pos rfl]; rfl
    · obtain ⟨j, hj, rfl⟩ := conn_of i hi
      rw [if_neg hi, b3 j hj ((hmem' j).2 hj)]
  rw [e] at r3
  exact (r1.trans r2).trans r3

/-- The numbering of a star whose connections announce `σ`. -/
theorem numbering {c : Nat} {σ : Nat → Nat} (hσ : ((List.range c).map σ).Perm ((List.range c).map (· + 1))) :
    ∃ pos idf, Numbering (c + 1) pos idf ∧ (∀ j < c, pos (σ j) = j + 1) ∧ ∀ j < c, idf (j + 1) = σ j := by
  classical
  have hmem : ∀ j < c, 1 ≤ σ j ∧ σ j ≤ c := fun j hj => by
    have : σ j ∈ (List.range c).map (· + 1) := hσ.subset (List.mem_map.2 ⟨j, List.mem_range.2 hj, rfl⟩)
    obtain ⟨x, hx, e⟩ := List.mem_map.1 this
    have := List.mem_range.1 hx
    omega
  have hsur : ∀ i, 1 ≤ i → i ≤ c → ∃ j < c, σ j = i := fun i h1 h2 => by
    have : i ∈ (List.range c).map σ := hσ.symm.subset (List.mem_map.2 ⟨i - 1, List.mem_range.2 (by omega), by omega⟩)
    obtain ⟨x, hx, e⟩ := List.mem_map.1 this
    exact ⟨x, List.mem_range.1 hx, e⟩
  have hinj : ∀ j < c, ∀ j' < c, σ j = σ j' → j = j' := by
    have hnd : ((List.range c).map σ).Nodup := hσ.nodup_iff.2 (List.nodup_range.map (fun a b h => by simpa using h))
    intro j hj j' hj' e
    exact List.inj_on_of_nodup_map hnd (List.mem_range.2 hj) (List.mem_range.2 hj') e
  choose! inv hinv hinv' using hsur
  have hpos : ∀ j < c, inv (σ j) = j := fun j hj => by
    obtain ⟨h1, h2⟩ := hmem j hj
    exact hinj _ (hinv _ h1 h2) j hj (hinv' _ h1 h2)
  refine ⟨fun i => if i = 0 ∨ c < i then i else inv i + 1, fun q => if q = 0 ∨ c < q then q else σ (q - 1), ⟨?_, ?_, ?_, ?_, ?_⟩, ?_, ?_⟩
  · simp
  · intro i
    by_cases h : i = 0 ∨ c < i
    · simp only [if_pos h]
    · have h1 := hinv i (by omega) (by omega)
      simp only [if_neg h]
      rw [if_neg (by omega), Nat.add_sub_cancel, hinv' i (by omega) (by omega)]
  · intro q
    by_cases h : q = 0 ∨ c < q
    · simp only [if_pos h]
    · have h1 := hmem (q - 1) (by omega)
      simp only [if_neg h]
      rw [if_neg (by omega), hpos _ (by omega)]
      omega
  · intro i hi
    by_cases h : i = 0 ∨ c < i
    · simp only [if_pos h]; exact hi
    · simp only [if_neg h]
      have := hinv i (by omega) (by omega)
      omega
  · intro q hq
    by_cases h : q = 0 ∨ c < q
    · simp only [if_pos h]; exact hq
    · simp only [if_neg h]
      have := hmem (q - 1) (by omega)
      omega
  · intro j hj
    have := hmem j hj
    simp only
    rw [if_neg (by omega), hpos j hj]
  · intro j hj
    simp only
    rw [if_neg (by omega)]
    rfl

end ZkSaas
