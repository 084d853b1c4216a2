import Verif.Spec.Latency
import Verif.Lemmas.Rounds
import Verif.Lemmas.Trace

/-! Programs with a clock. -/

set_option linter.unusedSectionVars false

namespace ZkSaas

open Spec

variable {n : Nat} {α β γ : Type}

/-! ### Stamps -/

theorem arrival_stamp (t : Nat) (b : Bytes) : arrival (stamp t b) = t := by
  unfold arrival stamp
  induction t with
  | zero => rfl
  | succ t ih => rw [List.replicate_succ, List.cons_append, List.takeWhile_cons_of_pos (by rfl), List.length_cons, ih]

theorem unstamp_stamp (t : Nat) (b : Bytes) : unstamp (stamp t b) = b := by
  unfold unstamp
  rw [arrival_stamp]
  unfold stamp
  rw [List.drop_append, List.drop_eq_nil_of_le (by simp), List.length_replicate, Nat.add_sub_cancel_left]
  rfl

theorem foldr_max_perm {L L' : List Nat} (h : L.Perm L') (t : Nat) : L.foldr max t = L'.foldr max t := by
  induction h with
  | nil => rfl
  | cons x _ ih => simp only [List.foldr_cons, ih]
  | swap x y l => simp only [List.foldr_cons]; omega
  | trans _ _ ih ih' => exact ih.trans ih'

theorem Enumerates.perm {own : Bytes} {got : Nat → Option Bytes} {L L' : List (Nat × Bytes)} (h : Enumerates n own got L)
    (h' : Enumerates n own got L') : L.Perm L' :=
  (List.perm_ext_iff_of_nodup h.1.of_map h'.1.of_map).2 fun x => (h.2 x.1 x.2).trans (h'.2 x.1 x.2).symm

theorem Enumerates.unstamp {own : Bytes} {t : Nat} {got : Nat → Option Bytes} {L : List (Nat × Bytes)}
    (h : Enumerates n (stamp t own) got L) :
    Enumerates n own (fun i => (got i).map Spec.unstamp) (L.map fun e => (e.1, Spec.unstamp e.2)) := by
  refine ⟨by rw [List.map_map]; exact h.1, fun i b => ?_⟩
  rw [List.mem_map]
  constructor
  · rintro ⟨⟨j, x⟩, hx, he⟩
    simp only [Prod.mk.injEq] at he
    obtain ⟨rfl, rfl⟩ := he
    rcases (h.2 j x).1 hx with ⟨h1, h2⟩ | ⟨h1, h2, h3⟩
    · exact .inl ⟨h1, by rw [h2, unstamp_stamp]⟩
    · exact .inr ⟨h1, h2, by simp only [h3, Option.map_some]⟩
  · rintro (⟨h1, h2⟩ | ⟨h1, h2, h3⟩)
    · exact ⟨(0, stamp t own), (h.2 _ _).2 (.inl ⟨rfl, rfl⟩), by rw [h1, h2, unstamp_stamp]⟩
    · obtain ⟨x, hx, rfl⟩ := Option.map_eq_some_iff.1 h3
      exact ⟨(i, x), (h.2 _ _).2 (.inr ⟨h1, h2, hx⟩), rfl⟩

theorem Proc.WF.timed {S : Sid → Prop} {p : Proc α} (h : p.WF S) (t : Nat) : (p.timed t).WF S := by
  induction h generalizing t with
  | done S r => exact .done _ _
  | send hs h ih => exact .send hs (ih t)
  | recv hs h ih => exact .recv hs fun b => ih _ _
  | gather hs h hk ih =>
    refine .gather hs (fun L => ih _ _) fun got' L L' h1 h2 h3 => ?_
    rw [hk (fun i => (got' i).map unstamp) _ _ (fun i h4 h5 h6 => h1 i h4 h5 (by simpa using h6)) h2.unstamp h3.unstamp,
      foldr_max_perm ((h2.perm h3).map _)]
  | par hdis h1 h2 hp hq hk ihp ihq ihk => exact .par hdis h1 h2 (ihp t) (ihq t) fun r s => ihk _ _ _

/-! ### Clocks change nothing -/

/-- `q` is `p` with a clock, in the middle of an execution. -/
inductive Stamped : {α : Type} → Proc α → Proc (α × Nat) → Prop where
  | base {α : Type} (p : Proc α) (t : Nat) : Stamped p (p.timed t)
  | gather {α : Type} {sid : Sid} {n : Nat} {own : Bytes} {got got' : Nat → Option Bytes} (h : ∀ i, (got' i).map unstamp = got i)
      (k : List (Nat × Bytes) → Proc α) (t : Nat) :
      Stamped (.gather sid n own got k) (.gather sid n (stamp t own) got' fun L =>
        (k (L.map fun e => (e.1, unstamp e.2))).timed ((L.map fun e => arrival e.2).foldr max t))
  | par {α β γ : Type} {p : Proc β} {p' : Proc (β × Nat)} {q : Proc γ} {q' : Proc (γ × Nat)} (hp : Stamped p p') (hq : Stamped q q')
      (k : β → γ → Proc α) : Stamped (.par p q k) (.par p' q' fun x y => (k x.1 y.1).timed (max x.2 y.2))

/-- The same action without stamps. -/
def Act.unstamp : Act → Act
  | .send d s b => .send d s (Spec.unstamp b)
  | .recv f s b => .recv f s (Spec.unstamp b)
  | a => a

theorem map_stamp (got : Option Bytes) (t : Nat) : (got.map (stamp t)).map unstamp = got := by
  cases got with
  | none => rfl
  | some b => simp [unstamp_stamp]

/-- Executions with clocks are executions. -/
theorem Stamped.back {p : Proc α} {q q' : Proc (α × Nat)} {a : Act} (h : Stamped p q) (hs : LStep q a q') :
    ∃ p', LStep p a.unstamp p' ∧ Stamped p' q' := by
  have gath : ∀ {α : Type} {sid : Sid} {n : Nat} {own : Bytes} {got got' : Nat → Option Bytes} (_ : ∀ i, (got' i).map unstamp = got i)
      (k : List (Nat × Bytes) → Proc α) (t : Nat) {q' : Proc (α × Nat)} {a : Act}
      (_ : LStep (.gather sid n (stamp t own) got' fun L =>
        (k (L.map fun e => (e.1, unstamp e.2))).timed ((L.map fun e => arrival e.2).foldr max t)) a q'),
      ∃ p', LStep (.gather sid n own got k) a.unstamp p' ∧ Stamped p' q' := by
    intro α sid n own got got' hg k t q' a hs
    have hen : ∀ L, Enumerates n (stamp t own) got' L → Enumerates n own got (L.map fun e => (e.1, unstamp e.2)) := fun L hL => by
      have := hL.unstamp
      rwa [funext hg] at this
    cases hs with
    | gatherRecv _ _ _ _ _ i b h1 h2 h3 =>
      refine ⟨_, .gatherRecv _ _ _ _ _ i (unstamp b) h1 h2 (by rw [← hg, h3]; rfl), .gather (fun j => ?_) k t⟩
      by_cases hj : j = i
      · subst hj; simp
      · rw [Function.update_of_ne hj, Function.update_of_ne hj, hg]
    | gatherDone _ _ _ _ _ L hf hL =>
      exact ⟨_, .gatherDone _ _ _ _ _ _ (fun i h1 h2 h3 => hf i h1 h2 (by rw [← hg] at h3; simpa using h3)) (hen L hL), .base _ _⟩
    | gatherExpire _ _ _ _ _ L hL => exact ⟨_, .gatherExpire _ _ _ _ _ _ (hen L hL), .base _ _⟩
  have parc : ∀ {α β γ : Type} {p : Proc β} {p1 : Proc (β × Nat)} {q : Proc γ} {q1 : Proc (γ × Nat)} (_ : Stamped p p1) (_ : Stamped q q1)
      (_ : ∀ {a : Act} {p1' : Proc (β × Nat)}, LStep p1 a p1' → ∃ p', LStep p a.unstamp p' ∧ Stamped p' p1')
      (_ : ∀ {a : Act} {q1' : Proc (γ × Nat)}, LStep q1 a q1' → ∃ q', LStep q a.unstamp q' ∧ Stamped q' q1')
      (k : β → γ → Proc α) {q' : Proc (α × Nat)} {a : Act} (_ : LStep (.par p1 q1 fun x y => (k x.1 y.1).timed (max x.2 y.2)) a q'),
      ∃ p', LStep (.par p q k) a.unstamp p' ∧ Stamped p' q' := by
    intro α β γ p p1 q q1 hp hq ihp ihq k q' a hs
    have inv : ∀ {δ : Type} {p : Proc δ} {r : Res (δ × Nat)}, Stamped p (.done r) → p = .done (r.map Prod.fst) := by
      intro δ p r h
      generalize hq : (Proc.done r : Proc (δ × Nat)) = q at h
      cases h with
      | base p t =>
        cases p with
        | done r' =>
          simp only [Proc.timed, Proc.done.injEq] at hq
          subst hq
          cases r' <;> rfl
        | _ => simp [Proc.timed] at hq
      | gather => cases hq
      | par => cases hq
    cases hs with
    | parL _ _ _ _ _ hst => obtain ⟨p', h1, h2⟩ := ihp hst; exact ⟨_, .parL _ _ _ _ _ h1, .par h2 hq k⟩
    | parR _ _ _ _ _ hst => obtain ⟨p', h1, h2⟩ := ihq hst; exact ⟨_, .parR _ _ _ _ _ h1, .par hp h2 k⟩
    | join r s =>
      rw [inv hp, inv hq]
      exact ⟨_, .join _ _ _, .base _ _⟩
    | abortL e =>
      rw [inv hp]
      exact ⟨_, .abortL _ _ _, .base (.done (.error e)) 0⟩
    | abortR e =>
      rw [inv hq]
      exact ⟨_, .abortR _ _ _, .base (.done (.error e)) 0⟩
  induction h generalizing a with
  | base p t =>
    induction p generalizing a t with
    | done r => cases hs
    | send d s b k ih =>
      cases hs with
      | send => exact ⟨k, by simp only [Act.unstamp, unstamp_stamp]; exact .send _ _ _ _, .base _ _⟩
      | sendFail _ _ _ _ e => exact ⟨_, .sendFail _ _ _ _ e, .base (.done (.error (.net e))) 0⟩
    | recv f s k ih =>
      cases hs with
      | recv _ _ b => exact ⟨_, .recv _ _ _ _, .base _ _⟩
      | recvFail _ _ _ e => exact ⟨_, .recvFail _ _ _ e, .base (.done (.error (.net e))) 0⟩
    | gather sid n own got k ih => exact gath (fun i => map_stamp (got i) t) k t hs
    | par p q k ihp ihq ihk => exact parc (.base p t) (.base q t) (fun h => ihp t h) (fun h => ihq t h) k hs
  | gather hg k t => exact gath hg k t hs
  | par hp hq k ihp ihq => exact parc hp hq (fun h => ihp h) (fun h => ihq h) k hs

/-- Every execution is one with clocks. -/
theorem Stamped.forth {p p' : Proc α} {q : Proc (α × Nat)} {a : Act} (h : Stamped p q) (hs : LStep p a p') (m : Bytes)
    (hm : ∀ f s b, a = .recv f s b → unstamp m = b) :
    ∃ a' q', LStep q a' q' ∧ Stamped p' q' ∧ a'.unstamp = a ∧ ∀ f s b, a' = .recv f s b → b = m := by
  have gath : ∀ {α : Type} {sid : Sid} {n : Nat} {own : Bytes} {got got' : Nat → Option Bytes} (_ : ∀ i, (got' i).map unstamp = got i)
      (k : List (Nat × Bytes) → Proc α) (t : Nat) {p' : Proc α} {a : Act} (_ : LStep (.gather sid n own got k) a p')
      (_ : ∀ f s b, a = .recv f s b → unstamp m = b),
      ∃ a' q', LStep (.gather sid n (stamp t own) got' fun L =>
        (k (L.map fun e => (e.1, unstamp e.2))).timed ((L.map fun e => arrival e.2).foldr max t)) a' q' ∧ Stamped p' q' ∧
        a'.unstamp = a ∧ ∀ f s b, a' = .recv f s b → b = m := by
    intro α sid n own got got' hg k t p' a hs hm
    have hen : ∀ L, Enumerates n own got L → ∃ L', Enumerates n (stamp t own) got' L' ∧ L'.map (fun e => (e.1, unstamp e.2)) = L := by
      intro L hL
      have hval : ∀ e ∈ L, unstamp (if e.1 = 0 then stamp t own else (got' e.1).getD []) = e.2 := by
        intro e he
        rcases (hL.2 e.1 e.2).1 he with ⟨h1, h2⟩ | ⟨h1, h2, h3⟩
        · rw [if_pos h1, unstamp_stamp, h2]
        · rw [← hg] at h3
          obtain ⟨x, hx, hx'⟩ := Option.map_eq_some_iff.1 h3
          rw [if_neg (by omega), hx, Option.getD_some, hx']
      refine ⟨L.map fun e => (e.1, if e.1 = 0 then stamp t own else (got' e.1).getD []), ⟨?_, fun i b => ?_⟩, ?_⟩
      · rw [List.map_map]; exact hL.1
      · rw [List.mem_map]
        constructor
        · rintro ⟨e, he, h⟩
          simp only [Prod.mk.injEq] at h
          obtain ⟨rfl, rfl⟩ := h
          rcases (hL.2 e.1 e.2).1 he with ⟨h1, h2⟩ | ⟨h1, h2, h3⟩
          · exact .inl ⟨h1, by rw [if_pos h1]⟩
          · rw [← hg] at h3
            obtain ⟨x, hx, hx'⟩ := Option.map_eq_some_iff.1 h3
            exact .inr ⟨h1, h2, by rw [if_neg (by omega), hx, Option.getD_some]⟩
        · rintro (⟨rfl, rfl⟩ | ⟨h1, h2, h3⟩)
          · exact ⟨(0, own), (hL.2 _ _).2 (.inl ⟨rfl, rfl⟩), by simp⟩
          · exact ⟨(i, unstamp b), (hL.2 _ _).2 (.inr ⟨h1, h2, by rw [← hg, h3]; rfl⟩),
              by simp only [Prod.mk.injEq, true_and]; rw [if_neg (by omega), h3, Option.getD_some]⟩
      · rw [List.map_map]
        conv_rhs => rw [← List.map_id L]
        exact List.map_congr_left fun e he => Prod.ext rfl (hval e he)
    cases hs with
    | gatherRecv _ _ _ _ _ i b h1 h2 h3 =>
      refine ⟨.recv i sid m, _, .gatherRecv _ _ _ _ _ i m h1 h2 (by rw [← hg] at h3; simpa using h3), .gather (fun j => ?_) k t,
        by simp only [Act.unstamp]; rw [hm _ _ _ rfl], fun _ _ _ h => by cases h; rfl⟩
      by_cases hj : j = i
      · subst hj; simp [hm _ _ _ rfl]
      · rw [Function.update_of_ne hj, Function.update_of_ne hj, hg]
    | gatherDone _ _ _ _ _ L hf hL =>
      obtain ⟨L', h1, rfl⟩ := hen L hL
      exact ⟨.tau, _, .gatherDone _ _ _ _ _ L' (fun i h2 h3 h4 => hf i h2 h3 (by rw [← hg, h4]; rfl)) h1, .base _ _, rfl,
        fun _ _ _ h => by cases h⟩
    | gatherExpire _ _ _ _ _ L hL =>
      obtain ⟨L', h1, rfl⟩ := hen L hL
      exact ⟨.fault, _, .gatherExpire _ _ _ _ _ L' h1, .base _ _, rfl, fun _ _ _ h => by cases h⟩
  have parc : ∀ {α β γ : Type} {p : Proc β} {p1 : Proc (β × Nat)} {q : Proc γ} {q1 : Proc (γ × Nat)} (_ : Stamped p p1) (_ : Stamped q q1)
      (_ : ∀ {a : Act} {p' : Proc β}, LStep p a p' → (∀ f s b, a = .recv f s b → unstamp m = b) →
        ∃ a' p1', LStep p1 a' p1' ∧ Stamped p' p1' ∧ a'.unstamp = a ∧ ∀ f s b, a' = .recv f s b → b = m)
      (_ : ∀ {a : Act} {p' : Proc γ}, LStep q a p' → (∀ f s b, a = .recv f s b → unstamp m = b) →
        ∃ a' p1', LStep q1 a' p1' ∧ Stamped p' p1' ∧ a'.unstamp = a ∧ ∀ f s b, a' = .recv f s b → b = m)
      (k : β → γ → Proc α) {p' : Proc α} {a : Act} (_ : LStep (.par p q k) a p') (_ : ∀ f s b, a = .recv f s b → unstamp m = b),
      ∃ a' q', LStep (.par p1 q1 fun x y => (k x.1 y.1).timed (max x.2 y.2)) a' q' ∧ Stamped p' q' ∧ a'.unstamp = a ∧
        ∀ f s b, a' = .recv f s b → b = m := by
    intro α β γ p p1 q q1 hp hq ihp ihq k p' a hs hm
    have inv : ∀ {δ : Type} {r : Res δ} {q : Proc (δ × Nat)}, Stamped (.done r) q → ∃ t, q = .done (r.map fun a => (a, t)) := by
      intro δ r q h
      cases h with
      | base p t => exact ⟨t, rfl⟩
    cases hs with
    | parL _ _ _ _ _ hst => obtain ⟨a', q', h1, h2, h3, h4⟩ := ihp hst hm; exact ⟨a', _, .parL _ _ _ _ _ h1, .par h2 hq k, h3, h4⟩
    | parR _ _ _ _ _ hst => obtain ⟨a', q', h1, h2, h3, h4⟩ := ihq hst hm; exact ⟨a', _, .parR _ _ _ _ _ h1, .par hp h2 k, h3, h4⟩
    | join r s =>
      obtain ⟨t, rfl⟩ := inv hp
      obtain ⟨t', rfl⟩ := inv hq
      exact ⟨.tau, _, .join _ _ _, .base _ _, rfl, fun _ _ _ h => by cases h⟩
    | abortL e =>
      obtain ⟨t, rfl⟩ := inv hp
      exact ⟨.abort, _, .abortL _ _ _, .base (.done (.error e)) 0, rfl, fun _ _ _ h => by cases h⟩
    | abortR e =>
      obtain ⟨t, rfl⟩ := inv hq
      exact ⟨.abort, _, .abortR _ _ _, .base (.done (.error e)) 0, rfl, fun _ _ _ h => by cases h⟩
  induction h generalizing a with
  | base p t =>
    induction p generalizing a t with
    | done r => cases hs
    | send d s b k ih =>
      cases hs with
      | send => exact ⟨.send d s (stamp (t + 1) b), _, .send _ _ _ _, .base _ _, by simp only [Act.unstamp, unstamp_stamp], fun _ _ _ h => by cases h⟩
      | sendFail _ _ _ _ e => exact ⟨.fault, _, .sendFail _ _ _ _ e, .base (.done (.error (.net e))) 0, rfl, fun _ _ _ h => by cases h⟩
    | recv f s k ih =>
      cases hs with
      | recv _ _ b =>
        have := hm _ _ _ rfl
        subst this
        exact ⟨.recv f s m, _, .recv _ _ _ _, .base _ _, rfl, fun _ _ _ h => by cases h; rfl⟩
      | recvFail _ _ _ e => exact ⟨.fault, _, .recvFail _ _ _ e, .base (.done (.error (.net e))) 0, rfl, fun _ _ _ h => by cases h⟩
    | gather sid n own got k ih => exact gath (fun i => map_stamp (got i) t) k t hs hm
    | par p q k ihp ihq ihk => exact parc (.base p t) (.base q t) (fun h h' => ihp t h h') (fun h h' => ihq t h h') k hs hm
  | gather hg k t => exact gath hg k t hs hm
  | par hp hq k ihp ihq => exact parc hp hq (fun h h' => ihp h h') (fun h h' => ihq h h') k hs hm

/-- The state `d` of the network with clocks belongs to the state `c`. -/
def StampedNet (c : Net n α) (d : Net n (α × Nat)) : Prop :=
  (∀ i, Stamped (c.procs i) (d.procs i)) ∧ ∀ x, c.queues x = (d.queues x).map unstamp

theorem reliable_unstamp {a : Act} : Reliable a.unstamp ↔ Reliable a := by
  cases a <;> simp [Reliable, Act.unstamp]

theorem StampedNet.back {c : Net n α} {d d' : Net n (α × Nat)} (h : StampedNet c d) (hs : GStep Reliable d d') :
    ∃ c', GStep Reliable c c' ∧ StampedNet c' d' := by
  cases hs with
  | mk procs Q Q' i a q' ha hstep hq =>
    obtain ⟨p', h1, h2⟩ := (h.1 i).back hstep
    obtain ⟨cp, cq⟩ := c
    have hQ : ∃ cq', qstep i a.unstamp cq = some cq' ∧ ∀ x, cq' x = (Q' x).map unstamp := by
      have hx : ∀ x, cq x = (Q x).map unstamp := h.2
      cases a with
      | send dst s b =>
        simp only [qstep, Option.some.injEq] at hq
        subst hq
        refine ⟨_, rfl, fun x => ?_⟩
        by_cases hxx : x = (i.val, dst, s)
        · subst hxx; simp [hx]
        · rw [Function.update_of_ne hxx, Function.update_of_ne hxx, hx]
      | recv f s b =>
        obtain ⟨rest, h3, rfl⟩ := qstep_recv hq
        refine ⟨Function.update cq (f, i.val, s) (rest.map unstamp), ?_, fun x => ?_⟩
        · simp only [Act.unstamp, qstep]
          rw [hx, h3]
          simp
        · by_cases hxx : x = (f, i.val, s)
          · subst hxx; simp
          · rw [Function.update_of_ne hxx, Function.update_of_ne hxx, hx]
      | tau => cases hq; exact ⟨_, rfl, hx⟩
      | abort => cases hq; exact ⟨_, rfl, hx⟩
      | fault => cases hq; exact ⟨_, rfl, hx⟩
    obtain ⟨cq', h3, h4⟩ := hQ
    refine ⟨_, .mk cp cq cq' i _ p' (reliable_unstamp.2 ha) h1 h3, fun j => ?_, h4⟩
    by_cases hj : j = i
    · subst hj; simp only [Function.update_self]; exact h2
    · simp only [Function.update_of_ne hj]; exact h.1 j

theorem StampedNet.forth {c c' : Net n α} {d : Net n (α × Nat)} (h : StampedNet c d) (hs : GStep Reliable c c') :
    ∃ d', GStep Reliable d d' ∧ StampedNet c' d' := by
  cases hs with
  | mk procs Q Q' i a p' ha hstep hq =>
    obtain ⟨dp, dq⟩ := d
    have hx : ∀ x, Q x = (dq x).map unstamp := h.2
    -- the stamped message that is received
    obtain ⟨m, hm, hm'⟩ : ∃ m, (∀ f s b, a = .recv f s b → unstamp m = b) ∧ ∀ f s b, a = .recv f s b → ∃ rest, dq (f, i.val, s) = m :: rest ∧
        Q' = Function.update Q (f, i.val, s) (rest.map unstamp) := by
      cases a with
      | recv f s b =>
        obtain ⟨rest, h3, rfl⟩ := qstep_recv hq
        rw [hx] at h3
        obtain ⟨m, rest', h4, h5, h6⟩ := List.map_eq_cons_iff.1 h3
        exact ⟨m, fun _ _ _ h => by cases h; exact h5, fun _ _ _ h => by cases h; exact ⟨rest', h4, by rw [h6]⟩⟩
      | _ => exact ⟨[], fun _ _ _ h => (by cases h), fun _ _ _ h => by cases h⟩
    obtain ⟨a', q', h1, h2, rfl, h4⟩ := (h.1 i).forth hstep m hm
    have hQ : ∃ dq', qstep i a' dq = some dq' ∧ ∀ x, Q' x = (dq' x).map unstamp := by
      cases a' with
      | send dst s b =>
        simp only [Act.unstamp, qstep, Option.some.injEq] at hq
        subst hq
        refine ⟨_, rfl, fun x => ?_⟩
        by_cases hxx : x = (i.val, dst, s)
        · subst hxx; simp [hx]
        · rw [Function.update_of_ne hxx, Function.update_of_ne hxx, hx]
      | recv f s b =>
        obtain rfl := h4 f s b rfl
        obtain ⟨rest, h5, rfl⟩ := hm' f s _ rfl
        refine ⟨Function.update dq (f, i.val, s) rest, ?_, fun x => ?_⟩
        · simp only [qstep]
          rw [h5]
          simp
        · by_cases hxx : x = (f, i.val, s)
          · subst hxx; simp
          · rw [Function.update_of_ne hxx, Function.update_of_ne hxx, hx]
      | tau => cases hq; exact ⟨_, rfl, hx⟩
      | abort => cases hq; exact ⟨_, rfl, hx⟩
      | fault => cases hq; exact ⟨_, rfl, hx⟩
    obtain ⟨dq', h5, h6⟩ := hQ
    refine ⟨_, .mk dp dq dq' i a' q' (reliable_unstamp.1 ha) h1 h5, fun j => ?_, h6⟩
    by_cases hj : j = i
    · subst hj; simp only [Function.update_self]; exact h2
    · simp only [Function.update_of_ne hj]; exact h.1 j

theorem StampedNet.init (ps : Fin n → Proc α) : StampedNet (Net.init ps) (Net.init fun i => (ps i).timed 0) :=
  ⟨fun _ => .base _ _, fun _ => rfl⟩

/-! ### The order of the messages -/

/-- Who sends when: `up` all clients to the king, `down` the king to the clients `ids`, one after the other. -/
inductive Sched : Type 1 where
  | nil
  | up (s : Sid) (r : Sched)
  | down (s : Sid) (ids : List Nat) (r : Sched)
  | par (β γ : Type) (a b r : Sched)

/-- Streams used, and ids of clients. -/
def Sched.Ok (n : Nat) (A : Sid → Prop) : Sched → Prop
  | .nil => True
  | .up s r => A s ∧ r.Ok n A
  | .down s ids r => A s ∧ ids.Nodup ∧ 0 ∉ ids ∧ (∀ i ∈ ids, i < n) ∧ r.Ok n A
  | .par _ _ a b r => a.Ok n A ∧ b.Ok n A ∧ r.Ok n A

/-- The clocks at the end. -/
def Sched.run (n : Nat) : Sched → (Nat → Nat) → Nat → Nat
  | .nil, t => t
  | .up _ r, t => r.run n fun i => if i = 0 then ((List.range n).map fun j => if j = 0 then t 0 else t j + 1).foldr max (t 0) else t i
  | .down _ ids r, t => r.run n fun i => if i ∈ ids then max (t i) (t 0 + 1) else t i
  | .par _ _ a b r, t => r.run n fun i => max (a.run n t i) (b.run n t i)

/-- The program of party `me` keeps to the schedule as long as nothing fails. -/
inductive Follows (n me : Nat) : {α : Type} → Sched → Proc α → Prop where
  | error {α : Type} (e : Fault) (S : Sched) : Follows n me S (.done (.error e) : Proc α)
  | ok {α : Type} (a : α) : Follows n me .nil (.done (.ok a))
  | gather {α : Type} {s : Sid} {r : Sched} {own : Bytes} {k : List (Nat × Bytes) → Proc α} (h : me = 0)
      (hk : ∀ L, Follows n me r (k L)) : Follows n me (.up s r) (.gather s n own (fun _ => none) k)
  | send {α : Type} {s : Sid} {r : Sched} {b : Bytes} {k : Proc α} (h : me ≠ 0) (hk : Follows n me r k) :
      Follows n me (.up s r) (.send 0 s b k)
  | king {α : Type} {s : Sid} {id : Nat} {ids : List Nat} {r : Sched} {b : Bytes} {k : Proc α} (h : me = 0)
      (hk : Follows n me (.down s ids r) k) : Follows n me (.down s (id :: ids) r) (.send id s b k)
  | kingEnd {α : Type} {s : Sid} {r : Sched} {p : Proc α} (h : me = 0) (hp : Follows n me r p) : Follows n me (.down s [] r) p
  | recv {α : Type} {s : Sid} {ids : List Nat} {r : Sched} {k : Bytes → Proc α} (h : me ≠ 0) (hm : me ∈ ids)
      (hk : ∀ b, Follows n me r (k b)) : Follows n me (.down s ids r) (.recv 0 s k)
  | other {α : Type} {s : Sid} {ids : List Nat} {r : Sched} {p : Proc α} (h : me ≠ 0) (hm : me ∉ ids) (hp : Follows n me r p) :
      Follows n me (.down s ids r) p
  | par {α β γ : Type} {a b r : Sched} {p : Proc β} {q : Proc γ} {k : β → γ → Proc α} (hp : Follows n me a p) (hq : Follows n me b q)
      (hk : ∀ x y, Follows n me r (k x y)) : Follows n me (.par β γ a b r) (.par p q k)

theorem Bad.parL {p : Proc β} (h : Bad p) (q : Proc γ) (k : β → γ → Proc α) : Bad (.par p q k) := by
  rcases h with h | ⟨e, rfl⟩
  · exact .inl (.inL _ _ _ h)
  · exact .inl (.l _ _ _)

theorem Bad.parR {q : Proc γ} (h : Bad q) (p : Proc β) (k : β → γ → Proc α) : Bad (.par p q k) := by
  rcases h with h | ⟨e, rfl⟩
  · exact .inl (.inR _ _ _ h)
  · exact .inl (.r _ _ _)

/-- One message. -/
theorem reach_pass {ps : Fin n → Proc α} {i j : Fin n} (hij : j ≠ i) {s : Sid} {b : Bytes} {k : Proc α} {kc : Bytes → Proc α}
    (hi : ps i = .send j s b k) (hj : ps j = .recv i s kc) {Q : Queues} (hQ : Q (i, j, s) = []) :
    Reach All ⟨ps, Q⟩ ⟨Function.update (Function.update ps i k) j (kc b), Q⟩ := by
  refine (Reach.step i (.send j s b) k (core_send _ _ _) (hi ▸ .send _ _ _ _) rfl).trans
    (Reach.step (Q' := Q) j (.recv i s b) (kc b) (core_recv _ _ _) ?_ ?_)
  · rw [Function.update_of_ne hij, hj]
    exact .recv _ _ _ _
  · simp only [qstep]
    rw [Function.update_self, hQ]
    simp only [List.nil_append, if_true]
    rw [Function.update_idem]
    congr 1
    have := Function.update_eq_self ((i : Nat), (j : Nat), s) Q
    rwa [hQ] at this

/-- Either all succeed, and then in the time of the schedule, or somebody fails. -/
def SchedOutcome (n : Nat) (A : Sid → Prop) (S : Sched) (ps : Fin n → Proc α) : Prop :=
  (∃ rs, Runs All A ps rs ∧ ∀ t : Nat → Nat, Runs All A (fun i => (ps i).timed (t i)) fun i => (rs i, S.run n t i)) ∨
  ∀ Q : Queues, (∀ i j s, A s → Q (i, j, s) = []) → ∃ c, Reach All ⟨ps, Q⟩ c ∧ ∃ i, Bad (c.procs i)

theorem outcome_error {A : Sid → Prop} {S : Sched} {ps : Fin n → Proc α} {i : Fin n} {e : Fault} (h : ps i = .done (.error e)) :
    SchedOutcome n A S ps := .inr fun _ _ => ⟨_, .refl _, i, .inr ⟨e, h⟩⟩

theorem outcome_up (hn : 0 < n) {A : Sid → Prop} {s : Sid} (hs : A s) {r : Sched}
    (ih : ∀ qs : Fin n → Proc α, (∀ i : Fin n, Follows n i r (qs i)) → SchedOutcome n A r qs) (ps : Fin n → Proc α)
    (h : ∀ i : Fin n, Follows n i (.up s r) (ps i)) : SchedOutcome n A (.up s r) ps := by
  by_cases hne : ∃ i e, ps i = .done (.error e)
  · obtain ⟨i, e, he⟩ := hne
    exact outcome_error he
  have key : ∀ i : Fin n, ∃ (b : Bytes) (k0 : List (Nat × Bytes) → Proc α) (k : Proc α),
      ps i = (if i.val = 0 then .gather s n b (fun _ => none) k0 else .send 0 s b k) ∧
      (i.val = 0 → ∀ L, Follows n i r (k0 L)) ∧ (i.val ≠ 0 → Follows n i r k) := by
    intro i
    have hi := h i
    generalize hp : ps i = p at hi
    cases hi with
    | error e => exact absurd ⟨i, e, hp⟩ hne
    | @gather _ _ _ own k h0 hk => exact ⟨own, k, .done (.error (.net .badInput)), by rw [if_pos h0], fun _ => hk, fun h => absurd h0 h⟩
    | @send _ _ _ b k h0 hk => exact ⟨b, fun _ => .done (.error (.net .badInput)), k, by rw [if_neg h0], fun h => absurd h h0, fun _ => hk⟩
  choose b k0 k hp hk0 hk using key
  let msg : Nat → Bytes := fun j => if h : j < n then b ⟨j, h⟩ else []
  have hmsg : ∀ i : Fin n, msg i = b i := fun i => by simp [msg]
  have hmsg0 : msg 0 = b ⟨0, hn⟩ := hmsg ⟨0, hn⟩
  let L : List (Nat × Bytes) := (List.range n).map fun i => (i, msg i)
  let qs : Fin n → Proc α := fun i => if i.val = 0 then k0 ⟨0, hn⟩ L else k i
  have h0 : ∀ i : Fin n, i.val = 0 → i = ⟨0, hn⟩ := fun i hi => Fin.ext hi
  have hq : ∀ i : Fin n, Follows n i r (qs i) := by
    intro i
    by_cases hi : i.val = 0
    · rw [h0 i hi]
      exact hk0 ⟨0, hn⟩ rfl L
    · simp only [qs, if_neg hi]
      exact hk i hi
  have hps : ps = fun i : Fin n => if i.val = 0 then .gather s n (msg 0) (fun _ => none) (k0 ⟨0, hn⟩) else .send 0 s (msg i) (k i) := by
    funext i
    rw [hp i]
    by_cases hi : i.val = 0
    · rw [if_pos hi, if_pos hi, hmsg0, h0 i hi]
    · rw [if_neg hi, if_neg hi, hmsg]
  have reach : ∀ Q : Queues, (∀ i j s, A s → Q (i, j, s) = []) → Reach All ⟨ps, Q⟩ ⟨qs, Q⟩ := fun Q hQ => by
    rw [hps]
    exact reach_gather hn s msg (k0 ⟨0, hn⟩) k Q fun i => hQ i 0 s hs
  rcases ih qs hq with ⟨rs, h1, h2⟩ | h1
  · refine .inl ⟨rs, fun Q hQ => (reach Q hQ).trans (h1 Q hQ), fun t Q hQ => Reach.trans ?_ (h2 (fun i => if i = 0 then
      ((List.range n).map fun j => if j = 0 then t 0 else t j + 1).foldr max (t 0) else t i) Q hQ)⟩
    have := reach_gather (P := All) hn s (fun j => if j = 0 then stamp (t 0) (msg 0) else stamp (t j + 1) (msg j))
      (fun L => (k0 ⟨0, hn⟩ (L.map fun e => (e.1, unstamp e.2))).timed ((L.map fun e => arrival e.2).foldr max (t 0)))
      (fun i => (k i).timed (t i)) Q fun i => hQ i 0 s hs
    have e1 : (fun i : Fin n => (ps i).timed (t i)) = fun i : Fin n => if i.val = 0 then
        .gather s n (if 0 = 0 then stamp (t 0) (msg 0) else stamp (t 0 + 1) (msg 0)) (fun _ => none)
        (fun L => (k0 ⟨0, hn⟩ (L.map fun e => (e.1, unstamp e.2))).timed ((L.map fun e => arrival e.2).foldr max (t 0)))
        else .send 0 s (if i.val = 0 then stamp (t 0) (msg 0) else stamp (t i + 1) (msg i)) ((k i).timed (t i)) := by
      rw [hps]
      funext i
      by_cases hi : i.val = 0
      · simp only [hi, if_true]; rfl
      · simp only [if_neg hi]; rfl
    have e2 : (fun i : Fin n => (qs i).timed (if i.val = 0 then
        ((List.range n).map fun j => if j = 0 then t 0 else t j + 1).foldr max (t 0) else t i)) = fun i : Fin n => if i.val = 0 then
        (k0 ⟨0, hn⟩ (((List.range n).map fun j => (j, if j = 0 then stamp (t 0) (msg 0) else stamp (t j + 1) (msg j))).map
          fun e => (e.1, unstamp e.2))).timed ((((List.range n).map fun j => (j, if j = 0 then stamp (t 0) (msg 0)
            else stamp (t j + 1) (msg j))).map fun e => arrival e.2).foldr max (t 0)) else (k i).timed (t i) := by
      funext i
      by_cases hi : i.val = 0
      · simp only [qs, if_pos hi, L, List.map_map]
        have e3 : ∀ j, (fun e : Nat × Bytes => (e.1, unstamp e.2)) ((fun j => (j, if j = 0 then stamp (t 0) (msg 0)
            else stamp (t j + 1) (msg j))) j) = (j, msg j) := fun j => by
          by_cases hj : j = 0
          · subst hj; simp only [if_true, unstamp_stamp]
          · simp only [if_neg hj, unstamp_stamp]
        have e4 : ∀ j, (fun e : Nat × Bytes => arrival e.2) ((fun j => (j, if j = 0 then stamp (t 0) (msg 0)
            else stamp (t j + 1) (msg j))) j) = if j = 0 then t 0 else t j + 1 := fun j => by
          by_cases hj : j = 0
          · subst hj; simp only [if_true, arrival_stamp]
          · simp only [if_neg hj, arrival_stamp]
        exact congrArg₂ (fun a t => (k0 ⟨0, hn⟩ a).timed t) (List.map_congr_left fun j _ => (e3 j).symm)
          (congrArg (List.foldr max (t 0)) (List.map_congr_left fun j _ => (e4 j).symm))
      · simp only [qs, if_neg hi]
    rw [e1, e2]
    exact this
  · exact .inr fun Q hQ => let ⟨c, hc, hb⟩ := h1 Q hQ; ⟨c, (reach Q hQ).trans hc, hb⟩

theorem outcome_down (hn : 0 < n) {A : Sid → Prop} {s : Sid} (hs : A s) {r : Sched}
    (ih : ∀ qs : Fin n → Proc α, (∀ i : Fin n, Follows n i r (qs i)) → SchedOutcome n A r qs) (ids : List Nat) (hnd : ids.Nodup) (h0 : 0 ∉ ids)
    (hlt : ∀ i ∈ ids, i < n) (ps : Fin n → Proc α)
    (h : ∀ i : Fin n, Follows n i (.down s ids r) (ps i)) : SchedOutcome n A (.down s ids r) ps := by
  by_cases hne : ∃ i e, ps i = .done (.error e)
  · obtain ⟨i, e, he⟩ := hne
    exact outcome_error he
  induction ids generalizing ps with
  | nil =>
    have hq : ∀ i : Fin n, Follows n i r (ps i) := by
      intro i
      have hi := h i
      generalize hp : ps i = p at hi
      cases hi with
      | error e => exact .error _ _
      | kingEnd h0 hk => exact hk
      | recv h0 hm hk => cases hm
      | other h0 hm hk => exact hk
    have e : ∀ t, (Sched.down s [] r).run n t = r.run n t := fun t => by simp [Sched.run]
    rcases ih ps hq with ⟨rs, h1, h2⟩ | h1
    · exact .inl ⟨rs, h1, fun t => by rw [e]; exact h2 t⟩
    · exact .inr h1
  | cons id ids ihd =>
    have hid : id < n := hlt id (by simp)
    have hid0 : id ≠ 0 := fun e => h0 (by simp [e])
    obtain ⟨hnot, hnd'⟩ := List.nodup_cons.1 hnd
    obtain ⟨b, k, hk, hkf⟩ : ∃ b k, ps ⟨0, hn⟩ = .send id s b k ∧ Follows n 0 (.down s ids r) k := by
      have hi := h ⟨0, hn⟩
      generalize hp : ps ⟨0, hn⟩ = p at hi
      cases hi with
      | error e => exact absurd ⟨_, e, hp⟩ hne
      | king h0 hk => exact ⟨_, _, rfl, hk⟩
      | recv h0 => exact absurd rfl h0
      | other h0 => exact absurd rfl h0
    obtain ⟨kc, hc, hcf⟩ : ∃ kc, ps ⟨id, hid⟩ = .recv 0 s kc ∧ ∀ b, Follows n id r (kc b) := by
      have hi := h ⟨id, hid⟩
      generalize hp : ps ⟨id, hid⟩ = p at hi
      cases hi with
      | error e => exact absurd ⟨_, e, hp⟩ hne
      | king h0 hk => exact absurd h0 hid0
      | recv h0 hm hk => exact ⟨_, rfl, hk⟩
      | other h0 hm => exact absurd (List.mem_cons_self) hm
    have hij : (⟨id, hid⟩ : Fin n) ≠ ⟨0, hn⟩ := fun e => hid0 (by simpa using Fin.ext_iff.1 e)
    let qs : Fin n → Proc α := Function.update (Function.update ps ⟨0, hn⟩ k) ⟨id, hid⟩ (kc b)
    have reach : ∀ Q : Queues, (∀ i j s, A s → Q (i, j, s) = []) → Reach All ⟨ps, Q⟩ ⟨qs, Q⟩ := fun Q hQ =>
      reach_pass hij hk hc (hQ _ _ s hs)
    have hq : ∀ i : Fin n, Follows n i (.down s ids r) (qs i) := by
      intro i
      by_cases h1 : i = ⟨id, hid⟩
      · subst h1
        simp only [qs, Function.update_self]
        exact .other hid0 hnot (hcf b)
      · by_cases h2 : i = ⟨0, hn⟩
        · subst h2
          simp only [qs, Function.update_of_ne h1, Function.update_self]
          exact hkf
        · simp only [qs, Function.update_of_ne h1, Function.update_of_ne h2]
          have hi0 : i.val ≠ 0 := fun e => h2 (Fin.ext e)
          have hid' : i.val ≠ id := fun e => h1 (Fin.ext e)
          have hi := h i
          generalize hp : ps i = p at hi
          cases hi with
          | error e => exact .error _ _
          | king h0 hk => exact absurd h0 hi0
          | recv h0 hm hk => exact .recv h0 ((List.mem_cons.1 hm).resolve_left hid') hk
          | other h0 hm hk => exact .other h0 (fun h => hm (List.mem_cons_of_mem _ h)) hk
    have out : SchedOutcome n A (.down s ids r) qs := by
      by_cases hne' : ∃ i e, qs i = .done (.error e)
      · obtain ⟨i, e, he⟩ := hne'
        exact outcome_error he
      · exact ihd hnd' (fun h => h0 (List.mem_cons_of_mem _ h)) (fun i hi => hlt i (List.mem_cons_of_mem _ hi)) qs hq hne'
    rcases out with ⟨rs, h1, h2⟩ | h1
    · refine .inl ⟨rs, fun Q hQ => (reach Q hQ).trans (h1 Q hQ), fun t Q hQ => ?_⟩
      have e : (Sched.down s (id :: ids) r).run n t = (Sched.down s ids r).run n (Function.update t id (max (t id) (t 0 + 1))) := by
        simp only [Sched.run]
        congr 1
        funext i
        rw [Function.update_of_ne (Ne.symm hid0)]
        by_cases hi : i = id
        · subst hi
          rw [if_pos List.mem_cons_self, if_neg hnot, Function.update_self]
        · rw [Function.update_of_ne hi]
          simp [hi]
      rw [e]
      refine Reach.trans ?_ (h2 _ Q hQ)
      have := reach_pass (ps := fun i => (ps i).timed (t i)) hij (s := s) (b := stamp (t 0 + 1) b) (k := k.timed (t 0))
        (kc := fun b => (kc (unstamp b)).timed (max (t id) (arrival b))) (by rw [hk]; rfl) (by rw [hc]; rfl) (hQ _ _ s hs)
      have e2 : (fun i : Fin n => (qs i).timed (Function.update t id (max (t id) (t 0 + 1)) i)) =
          Function.update (Function.update (fun i : Fin n => (ps i).timed (t i)) ⟨0, hn⟩ (k.timed (t 0))) ⟨id, hid⟩
            ((kc (unstamp (stamp (t 0 + 1) b))).timed (max (t id) (arrival (stamp (t 0 + 1) b)))) := by
        funext i
        by_cases h1 : i = ⟨id, hid⟩
        · subst h1
          simp only [qs, Function.update_self, unstamp_stamp, arrival_stamp]
        · have h1' : i.val ≠ id := fun e => h1 (Fin.ext e)
          rw [Function.update_of_ne h1, Function.update_of_ne h1']
          by_cases h2 : i = ⟨0, hn⟩
          · subst h2
            simp only [qs, Function.update_of_ne h1, Function.update_self]
          · simp only [qs, Function.update_of_ne h1, Function.update_of_ne h2]
      rw [e2]
      exact this
    · exact .inr fun Q hQ => let ⟨c, hc, hb⟩ := h1 Q hQ; ⟨c, (reach Q hQ).trans hc, hb⟩

theorem outcome_par {A : Sid → Prop} {a b r : Sched}
    (iha : ∀ qs : Fin n → Proc β, (∀ i : Fin n, Follows n i a (qs i)) → SchedOutcome n A a qs)
    (ihb : ∀ qs : Fin n → Proc γ, (∀ i : Fin n, Follows n i b (qs i)) → SchedOutcome n A b qs)
    (ihr : ∀ qs : Fin n → Proc α, (∀ i : Fin n, Follows n i r (qs i)) → SchedOutcome n A r qs) (ps : Fin n → Proc α)
    (h : ∀ i : Fin n, Follows n i (.par β γ a b r) (ps i)) : SchedOutcome n A (.par β γ a b r) ps := by
  by_cases hne : ∃ i e, ps i = .done (.error e)
  · obtain ⟨i, e, he⟩ := hne
    exact outcome_error he
  have key : ∀ i : Fin n, ∃ (p : Proc β) (q : Proc γ) (k : β → γ → Proc α), ps i = .par p q k ∧ Follows n i a p ∧ Follows n i b q ∧
      ∀ x y, Follows n i r (k x y) := by
    intro i
    have hi := h i
    generalize hp : ps i = p at hi
    cases hi with
    | error e => exact absurd ⟨i, e, hp⟩ hne
    | par h1 h2 h3 => exact ⟨_, _, _, rfl, h1, h2, h3⟩
  choose p q k hp hfp hfq hfk using key
  obtain rfl : ps = fun i => .par (p i) (q i) (k i) := funext hp
  rcases iha p hfp with ⟨rs, h1, h1'⟩ | h1
  · rcases ihb q hfq with ⟨ss, h2, h2'⟩ | h2
    · have join : ∀ Q : Queues, (∀ i j s, A s → Q (i, j, s) = []) →
          Reach All (⟨fun i => .par (p i) (q i) (k i), Q⟩ : Net n α) ⟨fun i => k i (rs i) (ss i), Q⟩ := fun Q hQ => by
        have r1 := (h1 Q hQ).lift (fun i p => Proc.par p (q i) (k i)) fun i p a p' h => .parL _ _ _ _ _ h
        have r2 := (h2 Q hQ).lift (fun i q => Proc.par (.done (.ok (rs i))) q (k i)) fun i p a p' h => .parR _ _ _ _ _ h
        refine (r1.trans r2).trans ?_
        have := reach_join_aux (P := All) k rs ss Q n le_rfl
        simpa using this
      rcases ihr (fun i => k i (rs i) (ss i)) (fun i => hfk i _ _) with ⟨out, h3, h3'⟩ | h3
      · refine .inl ⟨out, fun Q hQ => (join Q hQ).trans (h3 Q hQ), fun t => ?_⟩
        exact Runs.par (h1' t) (h2' t) (fun _ h => h) (fun _ h => h) (h3' fun i => max (a.run n t i) (b.run n t i))
      · exact .inr fun Q hQ => let ⟨c, hc, hb⟩ := h3 Q hQ; ⟨c, (join Q hQ).trans hc, hb⟩
    · refine .inr fun Q hQ => ?_
      obtain ⟨c, hc, i, hb⟩ := h2 Q hQ
      exact ⟨_, hc.lift (fun i q => Proc.par (p i) q (k i)) fun i p a p' h => .parR _ _ _ _ _ h, i, hb.parR _ _⟩
  · refine .inr fun Q hQ => ?_
    obtain ⟨c, hc, i, hb⟩ := h1 Q hQ
    exact ⟨_, hc.lift (fun i p => Proc.par p (q i) (k i)) fun i p a p' h => .parL _ _ _ _ _ h, i, hb.parL _ _⟩

theorem outcome (hn : 0 < n) {A : Sid → Prop} (S : Sched) (hS : S.Ok n A) (ps : Fin n → Proc α)
    (h : ∀ i : Fin n, Follows n i S (ps i)) : SchedOutcome n A S ps := by
  induction S generalizing α with
  | nil =>
    by_cases hne : ∃ i e, ps i = .done (.error e)
    · obtain ⟨i, e, he⟩ := hne
      exact outcome_error he
    have key : ∀ i : Fin n, ∃ a, ps i = .done (.ok a) := by
      intro i
      have hi := h i
      generalize hp : ps i = p at hi
      cases hi with
      | error e => exact absurd ⟨i, e, hp⟩ hne
      | ok a => exact ⟨a, rfl⟩
    choose a ha using key
    obtain rfl : ps = fun i => .done (.ok (a i)) := funext ha
    exact .inl ⟨a, .done a, fun t => .done fun i => (a i, t i)⟩
  | up s r ih => exact outcome_up hn hS.1 (ih hS.2) ps h
  | down s ids r ih => exact outcome_down hn hS.1 (ih hS.2.2.2.2) ids hS.2.1 hS.2.2.1 hS.2.2.2.1 ps h
  | par β γ a b r iha ihb ihr => exact outcome_par (iha hS.1) (ihb hS.2.1) (ihr hS.2.2) ps h

/-- The clocks of a protocol that succeeds. -/
theorem Sched.times (hn : 0 < n) {A : Sid → Prop} {S : Sched} (hS : S.Ok n A) {ps : Fin n → Proc α} (h : ∀ i : Fin n, Follows n i S (ps i))
    (hwf : ∀ i, (ps i).WF A) {rs : Fin n → α} (hy : AlwaysYields (Net.init ps) rs) :
    AlwaysYields (Net.init fun i => (ps i).timed 0) fun i => (rs i, S.run n (fun _ => 0) i) := by
  have rel : ∀ {c c' : Net n α}, Reach All c c' → ∃ k, GSteps Reliable k c c' := fun ⟨k, h⟩ => ⟨k, h.mono fun _ ha => ha.1.1⟩
  rcases outcome hn S hS ps h with ⟨rs', h1, h2⟩ | h1
  · obtain ⟨k, hk⟩ := rel (h1 (fun _ => []) fun _ _ _ _ => rfl)
    have e : rs' = rs := by
      funext i
      have := hy.2 k _ hk (by rintro ⟨c, hc⟩; cases hc with | mk procs Q Q' i a p' ha hstep hq => cases hstep) i
      simpa using this
    subst e
    exact (h2 fun _ => 0).alwaysYields fun i => (hwf i).timed 0
  · exfalso
    obtain ⟨c, hc, i, hb⟩ := h1 (fun _ => []) fun _ _ _ _ => rfl
    obtain ⟨k, hk⟩ := rel hc
    obtain ⟨⟨m, hm⟩, hfin⟩ := hy
    obtain ⟨k', c', hk', hst⟩ := exists_stuck (c := c) (m := m) fun k' c' h' => le_trans (by omega) (hm _ _ (hk.trans h'))
    have hb' := hk'.bad hb
    rw [hfin _ _ (hk.trans hk') hst i] at hb'
    rcases hb' with he | ⟨e, he⟩
    · cases he
    · cases he

/-! ### Schedules of round trips -/

/-- One schedule after the other. -/
def Sched.andThen : Sched → Sched → Sched
  | .nil, S => S
  | .up s r, S => .up s (r.andThen S)
  | .down s ids r, S => .down s ids (r.andThen S)
  | .par β γ a b r, S => .par β γ a b (r.andThen S)

theorem Sched.andThen_run (S S' : Sched) (t : Nat → Nat) : (S.andThen S').run n t = S'.run n (S.run n t) := by
  induction S generalizing t with
  | nil => rfl
  | up s r ih => exact ih _
  | down s ids r ih => exact ih _
  | par β γ a b r _ _ ih => exact ih _

theorem Sched.Ok.andThen {A : Sid → Prop} {S S' : Sched} (h : S.Ok n A) (h' : S'.Ok n A) : (S.andThen S').Ok n A := by
  induction S with
  | nil => exact h'
  | up s r ih => exact ⟨h.1, ih h.2⟩
  | down s ids r ih => exact ⟨h.1, h.2.1, h.2.2.1, h.2.2.2.1, ih h.2.2.2.2⟩
  | par β γ a b r _ _ ih => exact ⟨h.1, h.2.1, ih h.2.2⟩

theorem Follows.bind {me : Nat} {S S' : Sched} {p : Proc α} (h : Follows n me S p) {f : α → Proc β} (hf : ∀ a, Follows n me S' (f a)) :
    Follows n me (S.andThen S') (p.bind f) := by
  induction h with
  | error e S => exact .error _ _
  | ok a => exact hf a
  | gather h hk ih => exact .gather h fun L => ih L hf
  | send h hk ih => exact .send h (ih hf)
  | king h hk ih => exact .king h (ih hf)
  | kingEnd h hp ih => exact .kingEnd h (ih hf)
  | recv h hm hk ih => exact .recv h hm fun b => ih b hf
  | other h hm hp ih => exact .other h hm (ih hf)
  | par hp hq hk _ _ ih => exact .par hp hq fun x y => ih x y hf

theorem Follows.lift {me : Nat} {S : Sched} {r : Res α} {f : α → Proc β} (hf : ∀ a, Follows n me S (f a)) :
    Follows n me S ((liftM r : Proc α) >>= f) := by
  cases r with
  | ok a => exact hf a
  | error e => exact .error e S

/-- A round trip. -/
def Sched.trip (n : Nat) (s : Sid) : Sched := .up s (.down s ((List.range n).filter (· ≠ 0)) .nil)

/-- Clocks after `m` round trips. -/
def clk (n m i : Nat) : Nat := if i = 0 then 2 * m - 1 else if i < n then 2 * m else 0

/-- The schedule consists of `R` round trips on the way that takes the longest. -/
structure Sched.Trips (n : Nat) (S : Sched) (R : Nat) : Prop where
  ok : S.Ok n fun _ => True
  run : ∀ m, S.run n (clk n m) = clk n (m + R)

theorem Sched.Trips.nil : Sched.nil.Trips n 0 := ⟨trivial, fun _ => rfl⟩

theorem Sched.Trips.andThen {S S' : Sched} {R R' : Nat} (h : S.Trips n R) (h' : S'.Trips n R') : (S.andThen S').Trips n (R + R') :=
  ⟨h.ok.andThen h'.ok, fun m => by rw [Sched.andThen_run, h.run, h'.run, Nat.add_assoc]⟩

theorem Sched.Trips.par {S1 S2 S3 : Sched} {R1 R2 R3 : Nat} (h1 : S1.Trips n R1) (h2 : S2.Trips n R2) (h3 : S3.Trips n R3) :
    (Sched.par β γ S1 S2 S3).Trips n (max R1 R2 + R3) := by
  refine ⟨⟨h1.ok, h2.ok, h3.ok⟩, fun m => ?_⟩
  simp only [Sched.run]
  rw [h1.run, h2.run]
  have : (fun i => max (clk n (m + R1) i) (clk n (m + R2) i)) = clk n (m + max R1 R2) := by
    funext i
    unfold clk
    split_ifs <;> omega
  rw [this, h3.run, Nat.add_assoc]

theorem foldr_max_eq {L : List Nat} {t v : Nat} (h1 : ∀ x ∈ L, x ≤ v) (h2 : v ∈ L) (ht : t ≤ v) : L.foldr max t = v := by
  have hle : ∀ L : List Nat, (∀ x ∈ L, x ≤ v) → L.foldr max t ≤ v := fun L h => by
    induction L with
    | nil => exact ht
    | cons x L ih => exact max_le (h x (by simp)) (ih fun y hy => h y (by simp [hy]))
  refine le_antisymm (hle L h1) ?_
  clear h1 ht hle
  induction L with
  | nil => cases h2
  | cons x L ih =>
    rcases List.mem_cons.1 h2 with rfl | h
    · exact le_max_left _ _
    · exact le_trans (ih h) (le_max_right _ _)

theorem Sched.Trips.trip (hn : 1 < n) (s : Sid) : (Sched.trip n s).Trips n 1 := by
  refine ⟨⟨trivial, trivial, List.nodup_range.filter _, by simp, fun i hi => by simpa using (List.mem_filter.1 hi).1, trivial⟩, fun m => ?_⟩
  simp only [Sched.trip, Sched.run]
  have e : ((List.range n).map fun j => if j = 0 then clk n m 0 else clk n m j + 1).foldr max (clk n m 0) = 2 * m + 1 := by
    refine foldr_max_eq (fun x hx => ?_) (List.mem_map.2 ⟨1, by simpa using hn, ?_⟩) ?_
    · obtain ⟨j, hj, rfl⟩ := List.mem_map.1 hx
      unfold clk
      split_ifs <;> omega
    · simp [clk, hn]
    · simp only [clk, if_true]; omega
  rw [e]
  funext i
  simp only [if_true, List.mem_filter, List.mem_range, decide_eq_true_eq, ne_eq]
  unfold clk
  by_cases hi : i = 0
  · simp [hi]; omega
  · by_cases hi' : i < n
    · simp [hi, hi']; omega
    · simp [hi, hi']

/-- How many round trips a protocol takes when it succeeds. -/
theorem Sched.Trips.takes (hn : 0 < n) {S : Sched} {R : Nat} (h : S.Trips n R) {ps : Fin n → Proc α}
    (hf : ∀ i : Fin n, Follows n i S (ps i)) {A : Sid → Prop} (hwf : ∀ i, (ps i).WF A) {rs : Fin n → α}
    (hy : AlwaysYields (Net.init ps) rs) : TakesRoundTrips R ps rs := by
  have := Sched.times hn h.ok hf (fun i => (hwf i).mono fun _ _ => trivial) hy
  have e : (fun _ : Nat => 0) = clk n 0 := by
    funext i
    simp [clk]
  rw [e, h.run] at this
  unfold TakesRoundTrips
  convert this using 3 with i
  simp [clk]

/-! ### The protocols -/

theorem follows_gather (n me : Nat) (bytes : Bytes) (s : Sid) : Follows n me (.up s .nil) (clientSendOrKingReceive n me bytes s) := by
  unfold clientSendOrKingReceive
  split_ifs with h
  · refine .gather h fun L => ?_
    cases kingFinish n L with
    | ok a => exact .ok _
    | error e => exact .error _ _
  · exact .send h (.ok _)

theorem follows_sendLoop (n : Nat) (bs : List Bytes) (m : Nat) (s : Sid) :
    ∀ ids : List Nat, Follows n 0 (.down s ids .nil) (kingSendLoop bs m s ids)
  | [] => .kingEnd rfl (.ok _)
  | id :: ids => by
    unfold kingSendLoop
    cases rd bs id with
    | error e => exact .error _ _
    | ok b =>
      show Follows n 0 _ (if b.length ≠ m then _ else _ : Proc Unit)
      split_ifs with h
      · exact .error _ _
      · exact .king rfl (follows_sendLoop n bs m s ids)

theorem follows_scatter {n me : Nat} (hme : me < n) (out : Option (List Bytes)) (s : Sid) :
    Follows n me (.down s ((List.range n).filter (· ≠ 0)) .nil) (clientReceiveOrKingSend n me out s) := by
  unfold clientReceiveOrKingSend
  cases out with
  | none =>
    simp only
    split_ifs with h
    · exact .error _ _
    · exact .recv h (by simp [h, hme]) fun b => .ok _
  | some bs =>
    simp only
    split_ifs with h
    · exact .error _ _
    · have h : me = 0 := by simpa using h
      subst h
      refine .lift fun b0 => ?_
      have := Follows.bind (follows_sendLoop n bs b0.length s ((List.range n).filter (· ≠ 0))) (S' := .nil) (f := fun _ => (liftM (rd bs 0) : Proc Bytes))
        fun _ => by
          show Follows n 0 .nil (Proc.done (rd bs 0))
          cases rd bs 0 with
          | ok a => exact .ok _
          | error e => exact .error _ _
      exact this

theorem follows_decode {me : Nat} {S : Sched} {p : Proc α} (h : Follows n me S p) (f : α → Res β) :
    Follows n me (S.andThen .nil) (p >>= fun a => (liftM (f a) : Proc β)) := by
  refine Follows.bind h fun a => ?_
  show Follows n me .nil (Proc.done (f a))
  cases f a with
  | ok b => exact .ok b
  | error e => exact .error e _

/-- A star round with whatever the king computes in between. -/
theorem follows_round {T U : Type} [Wire T] [Wire U] {n me : Nat} (hme : me < n) (x : T) (s : Sid) (thr : Nat)
    (K : Option (ReceivedShares T) → Res (Option (List U))) (fin : U → Proc β) {S : Sched} (hfin : ∀ u, Follows n me S (fin u)) :
    Follows n me ((Sched.trip n s).andThen S) (do
      let received ← clientSendOrKingReceiveSer n me x s thr
      let answer ← K received
      let out ← clientReceiveOrKingSendSer n me answer s
      fin out) := by
  have h1 := follows_decode (follows_gather n me (Wire.enc x) s) (decodeReceived (T := T) n thr)
  have h2 : ∀ a : Option (List U), Follows n me (.down s ((List.range n).filter (· ≠ 0)) .nil) (clientReceiveOrKingSendSer n me a s) := fun a =>
    follows_decode (follows_scatter hme (a.map fun o : List U => o.map Wire.enc) s) (decodeOrError (T := U))
  exact Follows.bind h1 fun rcv => Follows.lift fun a => Follows.bind (h2 a) hfin

section protocols
variable {F : Type} [Field F] [DecidableEq F] [FixedWire F] (pp : PSS F) (dbg : Bool) {n me : Nat} (hme : me < n)
include hme

theorem PSS.fft2WithRearrange_follows (px : List F) (mask : FftMask F) (rearrange : Bool) (g gen : F) (sid : Sid) (rng : Nat → Nat → F) :
    Follows n me (.trip n sid) (pp.fft2WithRearrange dbg n me px mask rearrange g gen sid rng) :=
  follows_round hme _ sid pp.t _ (fun out => pure (addMask out mask.outMask)) fun _ => .ok _

theorem PSS.dFft_follows (sh : List F) (mask : FftMask F) (rearrange : Bool) (dom : Domain F) (sid : Sid) (rng : Nat → Nat → F) :
    Follows n me (.trip n sid) (pp.dFft dbg n me sh mask rearrange dom sid rng) := by
  unfold PSS.dFft
  exact .lift fun _ => .lift fun _ => pp.fft2WithRearrange_follows dbg hme _ mask rearrange 1 dom.groupGen sid rng

theorem PSS.dIfft_follows (sh : List F) (mask : FftMask F) (rearrange : Bool) (dom : Domain F) (g : F) (sid : Sid) (rng : Nat → Nat → F) :
    Follows n me (.trip n sid) (pp.dIfft dbg n me sh mask rearrange dom g sid rng) := by
  unfold PSS.dIfft
  exact .lift fun _ => .lift fun _ => pp.fft2WithRearrange_follows dbg hme _ mask rearrange g dom.groupGenInv sid rng

omit [FixedWire F] in
theorem PSS.degRed_follows {T : Type} [AddCommGroup T] [Module F T] [DecidableEq T] [FixedWire T] (sh : List T) (mask : DegRedMask T) (sid : Sid)
    (rng : Nat → Nat → T) : Follows n me (.trip n sid) (pp.degRed dbg n me sh mask sid rng) := by
  unfold PSS.degRed
  exact .lift fun _ => .lift fun _ => follows_round hme _ sid pp.t _ (fun out => pure (addMask out mask.outMask)) fun _ => .ok _

omit [FixedWire F] in
theorem PSS.dMsm_follows {G : Type} [AddCommGroup G] [Module F G] [DecidableEq G] [FixedWire G] (bases : List G) (scalars : List F)
    (mask : MsmMask G) (sid : Sid) : Follows n me (.trip n sid) (pp.dMsm dbg n me bases scalars mask sid) := by
  unfold PSS.dMsm
  exact .lift fun _ => .lift fun _ => follows_round hme _ sid pp.t _ (fun out => pure (out + mask.outMask)) fun _ => .ok _

theorem PSS.dPp_follows (num den : List F) (mask : DegRedMask F) (sid : Sid) (rng rng' : Nat → Nat → F) :
    Follows n me ((Sched.trip n sid).andThen (.trip n sid)) (pp.dPp dbg n me num den mask sid rng rng') := by
  unfold PSS.dPp
  exact .lift fun sinv => follows_round hme _ sid pp.t _ (fun out : List F => pp.degRed dbg n me (out.map fun x => x * sinv) mask sid rng')
    fun _ => pp.degRed_follows dbg hme _ mask sid rng'

/-- Three schedules at the same time. -/
def Sched.join3 (A B C : Type) (a b c r : Sched) : Sched := .par (A × B) C (.par A B a b .nil) c r

omit hme in
theorem follows_tryJoin3 {A B C D : Type} {p : Proc A} {q : Proc B} {u : Proc C} {k : A → B → C → Proc D} {a b c r : Sched}
    (hp : Follows n me a p) (hq : Follows n me b q) (hu : Follows n me c u) (hk : ∀ x y z, Follows n me r (k x y z)) :
    Follows n me (.join3 A B C a b c r) (tryJoin3 p q u k) := .par (.par hp hq fun _ _ => .ok _) hu fun ab c => hk ab.1 ab.2 c

omit hme in
theorem Sched.Trips.join3 {A B C : Type} {a b c r : Sched} {R1 R2 R3 R4 : Nat} (h1 : a.Trips n R1) (h2 : b.Trips n R2) (h3 : c.Trips n R3)
    (h4 : r.Trips n R4) : (Sched.join3 A B C a b c r).Trips n (max (max R1 R2 + 0) R3 + R4) := .par (.par h1 h2 .nil) h3 h4

/-- The transforms of `circom_h` and `libsnark_h`. -/
def Sched.ext (F : Type) (n : Nat) : Sched :=
  .join3 (List F) (List F) (List F) (.trip n .zero) (.trip n .one) (.trip n .two)
    (.join3 (List F) (List F) (List F) (.trip n .zero) (.trip n .one) (.trip n .two) (.trip n .zero))

omit hme [Field F] [DecidableEq F] [FixedWire F] in
theorem Sched.Trips.ext (hn : 1 < n) : (Sched.ext F n).Trips n 3 :=
  .join3 (.trip hn _) (.trip hn _) (.trip hn _) (.join3 (.trip hn _) (.trip hn _) (.trip hn _) (.trip hn _))

theorem PSS.circomH_follows [FftField F] (q : PackedQAPShare F) (mask : Nat → FftMask F) (dmask : DegRedMask F) (rng : Nat → Nat → Nat → F) :
    Follows n me (.ext F n) (pp.circomH dbg n me q mask dmask rng) := by
  unfold PSS.circomH
  exact .lift fun _ => follows_tryJoin3 (pp.dIfft_follows dbg hme ..) (pp.dIfft_follows dbg hme ..) (pp.dIfft_follows dbg hme ..) fun _ _ _ =>
    follows_tryJoin3 (pp.dFft_follows dbg hme ..) (pp.dFft_follows dbg hme ..) (pp.dFft_follows dbg hme ..) fun _ _ _ => pp.degRed_follows dbg hme ..

theorem PSS.libsnarkH_follows [FftField F] (q : PackedQAPShare F) (mask : Nat → FftMask F) (rng : Nat → Nat → Nat → F) :
    Follows n me (.ext F n) (pp.libsnarkH dbg n me q mask rng) := by
  unfold PSS.libsnarkH
  exact .lift fun _ => follows_tryJoin3 (pp.dIfft_follows dbg hme ..) (pp.dIfft_follows dbg hme ..) (pp.dIfft_follows dbg hme ..) fun _ _ _ =>
    follows_tryJoin3 (pp.dFft_follows dbg hme ..) (pp.dFft_follows dbg hme ..) (pp.dFft_follows dbg hme ..) fun _ _ _ => .lift fun _ => pp.dIfft_follows dbg hme ..

section groups
variable {G1 G2 : Type} [AddCommGroup G1] [Module F G1] [DecidableEq G1] [FixedWire G1]
  [AddCommGroup G2] [Module F G2] [DecidableEq G2] [FixedWire G2]

omit [FixedWire F] in
theorem PSS.proveA_follows (L N AG1 : G1) (S : List G1) (a : List F) (r : F) (mask : MsmMask G1) (sid : Sid) :
    Follows n me (.trip n sid) (pp.proveA dbg n me L N AG1 S a r mask sid) :=
  Follows.bind (pp.dMsm_follows dbg hme S a mask sid) fun _ => .ok _

omit [FixedWire F] in
theorem PSS.proveBInG1_follows (Z K BG1 : G1) (H : List G1) (a : List F) (s r : F) (mask : MsmMask G1) (sid : Sid) :
    Follows n me (if r = 0 then .nil else .trip n sid) (pp.proveBInG1 dbg n me Z K BG1 H a s r mask sid) := by
  unfold PSS.proveBInG1
  split_ifs
  · exact .ok _
  · exact Follows.bind (pp.dMsm_follows dbg hme H a mask sid) fun _ => .ok _

omit [FixedWire F] in
theorem PSS.proveBInG2_follows (Z K BG2 : G2) (V : List G2) (a : List F) (s : F) (mask : MsmMask G2) (sid : Sid) :
    Follows n me (.trip n sid) (pp.proveBInG2 dbg n me Z K BG2 V a s mask sid) :=
  Follows.bind (pp.dMsm_follows dbg hme V a mask sid) fun _ => .ok _

omit [FixedWire F] in
theorem PSS.proveC_follows (A B : G1) (s r : F) (M : G1) (W U : List G1) (ax h : List F) (m0 m1 : MsmMask G1) :
    Follows n me (.par G1 G1 (.trip n .zero) (.trip n .one) .nil) (pp.proveC dbg n me A B s r M W U ax h m0 m1) :=
  .par (pp.dMsm_follows dbg hme ..) (pp.dMsm_follows dbg hme ..) fun _ _ => .ok _

/-- A proving session; `z` says whether the shares of `r` are zero. -/
def Sched.session (F G1 : Type) (n : Nat) (z : Prop) [Decidable z] : Sched :=
  (Sched.ext F n).andThen ((Sched.trip n .zero).andThen ((if z then .nil else .trip n .zero : Sched).andThen ((Sched.trip n .zero).andThen
    ((Sched.par G1 G1 (.trip n .zero) (.trip n .one) .nil).andThen .nil))))

omit hme in
theorem Sched.Trips.session {F G1 : Type} (hn : 1 < n) (z : Prop) [Decidable z] :
    (Sched.session F G1 n z).Trips n (if z then 6 else 7) := by
  have h : (if z then .nil else .trip n .zero : Sched).Trips n (if z then 0 else 1) := by
    split_ifs
    · exact .nil
    · exact .trip hn _
  have := (Sched.Trips.ext (F := F) hn).andThen ((Sched.Trips.trip hn .zero).andThen (h.andThen ((Sched.Trips.trip hn .zero).andThen
    ((Sched.Trips.par (β := G1) (γ := G1) (.trip hn .zero) (.trip hn .one) .nil).andThen .nil))))
  have e : 3 + (1 + ((if z then 0 else 1) + (1 + (max 1 1 + 0 + 0)))) = if z then 6 else 7 := by split_ifs <;> rfl
  rwa [e] at this

theorem PSS.dsha256_follows [FftField F] (crs : PackedProvingKeyShare G1 G2) (q : PackedQAPShare F) (a ax : List F) (r s : F)
    (fftMask : Nat → FftMask F) (dmask : DegRedMask F) (g1Mask : Nat → MsmMask G1) (g2Mask : MsmMask G2) (rng : Nat → Nat → Nat → F) :
    Follows n me (.session F G1 n (r = 0)) (pp.dsha256 dbg n me crs q a ax r s fftMask dmask g1Mask g2Mask rng) :=
  Follows.bind (pp.circomH_follows dbg hme ..) fun _ => Follows.bind (pp.proveA_follows dbg hme ..) fun _ =>
    Follows.bind (pp.proveBInG1_follows dbg hme ..) fun _ => Follows.bind (pp.proveBInG2_follows dbg hme ..) fun _ =>
    Follows.bind (pp.proveC_follows dbg hme ..) fun _ => .ok _

end groups

end protocols

end ZkSaas
