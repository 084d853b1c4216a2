import Verif.Lemmas.Runs
import Verif.Spec.Dies

/-! Runs in which the king fails in the middle of a protocol, possibly inside of `try_join!`. -/

set_option linter.unusedSectionVars false

namespace ZkSaas

open Spec

variable {n : Nat} {α β γ δ : Type}

/-- A program that has failed, or one branch of which has failed while the others do not use the stream `sid`. -/
inductive Broken (sid : Sid) : {α : Type} → Proc α → Prop where
  | err {α : Type} (e : Fault) : Broken sid (.done (.error e) : Proc α)
  | l {α β γ : Type} (p : Proc β) (q : Proc γ) (k : β → γ → Proc α) {S : Sid → Prop} (h : Broken sid p) (hq : q.WF S) (hS : ¬ S sid) :
      Broken sid (.par p q k)
  | r {α β γ : Type} (p : Proc β) (q : Proc γ) (k : β → γ → Proc α) {S : Sid → Prop} (h : Broken sid q) (hp : p.WF S) (hS : ¬ S sid) :
      Broken sid (.par p q k)

/-- A program that, in one of its branches, waits for the king on the stream `sid`. -/
inductive Waits (sid : Sid) : {α : Type} → Proc α → Prop where
  | recv {α : Type} (k : Bytes → Proc α) : Waits sid (.recv 0 sid k)
  | l {α β γ : Type} (p : Proc β) (q : Proc γ) (k : β → γ → Proc α) (h : Waits sid p) : Waits sid (.par p q k)
  | r {α β γ : Type} (p : Proc β) (q : Proc γ) (k : β → γ → Proc α) (h : Waits sid q) : Waits sid (.par p q k)

theorem Broken.step {sid : Sid} {p p' : Proc α} {a : Act} (h : Broken sid p) (hs : LStep p a p') (ha : Core a) :
    Broken sid p' ∧ a.sid? ≠ some sid := by
  induction h generalizing a with
  | err e => cases hs
  | l p q k h hq hS ih =>
    cases hs with
    | parL _ p1 _ _ _ hst =>
      obtain ⟨h1, h2⟩ := ih hst ha
      exact ⟨.l _ _ _ h1 hq hS, h2⟩
    | parR _ _ q1 _ _ hst => exact ⟨.l _ _ _ h (hst.wf hq) hS, fun e => hS (hst.sid hq _ e)⟩
    | join r s k => cases h
    | abortL e => exact absurd rfl ha.2
    | abortR e => exact absurd rfl ha.2
  | r p q k h hp hS ih =>
    cases hs with
    | parL _ p1 _ _ _ hst => exact ⟨.r _ _ _ h (hst.wf hp) hS, fun e => hS (hst.sid hp _ e)⟩
    | parR _ _ q1 _ _ hst =>
      obtain ⟨h1, h2⟩ := ih hst ha
      exact ⟨.r _ _ _ h1 hp hS, h2⟩
    | join r s k => cases h
    | abortL e => exact absurd rfl ha.2
    | abortR e => exact absurd rfl ha.2

theorem Waits.step {sid : Sid} {p p' : Proc α} {a : Act} (h : Waits sid p) (hs : LStep p a p') (ha : Core a) (hb : ∀ b, a ≠ .recv 0 sid b) :
    Waits sid p' := by
  induction h generalizing a with
  | recv k =>
    cases hs with
    | recv _ _ b => exact absurd rfl (hb b)
    | recvFail => exact absurd rfl ha.1
  | l p q k h ih =>
    cases hs with
    | parL _ p1 _ _ _ hst => exact .l _ _ _ (ih hst ha hb)
    | parR _ _ q1 _ _ hst => exact .l _ _ _ h
    | join r s k => cases h
    | abortL e => exact absurd rfl ha.2
    | abortR e => exact absurd rfl ha.2
  | r p q k h ih =>
    cases hs with
    | parL _ p1 _ _ _ hst => exact .r _ _ _ h
    | parR _ _ q1 _ _ hst => exact .r _ _ _ (ih hst ha hb)
    | join r s k => cases h
    | abortL e => exact absurd rfl ha.2
    | abortR e => exact absurd rfl ha.2

theorem Broken.bind {sid : Sid} {p : Proc α} (h : Broken sid p) (f : α → Proc β) : Broken sid (p.bind f) := by
  cases h with
  | err e => exact .err e
  | l p q k h hq hS => exact .l _ _ _ h hq hS
  | r p q k h hq hS => exact .r _ _ _ h hq hS

theorem Waits.bind {sid : Sid} {p : Proc α} (h : Waits sid p) (f : α → Proc β) : Waits sid (p.bind f) := by
  cases h with
  | recv k => exact .recv _
  | l p q k h => exact .l _ _ _ h
  | r p q k h => exact .r _ _ _ h

/-- The king has failed on the stream `sid`, on which everybody else waits for it. -/
structure Dead (hn : 0 < n) (sid : Sid) (c : Net n α) : Prop where
  king : Broken sid (c.procs ⟨0, hn⟩)
  rest : ∀ i : Fin n, i.val ≠ 0 → Waits sid (c.procs i) ∧ c.queues (0, i.val, sid) = []

theorem Dead.step {hn : 0 < n} {sid : Sid} {c c' : Net n α} (h : Dead hn sid c) (hs : GStep Core c c') : Dead hn sid c' := by
  cases hs with
  | mk procs Q Q' i a p' ha hst hq =>
    obtain ⟨hk, hr⟩ := h
    dsimp only at hk hr
    by_cases hi : i = ⟨0, hn⟩
    · subst hi
      obtain ⟨h1, h2⟩ := hk.step hst ha
      refine ⟨by dsimp only; rw [Function.update_self]; exact h1, fun j hj => ?_⟩
      have hji : j ≠ ⟨0, hn⟩ := fun e => hj (by rw [e])
      dsimp only
      rw [Function.update_of_ne hji]
      refine ⟨(hr j hj).1, ?_⟩
      cases a with
      | send d s b =>
        simp only [qstep, Option.some.injEq] at hq
        subst hq
        rw [Function.update_of_ne]
        · exact (hr j hj).2
        · rintro e
          cases e
          exact h2 rfl
      | recv f s b =>
        simp only [qstep] at hq
        split at hq
        · cases hq
        · split_ifs at hq
          cases hq
          rw [Function.update_of_ne]
          · exact (hr j hj).2
          · rintro e
            exact hj (congrArg (fun x => x.2.1) e)
      | _ => cases hq; exact (hr j hj).2
    · have hi0 : i.val ≠ 0 := fun e => hi (Fin.ext e)
      refine ⟨by dsimp only; rw [Function.update_of_ne (Ne.symm hi)]; exact hk, fun j hj => ?_⟩
      have hQ : Q' (0, j.val, sid) = [] := by
        cases a with
        | send d s b =>
          simp only [qstep, Option.some.injEq] at hq
          subst hq
          rw [Function.update_of_ne]
          · exact (hr j hj).2
          · rintro e
            exact hi0 (Prod.mk.inj e).1.symm
        | recv f s b =>
          simp only [qstep] at hq
          split at hq
          · cases hq
          · next x rest hx =>
            split_ifs at hq
            cases hq
            by_cases e : (0, j.val, sid) = (f, i.val, s)
            · rw [← e, (hr j hj).2] at hx
              cases hx
            · rw [Function.update_of_ne e]
              exact (hr j hj).2
        | _ => cases hq; exact (hr j hj).2
      refine ⟨?_, hQ⟩
      dsimp only
      by_cases hji : j = i
      · subst hji
        rw [Function.update_self]
        refine (hr j hj).1.step hst ha fun b e => ?_
        subst e
        simp only [qstep, (hr j hj).2] at hq
        cases hq
      · rw [Function.update_of_ne hji]
        exact (hr j hj).1

theorem Dead.steps {hn : 0 < n} {sid : Sid} {k : Nat} {c c' : Net n α} (h : Dead hn sid c) (hs : GSteps Core k c c') : Dead hn sid c' := by
  induction hs with
  | refl => exact h
  | step h1 _ ih => exact ih (h.step h1)

theorem Dead.not_ok {hn : 0 < n} {sid : Sid} {c : Net n α} (h : Dead hn sid c) (i : Fin n) (v : α) : c.procs i ≠ .done (.ok v) := by
  intro e
  by_cases hi : i.val = 0
  · have : i = ⟨0, hn⟩ := Fin.ext hi
    subst this
    have := h.king
    rw [e] at this
    cases this
  · have := (h.rest i hi).1
    rw [e] at this
    cases this

/-! ### Executions can be joined -/

theorem GSteps.strip_one {m : Nat} {c c1 c2 : Net n α} (hc : c.WF) (h1 : GStep Core c c1) (h2 : GSteps Core m c c2) :
    ∃ d k k', GSteps Core k c1 d ∧ GSteps Core k' c2 d := by
  induction h2 generalizing c1 with
  | refl c => exact ⟨c1, 0, 1, .refl _, .step h1 (.refl _)⟩
  | step hs hr ih =>
    rcases GStep.diamond (fun _ h => h) (fun _ h => h) hc h1 hs with rfl | ⟨d, hd1, hd2⟩
    · exact ⟨_, _, 0, hr, .refl _⟩
    · obtain ⟨d', k, k', q1, q2⟩ := ih (hs.wf hc) hd2
      exact ⟨d', k + 1, k', .step hd1 q1, q2⟩

theorem GSteps.joins {k m : Nat} {c c1 c2 : Net n α} (hc : c.WF) (h1 : GSteps Core k c c1) (h2 : GSteps Core m c c2) :
    ∃ d k k', GSteps Core k c1 d ∧ GSteps Core k' c2 d := by
  induction h1 generalizing c2 m with
  | refl c => exact ⟨c2, m, 0, h2, .refl _⟩
  | step hs _ ih =>
    obtain ⟨d, j, j', q1, q2⟩ := GSteps.strip_one hc hs h2
    obtain ⟨d', i, i', r1, r2⟩ := ih (hs.wf hc) q1
    exact ⟨d', i, j' + i', r1, q2.trans r2⟩

/-! ### Cancelled branches -/

/-- `p` is `q` with some branches cancelled. -/
inductive Cut : {α : Type} → Proc α → Proc α → Prop where
  | refl {α : Type} (p : Proc α) : Cut p p
  | err {α : Type} (e : Fault) (p : Proc α) : Cut (.done (.error e)) p
  | par {α β γ : Type} {p p' : Proc β} {q q' : Proc γ} (k : β → γ → Proc α) (hp : Cut p p') (hq : Cut q q') : Cut (.par p q k) (.par p' q' k)

theorem Cut.ok {r : α} {p : Proc α} (h : Cut (.done (.ok r)) p) : p = .done (.ok r) := by
  cases h
  rfl

theorem Cut.abort {p p' q : Proc α} {a : Act} (h : Cut p q) (hs : LStep p a p') (ha : a = .abort) : Cut p' q := by
  induction hs with
  | parL p p' r k a hst ih =>
    cases h with
    | refl => exact .par _ (ih (.refl _) ha) (.refl _)
    | par _ hp hq => exact .par _ (ih hp ha) hq
  | parR p r r' k a hst ih =>
    cases h with
    | refl => exact .par _ (.refl _) (ih (.refl _) ha)
    | par _ hp hq => exact .par _ hp (ih hq ha)
  | abortL e q k => exact .err _ _
  | abortR e p k => exact .err _ _
  | _ => cases ha

theorem Cut.step {p p' q : Proc α} {a : Act} (h : Cut p q) (hs : LStep p a p') (ha : Core a) : ∃ q', LStep q a q' ∧ Cut p' q' := by
  induction h generalizing a with
  | refl p => exact ⟨p', hs, .refl _⟩
  | err e p => cases hs
  | par k hp hq ihp ihq =>
    cases hs with
    | parL _ p1 _ _ _ hst =>
      obtain ⟨q', h1, h2⟩ := ihp hst ha
      exact ⟨_, .parL _ _ _ _ _ h1, .par _ h2 hq⟩
    | parR _ _ q1 _ _ hst =>
      obtain ⟨q', h1, h2⟩ := ihq hst ha
      exact ⟨_, .parR _ _ _ _ _ h1, .par _ hp h2⟩
    | join r s k =>
      obtain rfl := hp.ok
      obtain rfl := hq.ok
      exact ⟨_, .join _ _ _, .refl _⟩
    | abortL e => exact absurd rfl ha.2
    | abortR e => exact absurd rfl ha.2

/-- Every reliable execution is one without cancellations, but for the branches that were cancelled. -/
theorem GSteps.uncut {k : Nat} {c d c' : Net n α} (hs : GSteps Reliable k c c') (hc : ∀ i, Cut (c.procs i) (d.procs i)) (hq : c.queues = d.queues) :
    ∃ m d', GSteps Core m d d' ∧ (∀ i, Cut (c'.procs i) (d'.procs i)) := by
  induction hs generalizing d with
  | refl => exact ⟨0, d, .refl _, hc⟩
  | step h1 _ ih =>
    cases h1 with
    | mk procs Q Q' i a p' ha hst hqs =>
      obtain ⟨ps, R⟩ := d
      dsimp only at hc hq
      subst hq
      by_cases hab : a = .abort
      · refine ih (d := ⟨ps, Q⟩) (fun j => ?_) (by subst hab; cases hqs; rfl)
        dsimp only
        by_cases hj : j = i
        · subst hj
          rw [Function.update_self]
          exact (hc j).abort hst hab
        · rw [Function.update_of_ne hj]
          exact hc j
      · obtain ⟨q', h1, h2⟩ := (hc i).step hst ⟨ha, hab⟩
        obtain ⟨m, d', g1, g2⟩ := ih (d := ⟨Function.update ps i q', Q'⟩) (fun j => by
          dsimp only
          by_cases hj : j = i
          · subst hj
            rw [Function.update_self, Function.update_self]
            exact h2
          · rw [Function.update_of_ne hj, Function.update_of_ne hj]
            exact hc j) rfl
        exact ⟨m + 1, d', .step (.mk ps Q Q' i a q' ⟨ha, hab⟩ h1 hqs) g1, g2⟩

theorem Dead.nobody {hn : 0 < n} {sid : Sid} {c t : Net n α} (hc : c.WF) (h : Reach All c t) (hd : Dead hn sid t) : NobodyFinishes c := by
  intro k c' hs i v e
  obtain ⟨m, d', g, hcut⟩ := hs.uncut (d := c) (fun _ => .refl _) rfl
  obtain ⟨j, h⟩ := h
  obtain ⟨x, a, a', q1, q2⟩ := GSteps.joins hc g (h.mono fun _ h => h.1)
  have hok := hcut i
  rw [e] at hok
  have stay : ∀ {k : Nat} {c c' : Net n α}, GSteps Core k c c' → c.procs i = .done (.ok v) → c'.procs i = .done (.ok v) := by
    intro k c c' h
    induction h with
    | refl => exact id
    | step h1 _ ih =>
      intro e
      apply ih
      cases h1 with
      | mk procs Q Q' l a p' ha hst hq =>
        dsimp only at e ⊢
        by_cases hil : i = l
        · subst hil
          rw [e] at hst
          cases hst
        · rw [Function.update_of_ne hil]
          exact e
  exact (hd.steps q2).not_ok i v (stay q1 hok.ok)

/-! ### Composition -/

/-- From any state of the other streams, the programs can run to a state in which the king has failed on the stream `sid` and everybody waits for it. -/
def Dies (hn : 0 < n) (sid : Sid) (S : Sid → Prop) (ps : Fin n → Proc α) : Prop :=
  ∀ Q : Queues, (∀ i j s, S s → Q (i, j, s) = []) → ∃ t, Reach All ⟨ps, Q⟩ t ∧ Dead hn sid t

theorem Dies.congr {hn : 0 < n} {sid : Sid} {S : Sid → Prop} {ps ps' : Fin n → Proc α} (h : Dies hn sid S ps) (hp : ∀ i, ps' i = ps i) :
    Dies hn sid S ps' := by
  obtain rfl : ps' = ps := funext hp
  exact h

theorem Dies.mono {hn : 0 < n} {sid : Sid} {S S' : Sid → Prop} {ps : Fin n → Proc α} (h : Dies hn sid S ps) (hS : ∀ x, S x → S' x) :
    Dies hn sid S' ps := fun Q hQ => h Q fun i j s hs => hQ i j s (hS s hs)

theorem Dies.bind {hn : 0 < n} {sid : Sid} {S : Sid → Prop} {ps : Fin n → Proc α} (h : Dies hn sid S ps) (f : Fin n → α → Proc β) :
    Dies hn sid S (fun i => (ps i).bind (f i)) := fun Q hQ => by
  obtain ⟨t, r, hk, hr⟩ := h Q hQ
  exact ⟨_, r.bind f, hk.bind _, fun i hi => ⟨(hr i hi).1.bind _, (hr i hi).2⟩⟩

theorem Runs.dies {hn : 0 < n} {sid : Sid} {S : Sid → Prop} {ps : Fin n → Proc α} {rs : Fin n → α} (h : Runs All S ps rs) {f : Fin n → α → Proc β}
    (hf : Dies hn sid S (fun i => f i (rs i))) : Dies hn sid S (fun i => (ps i).bind (f i)) := fun Q hQ => by
  obtain ⟨t, r, hd⟩ := hf Q hQ
  exact ⟨t, ((h Q hQ).bind f).trans r, hd⟩

theorem Dies.parL {hn : 0 < n} {sid : Sid} {S S2 : Sid → Prop} {ps : Fin n → Proc α} (h : Dies hn sid S ps) {qs : Fin n → Proc β}
    (hq : ∀ i, (qs i).WF S2) (hS : ¬ S2 sid) (k : Fin n → α → β → Proc γ) : Dies hn sid S (fun i => .par (ps i) (qs i) (k i)) := fun Q hQ => by
  obtain ⟨t, r, hk, hr⟩ := h Q hQ
  exact ⟨_, r.lift (fun i p => Proc.par p (qs i) (k i)) fun i p a p' h => .parL _ _ _ _ _ h, .l _ _ _ hk (hq _) hS,
    fun i hi => ⟨.l _ _ _ (hr i hi).1, (hr i hi).2⟩⟩

theorem Dies.parR {hn : 0 < n} {sid : Sid} {S S2 : Sid → Prop} {ps : Fin n → Proc α} {qs : Fin n → Proc β} (h : Dies hn sid S qs)
    (hp : ∀ i, (ps i).WF S2) (hS : ¬ S2 sid) (k : Fin n → α → β → Proc γ) : Dies hn sid S (fun i => .par (ps i) (qs i) (k i)) := fun Q hQ => by
  obtain ⟨t, r, hk, hr⟩ := h Q hQ
  exact ⟨_, r.lift (fun i q => Proc.par (ps i) q (k i)) fun i p a p' h => .parR _ _ _ _ _ h, .r _ _ _ hk (hp _) hS,
    fun i hi => ⟨.r _ _ _ (hr i hi).1, (hr i hi).2⟩⟩

/-- A star round in which the king's computation fails. -/
theorem round_dies {T U : Type} [Wire T] [Wire U] (hn : 0 < n) (sid : Sid) (threshold : Nat) (x : Nat → T)
    (hx : ∀ i < n, Wire.Ok (x i)) (K : Fin n → ReceivedShares T → Res (List U)) (e : Fault)
    (hK : K ⟨0, hn⟩ ⟨(List.range n).map x, List.range n⟩ = .error e) (f : Fin n → U → Proc α) :
    Dies hn sid (only sid) (fun i : Fin n => (clientSendOrKingReceiveSer n i (x i) sid threshold).bind fun r =>
      (Proc.done (kingDo (K i) r)).bind fun a => (clientReceiveOrKingSendSer n i a sid).bind (f i)) := by
  intro Q hQ
  have hm := (reach_sendReceive (P := All) hn sid threshold x hx Q fun i => hQ _ _ _ rfl).bind
    (fun i r => (Proc.done (kingDo (K i) r)).bind fun a => (clientReceiveOrKingSendSer n i a sid).bind (f i))
  have hprocs : ∀ i : Fin n, ((Proc.done (.ok (if i.val = 0 then some (⟨(List.range n).map x, List.range n⟩ : ReceivedShares T)
      else none)) : Proc (Option (ReceivedShares T))).bind (fun r => (Proc.done (kingDo (K i) r)).bind fun a =>
        (clientReceiveOrKingSendSer n i a sid).bind (f i))) =
      if i.val = 0 then .done (.error e) else .recv 0 sid fun b => (Proc.done (decodeOrError b)).bind (f i) := by
    intro i
    by_cases hi : i.val = 0
    · have : i = ⟨0, hn⟩ := Fin.ext hi
      subst this
      simp only [if_true, Proc.bind, kingDo, hK]
      rfl
    · simp only [hi, if_false, Proc.bind, kingDo]
      simp only [clientReceiveOrKingSendSer, clientReceiveOrKingSend, Option.map_none, hi, if_false]
      rfl
  simp only [hprocs] at hm
  exact ⟨_, hm, .err e, fun i hi => ⟨by simp only [hi, if_false]; exact .recv _, hQ _ _ _ rfl⟩⟩

end ZkSaas
