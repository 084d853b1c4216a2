import Verif.Spec.Traffic
import Verif.Lemmas.Volume
import Verif.Lemmas.Latency

/-! Messages of all executions, and executions that look alike. -/

set_option linter.unusedSectionVars false

namespace ZkSaas

open Spec

variable {n : Nat} {α β γ δ : Type}

/-! ### The messages of a trace -/

/-- The message, if the step of party `p` is a send on the link and the stream. -/
def sentBy (i j : Nat) (x : Sid) (p : Nat) (a : Act) : Option Bytes :=
  if p = i then (match a with | .send d y b => if d = j ∧ y = x then some b else none | _ => none) else none

theorem sentOn_nil (i j : Nat) (x : Sid) : sentOn [] i j x = [] := rfl

theorem sentOn_cons (p : Nat) (a : Act) (tr : List (Nat × Act)) (i j : Nat) (x : Sid) :
    sentOn ((p, a) :: tr) i j x = (sentBy i j x p a).toList ++ sentOn tr i j x := by
  have h : ∀ l : List (Nat × Act), sentOn l i j x = l.filterMap fun e => sentBy i j x e.1 e.2 := fun l => by
    unfold sentOn sentBy; rfl
  rw [h, h, List.filterMap_cons]
  cases sentBy i j x p a <;> rfl

theorem sentOn_append (tr tr' : List (Nat × Act)) (i j : Nat) (x : Sid) : sentOn (tr ++ tr') i j x = sentOn tr i j x ++ sentOn tr' i j x := by
  unfold sentOn; rw [List.filterMap_append]

theorem sentOn_swap {p q : Nat} {a a' : Act} (hc : Compat p a q a') (tr : List (Nat × Act)) (i j : Nat) (x : Sid) :
    sentOn ((p, a) :: (q, a') :: tr) i j x = sentOn ((q, a') :: (p, a) :: tr) i j x := by
  rw [sentOn_cons, sentOn_cons, sentOn_cons, sentOn_cons, ← List.append_assoc, ← List.append_assoc]
  congr 1
  cases h1 : sentBy i j x p a with
  | none => simp
  | some b =>
    cases h2 : sentBy i j x q a' with
    | none => simp
    | some b' =>
      exfalso
      unfold sentBy at h1 h2
      split_ifs at h1 with hp
      split_ifs at h2 with hq
      cases a with
      | send d y b =>
        cases a' with
        | send d' y' b' =>
          simp only at h1 h2
          split_ifs at h1 with h3
          split_ifs at h2 with h4
          exact hc.1 _ _ _ _ _ _ rfl rfl (by rw [hp, hq, h3.1, h3.2, h4.1, h4.2])
        | _ => cases h2
      | _ => cases h1

theorem sentOn_length (tr : List (Nat × Act)) (i j : Nat) (x : Sid) : (sentOn tr i j x).length = sent tr i j x := by
  induction tr with
  | nil => rfl
  | cons e tr ih =>
    obtain ⟨p, a⟩ := e
    rw [sentOn_cons, sent_cons, List.length_append, ih, add_comm]
    congr 1
    unfold sentBy Act.sends
    by_cases hp : p = i
    · rw [if_pos hp, if_pos hp]
      cases a with
      | send d y b =>
        simp only
        by_cases h : d = j ∧ y = x
        · rw [if_pos h]; simp [isSend, h.1, h.2]
        · rw [if_neg h]; simp [isSend]; exact fun h1 h2 => h ⟨h1, h2⟩
      | _ => rfl
    · rw [if_neg hp, if_neg hp]; rfl

theorem sentOn_mem {tr : List (Nat × Act)} {i j : Nat} {x : Sid} {b : Bytes} (h : b ∈ sentOn tr i j x) : (i, Act.send j x b) ∈ tr := by
  unfold sentOn at h
  rw [List.mem_filterMap] at h
  obtain ⟨⟨p, a⟩, he, h⟩ := h
  simp only at h
  split_ifs at h with hp
  cases a with
  | send d y b' =>
    simp only at h
    split_ifs at h with h3
    cases h
    rw [← hp, ← h3.1, ← h3.2]; exact he
  | _ => cases h

/-! ### All executions send the same messages -/

theorem Spec.Trace.strip {tr : List (Nat × Act)} {c t : Net n α} (ht : Trace tr c t) (hc : c.WF) (hcore : ∀ e ∈ tr, Core e.2)
    (hd : ∀ i, ∃ v, t.procs i = .done (.ok v)) {procs : Fin n → Proc α} {Q Q' : Queues} (he : c = ⟨procs, Q⟩) {i : Fin n} {a : Act}
    {p' : Proc α} (ha : Core a) (hstep : LStep (procs i) a p') (hq : qstep i a Q = some Q') :
    ∃ tr', Trace tr' ⟨Function.update procs i p', Q'⟩ t ∧ (∀ e ∈ tr', Core e.2) ∧
      ∀ x j s, sentOn tr x j s = sentOn ((i.val, a) :: tr') x j s := by
  induction ht generalizing procs Q Q' i a p' with
  | refl c =>
    subst he
    obtain ⟨v, hv⟩ := hd i
    simp only at hv
    rw [hv] at hstep
    cases hstep
  | @step procs0 Q0 Q1 i0 a0 p0 tr t hs0 hq0 hrest ih =>
    obtain ⟨hp0, hQ0⟩ := Net.mk.inj he
    subst hp0 hQ0
    clear he
    have ha0 : Core a0 := hcore (i0.val, a0) (by simp)
    have hcore' : ∀ e ∈ tr, Core e.2 := fun e h => hcore e (by simp [h])
    have hc1 : (⟨Function.update procs0 i0 p0, Q1⟩ : Net n α).WF := GStep.wf (ok := Core) (.mk _ _ _ _ _ _ ha0 hs0 hq0) hc
    -- the two steps commute
    have comm : ∀ (pa : Proc α) (pb : Proc α), Compat i0 a0 i a → LStep ((Function.update procs0 i0 p0) i) a pa →
        LStep ((Function.update procs0 i p') i0) a0 pb →
        Function.update (Function.update procs0 i0 p0) i pa = Function.update (Function.update procs0 i p') i0 pb →
        ∃ tr', Trace tr' ⟨Function.update procs0 i p', Q'⟩ t ∧ (∀ e ∈ tr', Core e.2) ∧
          ∀ x j s, sentOn ((i0.val, a0) :: tr) x j s = sentOn ((i.val, a) :: tr') x j s := by
      intro pa pb hcomp h1 h2 h3
      obtain ⟨Q2, g1, g2⟩ := qstep_comm hcomp hq0 hq
      obtain ⟨tr', f1, f2, f3⟩ := ih hc1 hcore' hd rfl ha h1 g1
      refine ⟨(i0.val, a0) :: tr', .step h2 g2 (h3 ▸ f1), fun e he => ?_, fun x j s => ?_⟩
      · rcases List.mem_cons.1 he with rfl | he
        · exact ha0
        · exact f2 e he
      · rw [sentOn_cons, f3, ← sentOn_cons, sentOn_swap hcomp]
    by_cases hij : i0 = i
    · subst hij
      obtain ⟨S, hS⟩ := hc i0
      rcases LStep.diamond hS hs0 hstep ha0 ha i0 with ⟨rfl, rfl⟩ | ⟨f, s, b, b', rfl, rfl, hne⟩ | ⟨hcomp, q, h1, h2⟩
      · rw [hq0] at hq
        cases hq
        exact ⟨tr, hrest, hcore', fun _ _ _ => rfl⟩
      · exfalso
        obtain ⟨_, g1, -⟩ := qstep_recv hq0
        obtain ⟨_, g2, -⟩ := qstep_recv hq
        rw [g1] at g2
        exact hne (List.cons.inj g2).1
      · exact comm q q hcomp (by simpa using h1) (by simpa using h2) (by simp)
    · exact comm p' p0 (Compat.of_ne fun h => hij (Fin.ext h)) (by rw [Function.update_of_ne (Ne.symm hij)]; exact hstep)
        (by rw [Function.update_of_ne hij]; exact hs0) (Function.update_comm hij _ _ _)

theorem Spec.Trace.sentOn_prefix {tr tr' : List (Nat × Act)} {c t c' : Net n α} (ht : Trace tr c t) (hc : c.WF) (hcore : ∀ e ∈ tr, Core e.2)
    (hd : ∀ i, ∃ v, t.procs i = .done (.ok v)) (ht' : Trace tr' c c') (hcore' : ∀ e ∈ tr', Core e.2) (i j : Nat) (x : Sid) :
    sentOn tr' i j x <+: sentOn tr i j x ∧ ((∀ i, ∃ v, c'.procs i = .done (.ok v)) → sentOn tr' i j x = sentOn tr i j x) := by
  induction ht' generalizing tr with
  | refl c =>
    refine ⟨List.nil_prefix, fun h => ?_⟩
    cases ht with
    | refl => rfl
    | @step procs Q Q' m a p' _ _ hs _ _ =>
      obtain ⟨v, hv⟩ := h m
      simp only at hv
      rw [hv] at hs
      cases hs
  | @step procs Q Q' m a p' tr' c' hs hq _ ih =>
    obtain ⟨tr1, f1, f2, f3⟩ := ht.strip hc hcore hd rfl (hcore' (m.val, a) (by simp)) hs hq
    have hc1 : (⟨Function.update procs m p', Q'⟩ : Net n α).WF := GStep.wf (ok := Core) (.mk _ _ _ _ _ _ (hcore' (m.val, a) (by simp)) hs hq) hc
    obtain ⟨g1, g2⟩ := ih f1 hc1 f2 fun e he => hcore' e (by simp [he])
    rw [f3, sentOn_cons, sentOn_cons]
    exact ⟨(List.prefix_append_right_inj _).2 g1, fun h => by rw [g2 h]⟩

/-- Nothing fails in a protocol that always succeeds. -/
theorem not_bad {c : Net n α} {rs : Fin n → α} (hy : AlwaysYields c rs) {k : Nat} {c' : Net n α} (hk : GSteps Reliable k c c') (i : Fin n) :
    ¬ Bad (c'.procs i) := by
  intro hb
  obtain ⟨⟨m, hm⟩, hfin⟩ := hy
  obtain ⟨k', t, hk', hst⟩ := exists_stuck (c := c') (m := m) fun k' c' h' => le_trans (by omega) (hm _ _ (hk.trans h'))
  have hb' := hk'.bad hb
  rw [hfin _ _ (hk.trans hk') hst i] at hb'
  rcases hb' with he | ⟨e, he⟩
  · cases he
  · cases he

theorem Spec.Trace.split {tr tr' : List (Nat × Act)} {c c' : Net n α} (h : Trace (tr ++ tr') c c') : ∃ d, Trace tr c d ∧ Trace tr' d c' := by
  induction tr generalizing c with
  | nil => exact ⟨c, .refl c, h⟩
  | cons e tr ih =>
    cases h with
    | step h1 h2 h3 =>
      obtain ⟨d, f1, f2⟩ := ih h3
      exact ⟨d, .step h1 h2 f1, f2⟩

/-- Nothing is cancelled in a protocol that always succeeds. -/
theorem Spec.Trace.core {c : Net n α} {rs : Fin n → α} (hy : AlwaysYields c rs) {tr : List (Nat × Act)} {c' : Net n α} (h : Trace tr c c')
    (hnf : ∀ e ∈ tr, e.2 ≠ .fault) : ∀ e ∈ tr, Core e.2 := by
  intro e he
  refine ⟨hnf e he, fun hab => ?_⟩
  obtain ⟨t1, t2, rfl⟩ := List.append_of_mem he
  obtain ⟨d, h1, h2⟩ := h.split
  cases h2 with
  | step hs hq _ =>
    have hs' := hs.hasErr_of_abort hab
    exact not_bad hy (h1.gsteps (ok := Reliable) fun e he => hnf e (by simp [he])) _ (.inl hs')

/-- Every execution can be completed. -/
theorem complete {c : Net n α} {rs : Fin n → α} (hy : AlwaysYields c rs) {tr : List (Nat × Act)} {c' : Net n α} (h : Trace tr c c')
    (hnf : ∀ e ∈ tr, e.2 ≠ .fault) : ∃ tr' t, Trace tr' c' t ∧ (∀ e ∈ tr', e.2 ≠ .fault) ∧ ∀ i, t.procs i = .done (.ok (rs i)) := by
  obtain ⟨⟨m, hm⟩, hfin⟩ := hy
  have hk := h.gsteps (ok := Reliable) hnf
  obtain ⟨k', t, hk', hst⟩ := exists_stuck (c := c') (m := m) fun k' c' h' => le_trans (by omega) (hm _ _ (hk.trans h'))
  obtain ⟨tr', h1, h2⟩ := hk'.trace
  exact ⟨tr', t, h1, h2, hfin _ _ (hk.trans hk') hst⟩

/-- One execution with messages of certain lengths shows the lengths of all. -/
theorem sendsLengths_of_trace {c t : Net n α} {rs : Fin n → α} (hy : AlwaysYields c rs) (hc : c.WF) {tr : List (Nat × Act)} (ht : Trace tr c t)
    (hcore : ∀ e ∈ tr, Core e.2) (hd : ∀ i, ∃ v, t.procs i = .done (.ok v)) {lens : Nat → Nat → Sid → List Nat}
    (hl : ∀ i j x, (sentOn tr i j x).map List.length = lens i j x) : SendsLengths c lens := by
  intro tr' c' ht' hnf i j x
  obtain ⟨h1, h2⟩ := ht.sentOn_prefix hc hcore hd ht' (ht'.core hy hnf) i j x
  rw [← hl]
  exact ⟨h1.map _, fun h => by rw [h2 h]⟩

/-! ### Runs with lengths -/

/-- There is a run in which the messages of every link and stream have the given lengths, and nothing is left behind. -/
def RunsT (ps : Fin n → Proc α) (rs : Fin n → α) (up down : Sid → List Nat) : Prop :=
  ∃ tr, Trace tr (Net.init ps) ⟨fun i => .done (.ok (rs i)), fun _ => []⟩ ∧ (∀ e ∈ tr, Core e.2) ∧
    ∀ i j x, (sentOn tr i j x).map List.length = starLengths n up down i j x

theorem starLengths_append (up down up' down' : Sid → List Nat) (i j : Nat) (x : Sid) :
    starLengths n (fun s => up s ++ up' s) (fun s => down s ++ down' s) i j x = starLengths n up down i j x ++ starLengths n up' down' i j x := by
  unfold starLengths; split_ifs <;> rfl

theorem RunsT.done (rs : Fin n → α) : RunsT (fun i => .done (.ok (rs i))) rs (fun _ => []) fun _ => [] :=
  ⟨[], .refl _, by simp, fun i j x => by rw [sentOn_nil]; unfold starLengths; split_ifs <;> rfl⟩

theorem RunsT.congr {ps ps' : Fin n → Proc α} {rs rs' : Fin n → α} {up down up' down' : Sid → List Nat} (h : RunsT ps rs up down)
    (hp : ∀ i, ps' i = ps i) (hr : ∀ i, rs' i = rs i) (hu : ∀ s, up' s = up s) (hd : ∀ s, down' s = down s) : RunsT ps' rs' up' down' := by
  obtain rfl : ps' = ps := funext hp
  obtain rfl : rs' = rs := funext hr
  obtain rfl : up' = up := funext hu
  obtain rfl : down' = down := funext hd
  exact h

theorem Spec.Trace.lift {tr : List (Nat × Act)} {c c' : Net n α} (h : Trace tr c c') (E : Fin n → Proc α → Proc β)
    (hE : ∀ i p a p', LStep p a p' → LStep (E i p) a (E i p')) :
    Trace tr ⟨fun i => E i (c.procs i), c.queues⟩ ⟨fun i => E i (c'.procs i), c'.queues⟩ := by
  induction h with
  | refl => exact .refl _
  | @step procs Q Q' i a p' tr c hs hq _ ih =>
    have e : (fun j => E j (Function.update procs i p' j)) = Function.update (fun i => E i (procs i)) i (E i p') := by
      funext j
      by_cases hj : j = i
      · subst hj; simp
      · simp [Function.update_of_ne hj]
    simp only at ih
    rw [e] at ih
    exact .step (hE i _ _ _ hs) hq ih

theorem RunsT.bind {ps : Fin n → Proc α} {rs : Fin n → α} {up down : Sid → List Nat} (h : RunsT ps rs up down) {f : Fin n → α → Proc β}
    {out : Fin n → β} {up' down' : Sid → List Nat} (hf : RunsT (fun i => f i (rs i)) out up' down') :
    RunsT (fun i => (ps i).bind (f i)) out (fun s => up s ++ up' s) fun s => down s ++ down' s := by
  obtain ⟨tr, h1, h2, h3⟩ := h
  obtain ⟨tr', g1, g2, g3⟩ := hf
  refine ⟨tr ++ tr', (h1.lift (fun i p => p.bind (f i)) fun _ _ _ _ h => h.bind _).append g1, fun e he => ?_, fun i j x => ?_⟩
  · exact (List.mem_append.1 he).elim (h2 e) (g2 e)
  · rw [sentOn_append, List.map_append, h3, g3, starLengths_append]

/-- The number of messages of a complete execution. -/
theorem sentOn_count {ps : Fin n → Proc α} {rs : Fin n → α} {R : Sid → Nat} (hr : ∀ i, (ps i).Rounds n i R) {tr : List (Nat × Act)}
    (ht : Trace tr (Net.init ps) ⟨fun i => .done (.ok (rs i)), fun _ => []⟩) (i j : Nat) (x : Sid) :
    (sentOn tr i j x).length = if (i = 0 ∧ 1 ≤ j ∧ j < n) ∨ (j = 0 ∧ 1 ≤ i ∧ i < n) then R x else 0 := by
  rw [sentOn_length]
  by_cases hi : i < n
  · obtain ⟨s, lo, hi', h1, e1, -, -⟩ := Proc.Says.trace ht ⟨i, hi⟩ (hr ⟨i, hi⟩)
    cases h1 with
    | ok _ _ _ _ z w =>
      have := e1 j x
      rw [z, Nat.zero_add] at this
      rw [← this]
      have hP : Peer' n (⟨i, hi⟩ : Fin n).val j ↔ (i = 0 ∧ 1 ≤ j ∧ j < n) ∨ (i ≠ 0 ∧ j = 0) := Iff.rfl
      by_cases h1 : (i = 0 ∧ 1 ≤ j ∧ j < n) ∨ (j = 0 ∧ 1 ≤ i ∧ i < n)
      · rw [if_pos h1, if_pos (hP.2 (by omega))]
      · rw [if_neg h1, if_neg (by rw [hP]; omega)]
  · rw [if_neg (by omega), ← sentOn_length]
    have : sentOn tr i j x = [] := by
      rw [List.eq_nil_iff_forall_not_mem]
      intro b hb
      have := ht.lt _ (sentOn_mem hb)
      omega
    rw [this]; rfl

/-- Star rounds with messages of one size. -/
theorem Runs.runsT {ps : Fin n → Proc α} {rs : Fin n → α} {m : Nat} (h : Runs (Sized m) (fun _ => True) ps rs) {R : Sid → Nat}
    (hr : ∀ i, (ps i).Rounds n i R) : RunsT ps rs (fun s => List.replicate (R s) m) fun s => List.replicate (R s) m := by
  obtain ⟨k, hk⟩ := h (fun _ => []) (fun _ _ _ _ => rfl)
  obtain ⟨tr, ht, ho⟩ := hk.trace
  refine ⟨tr, ht, fun e he => (ho e he).1, fun i j x => ?_⟩
  have hall : ∀ y ∈ (sentOn tr i j x).map List.length, y = m := by
    intro y hy
    obtain ⟨b, hb, rfl⟩ := List.mem_map.1 hy
    exact (ho _ (sentOn_mem hb)).2 _ _ _ rfl
  rw [List.eq_replicate_of_mem hall, List.length_map, sentOn_count hr ht]
  unfold starLengths
  split_ifs <;> first | rfl | omega

theorem sentOn_bytes (tr : List (Nat × Act)) (i j : Nat) (x : Sid) : ((sentOn tr i j x).map List.length).sum ≤ sentBytes tr i j := by
  induction tr with
  | nil => exact le_rfl
  | cons e tr ih =>
    obtain ⟨p, a⟩ := e
    rw [sentOn_cons, List.map_append, List.sum_append]
    have h1 : sentBytes ((p, a) :: tr) i j = (if p = i then bytesTo j a else 0) + sentBytes tr i j := rfl
    rw [h1]
    refine add_le_add ?_ ih
    unfold sentBy
    by_cases hp : p = i
    · rw [if_pos hp, if_pos hp]
      cases a with
      | send d y b =>
        by_cases h : d = j ∧ y = x
        · simp [h, bytesTo]
        · simp [h]
      | _ => simp
    · simp [hp]

theorem sentBytes_le (tr : List (Nat × Act)) (i j : Nat) (x : Sid) (h : ∀ y, y ≠ x → sentOn tr i j y = []) :
    sentBytes tr i j ≤ ((sentOn tr i j x).map List.length).sum := by
  induction tr with
  | nil => exact le_rfl
  | cons e tr ih =>
    obtain ⟨p, a⟩ := e
    have h' : ∀ y, y ≠ x → sentBy i j y p a = none ∧ sentOn tr i j y = [] := fun y hy => by
      have := h y hy
      rw [sentOn_cons, List.append_eq_nil_iff] at this
      exact ⟨by cases hb : sentBy i j y p a <;> simp_all, this.2⟩
    rw [sentOn_cons, List.map_append, List.sum_append]
    have h1 : sentBytes ((p, a) :: tr) i j = (if p = i then bytesTo j a else 0) + sentBytes tr i j := rfl
    rw [h1]
    refine add_le_add ?_ (ih fun y hy => (h' y hy).2)
    by_cases hp : p = i
    · rw [if_pos hp]
      cases a with
      | send d y b =>
        by_cases hd : d = j
        · by_cases hy : y = x
          · simp [sentBy, hp, hd, hy, bytesTo]
          · have := (h' y hy).1
            simp [sentBy, hp, hd] at this
        · simp [bytesTo, hd]
      | _ => simp [bytesTo]
    · simp [hp]

/-- One star round with messages of two sizes. -/
theorem runsT_once {ps : Fin n → Proc α} {rs : Fin n → α} {S : Sid → Prop} {P : Bytes → Prop} (h : Runs P S ps rs) {sid : Sid}
    (hr : ∀ i, (ps i).Rounds n i (once sid)) {u m : Nat} (hex : Exchanges (Net.init ps) u m) :
    RunsT ps rs (fun s => if s = sid then [u] else []) fun s => if s = sid then [m] else [] := by
  obtain ⟨k, hk⟩ := h (fun _ => []) (fun _ _ _ _ => rfl)
  obtain ⟨tr, ht, ho⟩ := hk.trace
  refine ⟨tr, ht, fun e he => (ho e he).1, fun i j x => ?_⟩
  have hc := sentOn_count hr ht i j
  have hb := (((hex tr _ ht fun e he => (ho e he).1.1).2 fun i => ⟨_, rfl⟩).1 i j).1
  by_cases hx : x = sid
  · subst hx
    have h1 := le_antisymm (sentOn_bytes tr i j x) (sentBytes_le tr i j x fun y hy => List.length_eq_zero_iff.1 (by
      rw [hc]; unfold once; rw [if_neg hy]; split_ifs <;> rfl))
    rw [hb] at h1
    have hl := hc x
    unfold starLengths starBytes at *
    unfold once at hl
    rw [if_pos rfl] at hl
    generalize sentOn tr i j x = L at *
    split_ifs at * with g1 g2 g2 g2 <;> first | omega | skip
    · obtain ⟨y, rfl⟩ := List.length_eq_one_iff.1 hl
      simpa using h1
    · obtain ⟨y, rfl⟩ := List.length_eq_one_iff.1 hl
      simpa using h1
    · rw [List.length_eq_zero_iff.1 hl]; rfl
  · have : sentOn tr i j x = [] := List.length_eq_zero_iff.1 (by rw [hc]; unfold once; rw [if_neg hx]; split_ifs <;> rfl)
    rw [this]
    unfold starLengths
    simp only [if_neg hx]
    split_ifs <;> rfl

theorem RunsT.sendsLengths {ps : Fin n → Proc α} {rs : Fin n → α} {up down : Sid → List Nat} (h : RunsT ps rs up down) {S : Sid → Prop}
    (hwf : ∀ i, (ps i).WF S) (hy : AlwaysYields (Net.init ps) rs) : SendsLengths (Net.init ps) (starLengths n up down) := by
  obtain ⟨tr, h1, h2, h3⟩ := h
  exact sendsLengths_of_trace hy (fun i => ⟨S, hwf i⟩) h1 h2 (fun i => ⟨_, rfl⟩) h3

theorem sentOn_of_traffic {tr tr' : List (Nat × Act)} (h : traffic tr = traffic tr') (i j : Nat) (x : Sid) :
    (sentOn tr i j x).map List.length = (sentOn tr' i j x).map List.length := by
  induction tr generalizing tr' with
  | nil =>
    cases tr' with
    | nil => rfl
    | cons => cases h
  | cons e tr ih =>
    cases tr' with
    | nil => cases h
    | cons e' tr' =>
      obtain ⟨p, a⟩ := e
      obtain ⟨p', a'⟩ := e'
      have h' : ((p, glimpse a) :: traffic tr) = (p', glimpse a') :: traffic tr' := h
      obtain ⟨h1, h2⟩ := List.cons.inj h'
      obtain ⟨rfl, h3⟩ := Prod.mk.inj h1
      rw [sentOn_cons, sentOn_cons, List.map_append, List.map_append, ih h2]
      congr 1
      unfold sentBy
      by_cases hp : p = i
      · cases a <;> cases a' <;> first | (cases h3; done) | skip
        all_goals simp only [glimpse, Glimpse.send.injEq, reduceCtorEq] at h3
        all_goals first | (simp; done) | skip
        obtain ⟨rfl, rfl, h3⟩ := h3
        rename_i d y b b'
        by_cases h : d = j ∧ y = x
        · simp [hp, h, h3]
        · simp [h]
      · simp [hp]

/-- Whoever counts bytes can tell apart protocols whose messages differ in number or length. -/
theorem not_looksLike {c : Net n α} {d : Net n β} {rs : Fin n → α} (hy : AlwaysYields c rs) {lens lens' : Nat → Nat → Sid → List Nat}
    (hl : SendsLengths c lens) (hl' : SendsLengths d lens') {i j : Nat} {x : Sid} (hne : lens i j x ≠ lens' i j x) : ¬ LooksLike c d := by
  intro h
  obtain ⟨tr, t, ht, hnf, hd⟩ := complete hy (.refl c) (by simp)
  obtain ⟨tr', d', h1, h2, h3, h4⟩ := h tr t ht hnf
  have e1 := (hl tr t ht hnf i j x).2 fun i => ⟨_, hd i⟩
  have e2 := (hl' tr' d' h1 h2 i j x).2 fun i => (h4 i).1 ⟨_, hd i⟩
  rw [sentOn_of_traffic h3, e1] at e2
  exact hne e2

/-! ### Programs that keep to the same schedule -/

/-- Two programs of party `me` in the middle of the same schedule. -/
inductive Twin (n me : Nat) : {α β : Type} → Proc α → Proc β → Prop where
  | base {α β : Type} (S : Sched) {p : Proc α} {q : Proc β} (hp : Follows n me S p) (hq : Follows n me S q) : Twin n me p q
  | gather {α β : Type} {s : Sid} {r : Sched} {own own' : Bytes} {got got' : Nat → Option Bytes} {k : List (Nat × Bytes) → Proc α}
      {k' : List (Nat × Bytes) → Proc β} (hg : ∀ i, got i = none ↔ got' i = none) (hk : ∀ L, Follows n me r (k L))
      (hk' : ∀ L, Follows n me r (k' L)) : Twin n me (.gather s n own got k) (.gather s n own' got' k')
  | par {α α' β β' γ γ' : Type} {r : Sched} {p : Proc β} {p' : Proc β'} {q : Proc γ} {q' : Proc γ'} {k : β → γ → Proc α}
      {k' : β' → γ' → Proc α'} (hp : Twin n me p p') (hq : Twin n me q q') (hk : ∀ x y, Follows n me r (k x y))
      (hk' : ∀ x y, Follows n me r (k' x y)) : Twin n me (.par p q k) (.par p' q' k')

theorem Twin.symm {me : Nat} {p : Proc α} {q : Proc β} (h : Twin n me p q) : Twin n me q p := by
  induction h with
  | base S hp hq => exact .base S hq hp
  | gather hg hk hk' => exact .gather (fun i => (hg i).symm) hk' hk
  | par _ _ hk hk' ihp ihq => exact .par ihp ihq hk' hk

theorem Follows.done_ok {me : Nat} {S : Sched} {v : α} {q : Proc β} (h : Follows n me S (.done (.ok v) : Proc α)) (hq : Follows n me S q)
    (hb : ¬ Bad q) : ∃ w, q = .done (.ok w) := by
  generalize hp : (Proc.done (.ok v) : Proc α) = p at h
  have herr : ∀ e, q ≠ .done (.error e) := fun e he => hb (.inr ⟨e, he⟩)
  induction h with
  | ok a =>
    cases hq with
    | error e => exact absurd rfl (herr e)
    | ok a => exact ⟨a, rfl⟩
  | kingEnd h _ ih =>
    cases hq with
    | error e => exact absurd rfl (herr e)
    | kingEnd _ hq => exact ih hq hp
    | recv h' => exact absurd h h'
    | other h' => exact absurd h h'
  | other h hm _ ih =>
    cases hq with
    | error e => exact absurd rfl (herr e)
    | king h' => exact absurd h' h
    | kingEnd h' => exact absurd h' h
    | recv _ hm' => exact absurd hm' hm
    | other _ _ hq => exact ih hq hp
  | _ => cases hp

theorem Twin.done_ok {me : Nat} {v : α} {q : Proc β} (h : Twin n me (.done (.ok v) : Proc α) q) (hb : ¬ Bad q) : ∃ w, q = .done (.ok w) := by
  cases h with
  | base S hp hq => exact hp.done_ok hq hb

/-- The same kind of step. -/
def Alike (m : Bytes) : Act → Act → Prop
  | .send d x _, .send d' x' _ => d = d' ∧ x = x'
  | .recv f x _, .recv f' x' b' => f = f' ∧ x = x' ∧ b' = m
  | .tau, .tau => True
  | _, _ => False

theorem exists_enumerates (own : Bytes) (got : Nat → Option Bytes) : ∃ L, Enumerates n own got L := by
  refine ⟨(0, own) :: ((List.range n).filter fun i => 1 ≤ i ∧ got i ≠ none).map fun i => (i, (got i).getD []), ?_, fun i b => ?_⟩
  · rw [List.map_cons, List.map_map]
    refine List.nodup_cons.2 ⟨?_, ?_⟩
    · simp
    · have : (Prod.fst ∘ fun i => (i, (got i).getD [])) = id := rfl
      rw [this, List.map_id]
      exact List.nodup_range.filter _
  · simp only [List.mem_cons, Prod.mk.injEq, List.mem_map, List.mem_filter, List.mem_range]
    constructor
    · rintro (⟨rfl, rfl⟩ | ⟨j, ⟨h1, h2⟩, rfl, rfl⟩)
      · exact .inl ⟨rfl, rfl⟩
      · have h2 : 1 ≤ j ∧ got j ≠ none := by simpa using h2
        obtain ⟨x, hx⟩ := Option.ne_none_iff_exists'.1 h2.2
        exact .inr ⟨h2.1, h1, by rw [hx]; rfl⟩
    · rintro (⟨rfl, rfl⟩ | ⟨h1, h2, h3⟩)
      · exact .inl ⟨rfl, rfl⟩
      · exact .inr ⟨i, ⟨h2, by simp [h1, h3]⟩, rfl, by rw [h3]; rfl⟩

theorem Twin.gather_step {me : Nat} {s : Sid} {r : Sched} {own own' : Bytes} {got got' : Nat → Option Bytes} {k : List (Nat × Bytes) → Proc α}
    {k' : List (Nat × Bytes) → Proc β} (hg : ∀ i, got i = none ↔ got' i = none) (hk : ∀ L, Follows n me r (k L))
    (hk' : ∀ L, Follows n me r (k' L)) {a : Act} {p' : Proc α} (hs : LStep (.gather s n own got k) a p') (ha : Core a) (m : Bytes) :
    ∃ a' q', LStep (.gather s n own' got' k') a' q' ∧ Twin n me p' q' ∧ Alike m a a' := by
  cases hs with
  | gatherRecv _ _ _ _ _ i b h1 h2 h3 =>
    refine ⟨.recv i s m, _, .gatherRecv _ _ _ _ _ i m h1 h2 ((hg i).1 h3), .gather (fun j => ?_) hk hk', rfl, rfl, rfl⟩
    by_cases hj : j = i
    · subst hj; simp
    · rw [Function.update_of_ne hj, Function.update_of_ne hj, hg]
  | gatherDone _ _ _ _ _ L hf hL =>
    obtain ⟨L', hL'⟩ := exists_enumerates (n := n) own' got'
    exact ⟨.tau, _, .gatherDone _ _ _ _ _ L' (fun i h1 h2 h3 => hf i h1 h2 ((hg i).2 h3)) hL', .base r (hk L) (hk' L'), trivial⟩
  | gatherExpire => exact absurd rfl ha.1

theorem Twin.par_step {α α' β β' γ γ' : Type} {me : Nat} {r : Sched} {p : Proc β} {p1 : Proc β'} {q : Proc γ} {q1 : Proc γ'} {k : β → γ → Proc α}
    {k' : β' → γ' → Proc α'} (hp : Twin n me p p1) (hq : Twin n me q q1) (hk : ∀ x y, Follows n me r (k x y))
    (hk' : ∀ x y, Follows n me r (k' x y)) {a : Act} {p' : Proc α} (hs : LStep (.par p q k) a p') (ha : Core a) (m : Bytes)
    (hb : ¬ Bad (.par p1 q1 k'))
    (ihp : ∀ {a : Act} {p' : Proc β}, LStep p a p' → Core a → ¬ Bad p1 → ∃ a' q', LStep p1 a' q' ∧ Twin n me p' q' ∧ Alike m a a')
    (ihq : ∀ {a : Act} {p' : Proc γ}, LStep q a p' → Core a → ¬ Bad q1 → ∃ a' q', LStep q1 a' q' ∧ Twin n me p' q' ∧ Alike m a a') :
    ∃ a' q', LStep (.par p1 q1 k') a' q' ∧ Twin n me p' q' ∧ Alike m a a' := by
  have hb1 : ¬ Bad p1 := fun h => hb (h.parL _ _)
  have hb2 : ¬ Bad q1 := fun h => hb (h.parR _ _)
  cases hs with
  | parL _ _ _ _ _ hst => obtain ⟨a', q', h1, h2, h3⟩ := ihp hst ha hb1; exact ⟨a', _, .parL _ _ _ _ _ h1, .par h2 hq hk hk', h3⟩
  | parR _ _ _ _ _ hst => obtain ⟨a', q', h1, h2, h3⟩ := ihq hst ha hb2; exact ⟨a', _, .parR _ _ _ _ _ h1, .par hp h2 hk hk', h3⟩
  | join x y =>
    obtain ⟨x', rfl⟩ := hp.done_ok hb1
    obtain ⟨y', rfl⟩ := hq.done_ok hb2
    exact ⟨.tau, _, .join _ _ _, .base r (hk x y) (hk' x' y'), trivial⟩
  | abortL => exact absurd rfl ha.2
  | abortR => exact absurd rfl ha.2

theorem Follows.twin_step {me : Nat} {S : Sched} {p : Proc α} {q : Proc β} (hp : Follows n me S p) (hq : Follows n me S q) {a : Act}
    {p' : Proc α} (hs : LStep p a p') (ha : Core a) (m : Bytes) (hb : ¬ Bad q) :
    ∃ a' q', LStep q a' q' ∧ Twin n me p' q' ∧ Alike m a a' := by
  have herr : ∀ e, q ≠ .done (.error e) := fun e he => hb (.inr ⟨e, he⟩)
  induction hp generalizing β a with
  | error e => cases hs
  | ok v => cases hs
  | gather h hk =>
    cases hq with
    | error e => exact absurd rfl (herr e)
    | gather _ hk' => exact Twin.gather_step (fun _ => Iff.rfl) hk hk' hs ha m
    | send h' => exact absurd h h'
  | send h hk =>
    cases hq with
    | error e => exact absurd rfl (herr e)
    | gather h' => exact absurd h' h
    | send _ hk' =>
      cases hs with
      | send => exact ⟨_, _, .send _ _ _ _, .base _ hk hk', rfl, rfl⟩
      | sendFail => exact absurd rfl ha.1
  | king h hk =>
    cases hq with
    | error e => exact absurd rfl (herr e)
    | king _ hk' =>
      cases hs with
      | send => exact ⟨_, _, .send _ _ _ _, .base _ hk hk', rfl, rfl⟩
      | sendFail => exact absurd rfl ha.1
    | recv h' => exact absurd h h'
    | other h' => exact absurd h h'
  | kingEnd h _ ih =>
    cases hq with
    | error e => exact absurd rfl (herr e)
    | kingEnd _ hq => exact ih hq hs ha hb herr
    | recv h' => exact absurd h h'
    | other h' => exact absurd h h'
  | recv h hm hk =>
    cases hq with
    | error e => exact absurd rfl (herr e)
    | king h' => exact absurd h' h
    | kingEnd h' => exact absurd h' h
    | recv _ _ hk' =>
      cases hs with
      | recv _ _ b => exact ⟨_, _, .recv _ _ m _, .base _ (hk b) (hk' m), rfl, rfl, rfl⟩
      | recvFail => exact absurd rfl ha.1
    | other _ hm' => exact absurd hm hm'
  | other h hm _ ih =>
    cases hq with
    | error e => exact absurd rfl (herr e)
    | king h' => exact absurd h' h
    | kingEnd h' => exact absurd h' h
    | recv _ hm' => exact absurd hm' hm
    | other _ _ hq => exact ih hq hs ha hb herr
  | par h1 h2 hk ih1 ih2 =>
    cases hq with
    | error e => exact absurd rfl (herr e)
    | par g1 g2 hk' =>
      exact Twin.par_step (.base _ h1 g1) (.base _ h2 g2) hk hk' hs ha m hb
        (fun h ha hb => ih1 g1 h ha hb fun e he => hb (.inr ⟨e, he⟩)) fun h ha hb => ih2 g2 h ha hb fun e he => hb (.inr ⟨e, he⟩)

theorem Twin.step {me : Nat} {p : Proc α} {q : Proc β} (h : Twin n me p q) {a : Act} {p' : Proc α} (hs : LStep p a p') (ha : Core a)
    (m : Bytes) (hb : ¬ Bad q) : ∃ a' q', LStep q a' q' ∧ Twin n me p' q' ∧ Alike m a a' := by
  induction h generalizing a with
  | base S hp hq => exact hp.twin_step hq hs ha m hb
  | gather hg hk hk' => exact Twin.gather_step hg hk hk' hs ha m
  | par hp hq hk hk' ihp ihq => exact Twin.par_step hp hq hk hk' hs ha m hb (fun h ha hb => ihp h ha hb) fun h ha hb => ihq h ha hb

/-- Two protocols with the same schedule and the same lengths look alike. -/
theorem looksLike {S : Sched} {ps : Fin n → Proc α} {qs : Fin n → Proc β} (hp : ∀ i : Fin n, Follows n i S (ps i))
    (hq : ∀ i : Fin n, Follows n i S (qs i)) {rs : Fin n → α} {ss : Fin n → β} (hy : AlwaysYields (Net.init ps) rs)
    (hy' : AlwaysYields (Net.init qs) ss) {lens : Nat → Nat → Sid → List Nat} (hl : SendsLengths (Net.init ps) lens)
    (hl' : SendsLengths (Net.init qs) lens) : LooksLike (Net.init ps) (Net.init qs) := by
  -- from any pair of states that look alike
  have key : ∀ tr (c c' : Net n α), Trace tr c c' → ∀ (d : Net n β) (tr0 tr1 : List (Nat × Act)), Trace tr0 (Net.init ps) c →
      Trace tr1 (Net.init qs) d → (∀ e ∈ tr0 ++ tr, e.2 ≠ .fault) → (∀ e ∈ tr1, e.2 ≠ .fault) →
      (∀ i j x, (sentOn tr0 i j x).map List.length = (sentOn tr1 i j x).map List.length) →
      (∀ x, (c.queues x).map List.length = (d.queues x).map List.length) → (∀ i : Fin n, Twin n i (c.procs i) (d.procs i)) →
      ∃ tr' d', Trace tr' d d' ∧ (∀ e ∈ tr', e.2 ≠ .fault) ∧ traffic tr' = traffic tr ∧ ∀ i : Fin n, Twin n i (c'.procs i) (d'.procs i) := by
    intro tr c c' ht
    induction ht with
    | refl c => exact fun d _ _ _ _ _ _ _ _ ht => ⟨[], d, .refl d, by simp, rfl, ht⟩
    | @step procs Q Q' i a p' tr c' hs hqs hrest ih =>
      intro d tr0 tr1 h0 h1 hnf0 hnf1 hlen hQ htw
      obtain ⟨dp, dQ⟩ := d
      have htr : Trace (tr0 ++ [(i.val, a)]) (Net.init ps) ⟨Function.update procs i p', Q'⟩ := h0.append (.step hs hqs (.refl _))
      have hnf : ∀ e ∈ tr0 ++ [(i.val, a)], e.2 ≠ .fault := fun e he => hnf0 e (by
        rcases List.mem_append.1 he with h | h
        · simp [h]
        · rw [List.mem_singleton] at h; simp [h])
      have ha : Core a := htr.core hy hnf (i.val, a) (by simp)
      have hb : ¬ Bad (dp i) := not_bad hy' (h1.gsteps (ok := Reliable) hnf1) i
      -- the message to receive
      obtain ⟨m, hm⟩ : ∃ m : Bytes, ∀ f x b, a = .recv f x b → ∃ rest rest', Q (f, i.val, x) = b :: rest ∧ dQ (f, i.val, x) = m :: rest' ∧
          Q' = Function.update Q (f, i.val, x) rest ∧ m.length = b.length ∧ rest.map List.length = rest'.map List.length := by
        cases a with
        | recv f x b =>
          obtain ⟨rest, e1, e2⟩ := qstep_recv hqs
          have := hQ (f, i.val, x)
          simp only at this
          rw [e1, List.map_cons] at this
          obtain ⟨m, rest', e3, e4, e5⟩ := List.map_eq_cons_iff.1 this.symm
          exact ⟨m, fun _ _ _ h => by cases h; exact ⟨rest, rest', e1, e3, e2, e4, e5.symm⟩⟩
        | _ => exact ⟨[], fun _ _ _ h => by cases h⟩
      obtain ⟨a', q', g1, g2, g3⟩ := (htw i).step hs ha m hb
      -- the step of the other protocol
      have hstep : ∃ dQ', qstep i a' dQ = some dQ' ∧ a' ≠ .fault ∧ glimpse a' = glimpse a ∧
          (∀ x, (Q' x).map List.length = (dQ' x).map List.length) ∧
          ∀ k j x, ((sentBy k j x i.val a).toList).map List.length = ((sentBy k j x i.val a').toList).map List.length := by
        cases a with
        | send d x b =>
          cases a' with
          | send d' x' b' =>
            obtain ⟨rfl, rfl⟩ := g3
            have hst : Trace (tr1 ++ [(i.val, .send d x b')]) (Net.init qs) ⟨Function.update dp i q', Function.update dQ (i.val, d, x) (dQ (i.val, d, x) ++ [b'])⟩ :=
              h1.append (.step g1 rfl (.refl _))
            have l1 := (hl _ _ htr hnf i d x).1
            have l2 := (hl' _ _ hst (fun e he => by
              rcases List.mem_append.1 he with h | h
              · exact hnf1 e h
              · rw [List.mem_singleton] at h; subst h; simp) i d x).1
            rw [sentOn_append, sentOn_cons, List.map_append] at l1 l2
            rw [hlen] at l1
            simp only [sentBy, if_true, and_self, Option.toList_some, sentOn_nil, List.append_nil, List.map_cons, List.map_nil] at l1 l2
            have hbb : b.length = b'.length := by
              obtain ⟨t1, e1⟩ := l1
              obtain ⟨t2, e2⟩ := l2
              rw [← e2, List.append_assoc, List.append_assoc] at e1
              simpa using (List.cons.inj (List.append_cancel_left e1)).1
            simp only [qstep, Option.some.injEq] at hqs
            subst hqs
            refine ⟨_, rfl, by simp, by simp [glimpse, hbb], fun y => ?_, fun k j y => ?_⟩
            · by_cases hy : y = (i.val, d, x)
              · subst hy
                have := hQ (i.val, d, x)
                simp only at this
                rw [Function.update_self, Function.update_self, List.map_append, List.map_append, this]
                simp [hbb]
              · rw [Function.update_of_ne hy, Function.update_of_ne hy]; exact hQ y
            · unfold sentBy
              by_cases h1 : i.val = k
              · by_cases h2 : d = j ∧ x = y
                · simp [h1, h2, hbb]
                · simp [h1, h2]
              · simp [h1]
          | _ => exact g3.elim
        | recv f x b =>
          cases a' with
          | recv f' x' b' =>
            obtain ⟨rfl, rfl, rfl⟩ := g3
            obtain ⟨rest, rest', e1, e2, e3, e4, e5⟩ := hm f x b rfl
            refine ⟨Function.update dQ (f, i.val, x) rest', by simp [qstep, e2], by simp, by simp [glimpse, e4], fun y => ?_, fun k j y => rfl⟩
            rw [e3]
            by_cases hy : y = (f, i.val, x)
            · subst hy; rw [Function.update_self, Function.update_self, e5]
            · rw [Function.update_of_ne hy, Function.update_of_ne hy]; exact hQ y
          | _ => exact g3.elim
        | tau =>
          cases a' with
          | tau => cases hqs; exact ⟨dQ, rfl, by simp, rfl, hQ, fun _ _ _ => rfl⟩
          | _ => exact g3.elim
        | abort => exact g3.elim
        | fault => exact g3.elim
      obtain ⟨dQ', f1, f2, f3, f4, f5⟩ := hstep
      have hst : Trace (tr1 ++ [(i.val, a')]) (Net.init qs) ⟨Function.update dp i q', dQ'⟩ := h1.append (.step g1 f1 (.refl _))
      obtain ⟨tr', d', r1, r2, r3, r4⟩ := ih ⟨Function.update dp i q', dQ'⟩ _ _ htr hst (fun e he => hnf0 e (by simpa using he)) (fun e he => by
          rcases List.mem_append.1 he with h | h
          · exact hnf1 e h
          · rw [List.mem_singleton] at h; subst h; exact f2)
        (fun k j x => by rw [sentOn_append, sentOn_append, sentOn_cons, sentOn_cons, List.map_append, List.map_append, List.map_append,
          List.map_append, hlen, f5]) f4
        (fun j => by
          by_cases hj : j = i
          · subst hj; simp only [Function.update_self]; exact g2
          · simp only [Function.update_of_ne hj]; exact htw j)
      refine ⟨(i.val, a') :: tr', d', .step g1 f1 r1, fun e he => ?_, ?_, r4⟩
      · rcases List.mem_cons.1 he with rfl | he
        · exact f2
        · exact r2 e he
      · have : traffic ((i.val, a') :: tr') = (i.val, glimpse a') :: traffic tr' := rfl
        rw [this, r3, f3]; rfl
  intro tr c' ht hnf
  obtain ⟨tr', d', r1, r2, r3, r4⟩ := key tr _ c' ht (Net.init qs) [] [] (.refl _) (.refl _) (by simpa using hnf) (by simp) (fun _ _ _ => rfl)
    (fun _ => rfl) fun i => .base S (hp i) (hq i)
  refine ⟨tr', d', r1, r2, r3, fun i => ⟨?_, ?_⟩⟩
  · rintro ⟨v, hv⟩
    have := r4 i
    rw [hv] at this
    exact this.done_ok (not_bad hy' (r1.gsteps (ok := Reliable) r2) i)
  · rintro ⟨v, hv⟩
    have := (r4 i).symm
    rw [hv] at this
    exact this.done_ok (not_bad hy (ht.gsteps (ok := Reliable) hnf) i)

theorem sameTraffic {S : Sched} {ps : Fin n → Proc α} {qs : Fin n → Proc β} (hp : ∀ i : Fin n, Follows n i S (ps i))
    (hq : ∀ i : Fin n, Follows n i S (qs i)) {rs : Fin n → α} {ss : Fin n → β} (hy : AlwaysYields (Net.init ps) rs)
    (hy' : AlwaysYields (Net.init qs) ss) {lens : Nat → Nat → Sid → List Nat} (hl : SendsLengths (Net.init ps) lens)
    (hl' : SendsLengths (Net.init qs) lens) : SameTraffic (Net.init ps) (Net.init qs) :=
  ⟨looksLike hp hq hy hy' hl hl', looksLike hq hp hy' hy hl' hl⟩

end ZkSaas
