import Verif.Lemmas.Runs
import Verif.Spec.View
import Verif.Model.Qap

/-! Runs of programs that record what they receive. -/

set_option linter.unusedSectionVars false

namespace ZkSaas

variable {n : Nat} {α β γ δ : Type} {P : Bytes → Prop}

theorem Proc.bind_pure' (p : Proc α) : (p.bind fun a => .done (.ok a)) = p := by
  induction p with
  | done r => cases r <;> rfl
  | send _ _ _ _ ih => simp only [Proc.bind]; rw [ih]
  | recv _ _ _ ih => simp only [Proc.bind]; congr; funext b; rw [ih]
  | gather _ _ _ _ _ ih => simp only [Proc.bind]; congr; funext b; rw [ih]
  | par _ _ _ _ _ ih => simp only [Proc.bind]; congr; funext r s; rw [ih]

/-- Continue a transcript. -/
def after (l : Transcript) (x : α × Transcript) : Proc (α × Transcript) := .done (.ok (x.1, l ++ x.2))

theorem bind_after_nil (p : Proc (α × Transcript)) : p.bind (after []) = p := by
  have : (after [] : α × Transcript → Proc _) = fun x => .done (.ok x) := by funext x; rfl
  rw [this, Proc.bind_pure']

theorem bind_after_after (p : Proc (α × Transcript)) (l m : Transcript) :
    (p.bind (after l)).bind (after m) = p.bind (after (m ++ l)) := by
  rw [Proc.bind_assoc]
  congr 1
  funext x
  simp [after, Proc.bind]

theorem Proc.recorded_bind (p : Proc α) (f : α → Proc β) :
    (p.bind f).recorded = p.recorded.bind fun x => (f x.1).recorded.bind (after x.2) := by
  induction p with
  | done r =>
    cases r with
    | ok a => simp only [Proc.bind, Proc.recorded, Except.map, bind_after_nil]
    | error e => rfl
  | send _ _ _ _ ih => simp only [Proc.bind, Proc.recorded]; rw [ih]
  | recv _ _ _ ih =>
    simp only [Proc.bind, Proc.recorded]; congr; funext b
    rw [ih, Proc.bind_assoc, Proc.bind_assoc]
    congr 1; funext x
    simp only [Proc.bind]
    rw [Proc.bind_assoc]
    congr 1
  | gather _ _ _ _ _ ih =>
    simp only [Proc.bind, Proc.recorded]; congr; funext L
    rw [ih, Proc.bind_assoc, Proc.bind_assoc]
    congr 1; funext x
    simp only [Proc.bind]
    rw [Proc.bind_assoc]
    congr 1; funext y
    simp only [Proc.bind, after, List.append_assoc]
  | par _ _ _ _ _ ih =>
    simp only [Proc.bind, Proc.recorded]; congr; funext r s
    rw [ih, Proc.bind_assoc, Proc.bind_assoc]
    congr 1; funext x
    simp only [Proc.bind]
    rw [Proc.bind_assoc]
    congr 1; funext y
    simp only [Proc.bind, after, List.append_assoc]

theorem filter_fst_eq {L L' : Transcript} (hn : (L.map Prod.fst).Nodup) (hn' : (L'.map Prod.fst).Nodup)
    (h : ∀ x, x ∈ L ↔ x ∈ L') (i : Nat) : (L.filter fun x => x.1 == i) = L'.filter fun x => x.1 == i := by
  have hp : L.Perm L' := (List.perm_ext_iff_of_nodup hn.of_map hn'.of_map).2 h
  have hlen : ∀ {M : Transcript}, (M.map Prod.fst).Nodup → (M.filter fun x => x.1 == i).length ≤ 1 := by
    intro M hM
    have h1 := List.nodup_iff_count_le_one.1 hM i
    rw [List.count, List.countP_map, List.countP_eq_length_filter] at h1
    exact h1
  have h1 := hp.filter fun x => x.1 == i
  match h2 : L.filter fun x => x.1 == i, h3 : L'.filter fun x => x.1 == i with
  | [], [] => rw [h2, h3]
  | [], _ :: _ => rw [h2, h3] at h1; exact absurd h1.length_eq (by simp)
  | _ :: _, [] => rw [h2, h3] at h1; exact absurd h1.length_eq (by simp)
  | [a], [b] => rw [h2, h3] at h1 ⊢; exact List.perm_singleton.1 h1
  | [a], _ :: _ :: _ => rw [h2, h3] at h1; exact absurd h1.length_eq (by simp)
  | _ :: _ :: _, _ => exact absurd (hlen hn) (by rw [h2]; simp)

/-- The order of the hash map does not matter. -/
theorem bySender_eq {n : Nat} {own : Bytes} {got : Nat → Option Bytes} {L L' : Transcript} (h : Enumerates n own got L)
    (h' : Enumerates n own got L') : bySender n L = bySender n L' := by
  unfold bySender
  congr 1
  funext i
  exact filter_fst_eq h.1 h'.1 (fun x => (h.2 x.1 x.2).trans (h'.2 x.1 x.2).symm) i

theorem bySender_range (msg : Nat → Bytes) (n : Nat) :
    bySender n ((List.range n).map fun i => (i, msg i)) = (List.range n).map fun i => (i, msg i) := by
  have key : ∀ i < n, ((List.range n).map fun i => (i, msg i)).filter (fun x => x.1 == i) = [(i, msg i)] := by
    intro i hi
    have : [(i, msg i)] = ([(i, msg i)] : Transcript).filter fun x => x.1 == i := by simp
    rw [List.filter_map, this]
    have h1 : (List.range n).filter ((fun x : Nat × Bytes => x.1 == i) ∘ fun i => (i, msg i)) = [i] := by
      have h2 : ((fun x : Nat × Bytes => x.1 == i) ∘ fun i => (i, msg i)) = fun j => j == i := rfl
      rw [h2, List.filter_beq, List.count_eq_one_of_mem List.nodup_range (List.mem_range.2 hi)]
      rfl
    rw [h1]
    simp
  unfold bySender
  rw [List.flatMap_congr fun i hi => key i (List.mem_range.1 hi)]
  induction List.range n with
  | nil => rfl
  | cons a l ih => simp [List.flatMap_cons, ih]

theorem Proc.WF.recorded {S : Sid → Prop} {p : Proc α} (h : p.WF S) : p.recorded.WF S := by
  induction h with
  | done S r => exact .done _ _
  | send hs h ih => exact .send hs ih
  | recv hs h ih => exact .recv hs fun b => (ih b).bind fun _ => .done _ _
  | gather hs h hk ih =>
    exact .gather hs (fun L => (ih L).bind fun _ => .done _ _) fun got' L L' h1 h2 h3 => by
      rw [hk got' L L' h1 h2 h3, bySender_eq h2 h3]
  | par hdis h1 h2 hp hq hk ihp ihq ihk =>
    exact .par hdis h1 h2 ihp ihq fun r s => (ihk _ _).bind fun _ => .done _ _

/-! ### Recording changes nothing -/

/-- `q` is `p` in the middle of recording. -/
inductive Rec : {α : Type} → Proc α → Proc (α × Transcript) → Prop where
  | base {α : Type} (p : Proc α) (l : Transcript) : Rec p (p.recorded.bind (after l))
  | par {α β γ : Type} {p : Proc β} {p' : Proc (β × Transcript)} {q : Proc γ} {q' : Proc (γ × Transcript)} (hp : Rec p p')
      (hq : Rec q q') (k : β → γ → Proc α) (l : Transcript) :
      Rec (.par p q k) (.par p' q' fun x y => (k x.1 y.1).recorded.bind (after (l ++ (x.2 ++ y.2))))

theorem Rec.recorded (p : Proc α) : Rec p p.recorded := by
  have := Rec.base p []
  rwa [bind_after_nil] at this

theorem Rec.done_ok {v : α} {q : Proc (α × Transcript)} (h : Rec (.done (.ok v)) q) : ∃ l, q = .done (.ok (v, l)) := by
  cases h with
  | base _ l => exact ⟨l, by simp [Proc.recorded, Except.map, Proc.bind, after]⟩

theorem Rec.done_error {e : Fault} {q : Proc (α × Transcript)} (h : Rec (.done (.error e)) q) : q = .done (.error e) := by
  cases h with
  | base _ l => rfl

theorem Rec.of_done_ok {p : Proc α} {x : α × Transcript} (h : Rec p (.done (.ok x))) : p = .done (.ok x.1) := by
  generalize hq : (Proc.done (.ok x) : Proc (α × Transcript)) = q at h
  cases h with
  | base p l =>
    cases p with
    | done r =>
      cases r with
      | ok v =>
        simp only [Proc.recorded, Except.map, Proc.bind, after, Proc.done.injEq, Except.ok.injEq] at hq
        rw [hq]
      | error e => simp [Proc.recorded, Except.map, Proc.bind] at hq
    | _ => simp [Proc.recorded, Proc.bind] at hq
  | par _ _ _ _ => cases hq

theorem Rec.of_done_error {p : Proc α} {e : Fault} (h : Rec p (.done (.error e))) : p = .done (.error e) := by
  generalize hq : (Proc.done (.error e) : Proc (α × Transcript)) = q at h
  cases h with
  | base p l =>
    cases p with
    | done r =>
      cases r with
      | ok v => simp [Proc.recorded, Except.map, Proc.bind, after] at hq
      | error e' =>
        simp only [Proc.recorded, Except.map, Proc.bind, Proc.done.injEq, Except.error.injEq] at hq
        rw [hq]
    | _ => simp [Proc.recorded, Proc.bind] at hq
  | par _ _ _ _ => cases hq

theorem recorded_par_after (p : Proc β) (q : Proc γ) (k : β → γ → Proc α) (l : Transcript) :
    (Proc.par p q k).recorded.bind (after l) =
      .par p.recorded q.recorded fun x y => (k x.1 y.1).recorded.bind (after (l ++ (x.2 ++ y.2))) := by
  simp only [Proc.recorded, Proc.bind]
  congr 1
  funext x y
  rw [Proc.bind_assoc]
  congr 1
  funext z
  simp [Proc.bind, after]

theorem recorded_gather_after (p : Proc α) (m l : Transcript) :
    p.recorded.bind (after (l ++ m)) = (p.recorded.bind fun x => .done (.ok (x.1, m ++ x.2))).bind (after l) :=
  (bind_after_after p.recorded m l).symm

/-- A parallel composition is in the middle of recording only when its branches are. -/
theorem Rec.par_cases {p : Proc β} {q : Proc γ} {k : β → γ → Proc α} {r : Proc (α × Transcript)} (h : Rec (.par p q k) r) :
    ∃ p' q' l, Rec p p' ∧ Rec q q' ∧ r = .par p' q' fun x y => (k x.1 y.1).recorded.bind (after (l ++ (x.2 ++ y.2))) := by
  cases h with
  | base _ l => exact ⟨_, _, l, Rec.recorded p, Rec.recorded q, recorded_par_after p q k l⟩
  | par hp hq k l => exact ⟨_, _, l, hp, hq, rfl⟩

theorem Rec.step {p p' : Proc α} {a : Act} (hs : LStep p a p') {q : Proc (α × Transcript)} (h : Rec p q) :
    ∃ q', LStep q a q' ∧ Rec p' q' := by
  induction hs with
  | send d s b k => cases h with | base _ l => exact ⟨_, .send _ _ _ _, .base k l⟩
  | recv f s b k =>
    cases h with
    | base _ l =>
      refine ⟨(k b).recorded.bind (after (l ++ [(f, b)])), ?_, .base (k b) _⟩
      have : (k b).recorded.bind (after (l ++ [(f, b)])) =
          ((k b).recorded.bind fun x => .done (.ok (x.1, (f, b) :: x.2))).bind (after l) := by
        rw [Proc.bind_assoc]; congr 1; funext x; simp [Proc.bind, after]
      rw [this]
      exact .recv _ _ _ _
  | gatherRecv s n o g k i b h1 h2 h3 => cases h with | base _ l => exact ⟨_, .gatherRecv _ _ _ _ _ _ _ h1 h2 h3, .base (.gather s n o _ k) l⟩
  | gatherDone s n o g k L h1 h2 =>
    cases h with
    | base _ l => exact ⟨_, .gatherDone _ _ _ _ _ L h1 h2, by rw [← recorded_gather_after]; exact .base (k L) _⟩
  | gatherExpire s n o g k L h2 =>
    cases h with
    | base _ l => exact ⟨_, .gatherExpire _ _ _ _ _ L h2, by rw [← recorded_gather_after]; exact .base (k L) _⟩
  | sendFail d s b k e => cases h with | base _ l => exact ⟨_, .sendFail _ _ _ _ e, .base (.done (.error (.net e))) l⟩
  | recvFail f s k e => cases h with | base _ l => exact ⟨_, .recvFail _ _ _ e, .base (.done (.error (.net e))) l⟩
  | parL p p' q k a hst ih =>
    obtain ⟨p1, q1, l, hp, hq, rfl⟩ := h.par_cases
    obtain ⟨p2, h1, h2⟩ := ih hp
    exact ⟨_, .parL _ _ _ _ _ h1, .par h2 hq k l⟩
  | parR p q q' k a hst ih =>
    obtain ⟨p1, q1, l, hp, hq, rfl⟩ := h.par_cases
    obtain ⟨q2, h1, h2⟩ := ih hq
    exact ⟨_, .parR _ _ _ _ _ h1, .par hp h2 k l⟩
  | join r s k =>
    obtain ⟨p1, q1, l, hp, hq, rfl⟩ := h.par_cases
    obtain ⟨x, rfl⟩ := hp.done_ok
    obtain ⟨y, rfl⟩ := hq.done_ok
    exact ⟨_, .join _ _ _, .base (k r s) _⟩
  | abortL e q k =>
    obtain ⟨p1, q1, l, hp, hq, rfl⟩ := h.par_cases
    rw [hp.done_error]
    exact ⟨_, .abortL _ _ _, .base (.done (.error e)) []⟩
  | abortR e q k =>
    obtain ⟨p1, q1, l, hp, hq, rfl⟩ := h.par_cases
    rw [hq.done_error]
    exact ⟨_, .abortR _ _ _, .base (.done (.error e)) []⟩

theorem Rec.step' {p : Proc α} {q q' : Proc (α × Transcript)} {a : Act} (h : Rec p q) (hs : LStep q a q') :
    ∃ p', LStep p a p' ∧ Rec p' q' := by
  induction p generalizing a with
  | done r =>
    cases h with
    | base _ l => cases r <;> cases hs
  | send d s b k ih =>
    cases h with
    | base _ l =>
      cases hs with
      | send => exact ⟨_, .send _ _ _ _, .base k l⟩
      | sendFail _ _ _ _ e => exact ⟨_, .sendFail _ _ _ _ e, .base (.done (.error (.net e))) l⟩
  | recv f s k ih =>
    cases h with
    | base _ l =>
      cases hs with
      | recv _ _ b =>
        refine ⟨_, .recv _ _ b _, ?_⟩
        have : (k b).recorded.bind (after (l ++ [(f, b)])) =
            ((k b).recorded.bind fun x => .done (.ok (x.1, (f, b) :: x.2))).bind (after l) := by
          rw [Proc.bind_assoc]; congr 1; funext x; simp [Proc.bind, after]
        show Rec (k b) (((k b).recorded.bind fun x => .done (.ok (x.1, (f, b) :: x.2))).bind (after l))
        rw [← this]
        exact .base _ _
      | recvFail _ _ _ e => exact ⟨_, .recvFail _ _ _ e, .base (.done (.error (.net e))) l⟩
  | gather s n o g k ih =>
    cases h with
    | base _ l =>
      cases hs with
      | gatherRecv _ _ _ _ _ i b h1 h2 h3 => exact ⟨_, .gatherRecv _ _ _ _ _ _ _ h1 h2 h3, .base (.gather s n o _ k) l⟩
      | gatherDone _ _ _ _ _ L h1 h2 =>
        exact ⟨_, .gatherDone _ _ _ _ _ L h1 h2, by beta_reduce; rw [← recorded_gather_after]; exact .base (k L) _⟩
      | gatherExpire _ _ _ _ _ L h2 =>
        exact ⟨_, .gatherExpire _ _ _ _ _ L h2, by beta_reduce; rw [← recorded_gather_after]; exact .base (k L) _⟩
  | par p1 p2 k ihp ihq ihk =>
    obtain ⟨q1, q2, l, hp, hq, rfl⟩ := h.par_cases
    cases hs with
    | parL _ _ _ _ _ hst =>
      obtain ⟨p', h1, h2⟩ := ihp hp hst
      exact ⟨_, .parL _ _ _ _ _ h1, .par h2 hq k l⟩
    | parR _ _ _ _ _ hst =>
      obtain ⟨p', h1, h2⟩ := ihq hq hst
      exact ⟨_, .parR _ _ _ _ _ h1, .par hp h2 k l⟩
    | join r s =>
      rw [hp.of_done_ok, hq.of_done_ok]
      exact ⟨_, .join _ _ _, .base _ _⟩
    | abortL e => rw [hp.of_done_error]; exact ⟨_, .abortL _ _ _, .base (.done (.error e)) []⟩
    | abortR e => rw [hq.of_done_error]; exact ⟨_, .abortR _ _ _, .base (.done (.error e)) []⟩

/-- Every execution is the execution of the recording programs, and the other way round. -/
theorem Rec.steps {ok : Act → Prop} {k : Nat} {c c' : Net n α} (hs : GSteps ok k c c') :
    ∀ d : Net n (α × Transcript), (∀ i, Rec (c.procs i) (d.procs i)) → d.queues = c.queues →
      ∃ d', GSteps ok k d d' ∧ (∀ i, Rec (c'.procs i) (d'.procs i)) ∧ d'.queues = c'.queues := by
  induction hs with
  | refl c => intro d h hq; exact ⟨d, .refl _, h, hq⟩
  | step h1 _ ih =>
    rintro ⟨ds, dQ⟩ h hq
    cases h1 with
    | mk procs Q Q' i a p' ha hstep hqs =>
      obtain ⟨q', h2, h3⟩ := Rec.step hstep (h i)
      simp only at hq
      subst hq
      obtain ⟨d', h4, h5, h6⟩ := ih ⟨Function.update ds i q', Q'⟩ (by
        intro j
        by_cases hj : j = i
        · subst hj; simpa using h3
        · simpa [Function.update_of_ne hj] using h j) rfl
      exact ⟨d', .step (.mk ds dQ Q' i a q' ha h2 hqs) h4, h5, h6⟩

theorem Rec.steps' {ok : Act → Prop} {k : Nat} {d d' : Net n (α × Transcript)} (hs : GSteps ok k d d') :
    ∀ c : Net n α, (∀ i, Rec (c.procs i) (d.procs i)) → d.queues = c.queues →
      ∃ c', GSteps ok k c c' ∧ (∀ i, Rec (c'.procs i) (d'.procs i)) ∧ d'.queues = c'.queues := by
  induction hs with
  | refl c => intro d h hq; exact ⟨d, .refl _, h, hq⟩
  | step h1 _ ih =>
    rintro ⟨cs, cQ⟩ h hq
    cases h1 with
    | mk procs Q Q' i a q' ha hstep hqs =>
      obtain ⟨p', h2, h3⟩ := Rec.step' (h i) hstep
      simp only at hq
      subst hq
      obtain ⟨d', h4, h5, h6⟩ := ih ⟨Function.update cs i p', Q'⟩ (by
        intro j
        by_cases hj : j = i
        · subst hj; simpa using h3
        · simpa [Function.update_of_ne hj] using h j) rfl
      exact ⟨d', .step (.mk cs Q Q' i a p' ha h2 hqs) h4, h5, h6⟩

/-! ### Runs with transcripts -/

/-- A run in which party `i` ends with `rs i` and has received `vs i`. -/
def RunsV (P : Bytes → Prop) (S : Sid → Prop) (ps : Fin n → Proc α) (rs : Fin n → α) (vs : Fin n → Transcript) : Prop :=
  Runs P S (fun i => (ps i).recorded) fun i => (rs i, vs i)

variable {S : Sid → Prop}

theorem RunsV.done (rs : Fin n → α) : RunsV P S (fun i => .done (.ok (rs i))) rs fun _ => [] := Runs.done _

theorem RunsV.congr {ps ps' : Fin n → Proc α} {rs rs' : Fin n → α} {vs vs' : Fin n → Transcript} (h : RunsV P S ps rs vs)
    (hp : ∀ i, ps' i = ps i) (hr : ∀ i, rs' i = rs i) (hv : ∀ i, vs' i = vs i) : RunsV P S ps' rs' vs' :=
  Runs.congr h (fun i => by rw [hp]) fun i => by rw [hr, hv]

theorem RunsV.mono {S' : Sid → Prop} {ps : Fin n → Proc α} {rs : Fin n → α} {vs : Fin n → Transcript} (h : RunsV P S ps rs vs)
    (hS : ∀ x, S x → S' x) : RunsV P S' ps rs vs := Runs.mono h hS

theorem RunsV.bind {ps : Fin n → Proc α} {rs : Fin n → α} {vs : Fin n → Transcript} (h : RunsV P S ps rs vs)
    {f : Fin n → α → Proc β} {out : Fin n → β} {ws : Fin n → Transcript} (hf : RunsV P S (fun i => f i (rs i)) out ws) :
    RunsV P S (fun i => (ps i).bind (f i)) out fun i => vs i ++ ws i := by
  have h1 : Runs P S (fun i => (f i (rs i)).recorded.bind (after (vs i))) fun i => (out i, vs i ++ ws i) :=
    Runs.bind hf (f := fun i => after (vs i)) (Runs.done _)
  have h2 := Runs.bind h (f := fun i x => (f i x.1).recorded.bind (after x.2)) h1
  refine h2.congr (fun i => ?_) fun _ => rfl
  rw [Proc.recorded_bind]

theorem RunsV.lift_bind {f : Fin n → α → Proc β} {r : Fin n → Res α} {rs : Fin n → α} {out : Fin n → β}
    {vs : Fin n → Transcript} (hr : ∀ i, r i = .ok (rs i)) (h : RunsV P S (fun i => f i (rs i)) out vs) :
    RunsV P S (fun i => (Proc.done (r i)).bind (f i)) out vs := by
  refine RunsV.congr h (fun i => ?_) (fun _ => rfl) fun _ => rfl
  rw [hr i]; rfl

theorem RunsV.par {S1 S2 : Sid → Prop} {ps : Fin n → Proc β} {rs : Fin n → β} {vs : Fin n → Transcript} {qs : Fin n → Proc γ}
    {ss : Fin n → γ} {ws : Fin n → Transcript} (hp : RunsV P S1 ps rs vs) (hq : RunsV P S2 qs ss ws) (h1 : ∀ x, S1 x → S x)
    (h2 : ∀ x, S2 x → S x) {k : Fin n → β → γ → Proc α} {out : Fin n → α} {us : Fin n → Transcript}
    (hk : RunsV P S (fun i => k i (rs i) (ss i)) out us) :
    RunsV P S (fun i => .par (ps i) (qs i) (k i)) out fun i => vs i ++ (ws i ++ us i) := by
  refine Runs.par (k := fun i x y => (k i x.1 y.1).recorded.bind fun z => .done (.ok (z.1, x.2 ++ (y.2 ++ z.2)))) hp hq h1 h2 ?_
  exact Runs.bind hk (f := fun i z => .done (.ok (z.1, vs i ++ (ws i ++ z.2)))) (Runs.done _)

theorem RunsV.alwaysYields {ps : Fin n → Proc α} {rs : Fin n → α} {vs : Fin n → Transcript} (h : RunsV P S ps rs vs)
    (hwf : ∀ i, (ps i).WF S) : Spec.AlwaysYields (Net.init fun i => (ps i).recorded) fun i => (rs i, vs i) :=
  Runs.alwaysYields h fun i => (hwf i).recorded

theorem RunsV.tryJoin3 {S0 S1 S2 : Sid → Prop} {ps : Fin n → Proc α} {qs : Fin n → Proc β} {us : Fin n → Proc γ}
    {rs : Fin n → α} {ss : Fin n → β} {ts : Fin n → γ} {vp vq vu : Fin n → Transcript} (hp : RunsV P S0 ps rs vp)
    (hq : RunsV P S1 qs ss vq) (hu : RunsV P S2 us ts vu) (h0 : ∀ x, S0 x → S x) (h1 : ∀ x, S1 x → S x) (h2 : ∀ x, S2 x → S x)
    {k : Fin n → α → β → γ → Proc δ} {out : Fin n → δ} {vk : Fin n → Transcript}
    (hk : RunsV P S (fun i => k i (rs i) (ss i) (ts i)) out vk) :
    RunsV P S (fun i => tryJoin3 (ps i) (qs i) (us i) (k i)) out fun i => vp i ++ (vq i ++ (vu i ++ vk i)) := by
  have h := RunsV.par (S := S) (RunsV.par (S := S) hp hq h0 h1 (k := fun _ x y => .done (.ok (x, y))) (RunsV.done _)) hu
    (fun _ h => h) h2 (k := fun i xy z => k i xy.1 xy.2 z) hk
  exact RunsV.congr h (fun _ => rfl) (fun _ => rfl) fun i => by simp

theorem recorded_done_bind (r : Res α) (f : α → Proc β) :
    ((Proc.done r).bind f).recorded = (Proc.done r).bind fun a => (f a).recorded := by cases r <;> rfl

theorem recorded_kingSendLoop (out : List Bytes) (m : Nat) (sid : Sid) (ids : List Nat) :
    (kingSendLoop out m sid ids).recorded = (kingSendLoop out m sid ids).bind fun a => .done (.ok (a, [])) := by
  induction ids with
  | nil => rfl
  | cons id ids ih =>
    show ((Proc.done (rd out id)).bind _).recorded = ((Proc.done (rd out id)).bind _).bind _
    rw [recorded_done_bind, Proc.bind_assoc]
    congr 1
    funext b
    split
    · rfl
    · simp only [Proc.recorded, Proc.bind, ih]

/-- What the king gathers from the messages `x`. -/
def gathered {T : Type} [Wire T] (n : Nat) (x : Nat → T) : Transcript := (List.range n).map fun p => (p, Wire.enc (x p))

/-- The first half of a star round: the king records the messages of all parties. -/
theorem runsV_sendReceive {T : Type} [Wire T] (hn : 0 < n) (sid : Sid) (threshold : Nat) (x : Nat → T)
    (hx : ∀ i < n, Wire.Ok (x i)) (hP : ∀ i < n, i ≠ 0 → P (Wire.enc (x i)) := by intros; exact True.intro) :
    RunsV P (only sid) (fun i : Fin n => clientSendOrKingReceiveSer n i (x i) sid threshold)
      (fun i => if i.val = 0 then some (ReceivedShares.mk ((List.range n).map x) (List.range n)) else none)
      fun i => if i.val = 0 then gathered n x else [] := by
  intro Q hQ
  let king : Transcript → Proc (Option (ReceivedShares T) × Transcript) := fun L =>
    (((Proc.done ((kingFinish n L).map some)).bind fun r => .done (decodeReceived (T := T) n threshold r)).recorded).bind
      fun x => .done (.ok (x.1, bySender n L ++ x.2))
  have h := reach_gather (P := P) (n := n) hn sid (fun i => Wire.enc (x i)) king (fun _ => .done (.ok (none, []))) Q
    (fun i => hQ i 0 sid rfl) hP
  have e1 : (fun i : Fin n => (clientSendOrKingReceiveSer n i (x i) sid threshold).recorded) =
      fun i => if i.val = 0 then .gather sid n (Wire.enc (x 0)) (fun _ => none) king
        else .send 0 sid (Wire.enc (x i)) (.done (.ok (none, []))) := by
    funext i
    unfold clientSendOrKingReceiveSer clientSendOrKingReceive
    by_cases hi : i.val = 0
    · simp only [hi, if_true]
      rfl
    · simp only [hi, if_false]
      rfl
  rw [e1]
  refine h.trans ?_
  have e2 : (fun i : Fin n => if i.val = 0 then king ((List.range n).map fun i => (i, Wire.enc (x i))) else .done (.ok (none, []))) =
      fun i => .done (.ok (if i.val = 0 then some ⟨(List.range n).map x, List.range n⟩ else none,
        if i.val = 0 then gathered n x else [])) := by
    funext i
    by_cases hi : i.val = 0
    · simp only [hi, if_true, king]
      rw [kingFinish_range (fun i => Wire.enc (x i)), bySender_range fun i => Wire.enc (x i)]
      show ((Proc.done (decodeReceived n threshold (some (.full _)))).recorded).bind _ = _
      rw [decodeReceived_full threshold x hx]
      simp only [Proc.recorded, Except.map, Proc.bind, List.append_nil, gathered]
    · simp only [hi, if_false]
  rw [e2]
  exact .refl _

/-- The second half of a star round: every client records the message of the king. -/
theorem runsV_receiveSend {T : Type} [Wire T] (hn : 0 < n) (sid : Sid) (ans : Nat → T) (m : Nat)
    (hans : ∀ i < n, Wire.Ok (ans i) ∧ (Wire.enc (ans i)).length = m)
    (hP : ∀ i < n, i ≠ 0 → P (Wire.enc (ans i)) := by intros; exact True.intro) :
    RunsV P (only sid) (fun i : Fin n =>
        clientReceiveOrKingSendSer n i (if i.val = 0 then some ((List.range n).map ans) else none) sid)
      (fun i => ans i) fun i => if i.val = 0 then [] else [(0, Wire.enc (ans i))] := by
  intro Q hQ
  let fin : Transcript → Bytes → Proc (T × Transcript) := fun l b => .done ((decodeOrError b).map fun a => (a, l))
  have hfin : ∀ i < n, ∀ l, fin l (Wire.enc (ans i)) = .done (.ok (ans i, l)) := by
    intro i hi l
    simp only [fin, decodeOrError]
    rw [(hans i hi).1]
    rfl
  have h := reach_scatter (P := P) hn sid (fun i => Wire.enc (ans i)) m (fun i hi => (hans i hi).2)
    (fun _ => fin [] (Wire.enc (ans 0))) (fun _ b => fin [(0, b)] b) Q (fun i => hQ 0 i sid rfl) hP
  have e1 : (fun i : Fin n => (clientReceiveOrKingSendSer n i
        (if i.val = 0 then some ((List.range n).map ans) else none) sid).recorded) =
      fun i => if i.val = 0 then
        (kingSendLoop ((List.range n).map fun i => Wire.enc (ans i)) m sid ((List.range n).filter (· ≠ 0))).bind
          fun _ => fin [] (Wire.enc (ans 0))
        else .recv 0 sid fun b => fin [(0, b)] b := by
    funext i
    unfold clientReceiveOrKingSendSer clientReceiveOrKingSend
    by_cases hi : i.val = 0
    · simp only [hi, if_true, Option.map_some, List.map_map]
      have hrd : rd ((List.range n).map (Wire.enc ∘ ans)) 0 = .ok (Wire.enc (ans 0)) := by
        unfold rd
        have : ((List.range n).map (Wire.enc ∘ ans))[0]? = some (Wire.enc (ans 0)) := by simp [hn]
        rw [this]
      simp only [ne_eq, not_true_eq_false, if_false]
      rw [hrd]
      have h0 := (hans 0 hn).2
      show Proc.recorded (Proc.bind (Proc.bind (.done (.ok _)) _) _) = _
      simp only [Proc.bind]
      rw [h0]
      show Proc.recorded (Proc.bind (Proc.bind _ _) _) = _
      rw [Proc.bind_assoc, Proc.recorded_bind, recorded_kingSendLoop, Proc.bind_assoc]
      congr 1
      funext _
      simp only [Proc.bind, fin]
      show Proc.bind (Proc.recorded (Proc.done (decodeOrError _))) _ = _
      cases (decodeOrError (Wire.enc (ans 0)) : Res T) <;> rfl
    · simp only [hi, if_false, Option.map_none]
      show Proc.recorded (Proc.recv 0 sid _) = _
      simp only [Proc.recorded]
      congr 1
      funext b
      show Proc.bind (Proc.recorded (Proc.done (decodeOrError b))) _ = fin [(0, b)] b
      simp only [fin]
      cases (decodeOrError b : Res T) <;> rfl
  rw [e1]
  refine h.trans ?_
  have e2 : (fun i : Fin n => if i.val = 0 then fin [] (Wire.enc (ans 0)) else fin [(0, Wire.enc (ans i))] (Wire.enc (ans i))) =
      fun i => .done (.ok (ans i, if i.val = 0 then [] else [(0, Wire.enc (ans i))])) := by
    funext i
    by_cases hi : i.val = 0
    · rw [if_pos hi, if_pos hi, hfin 0 hn, hi]
    · rw [if_neg hi, if_neg hi, hfin i i.isLt]
  rw [e2]
  exact .refl _

/-- A complete star round. -/
theorem runsV_round {T U : Type} [Wire T] [Wire U] (hn : 0 < n) (sid : Sid) (threshold : Nat) (x : Nat → T)
    (hx : ∀ i < n, Wire.Ok (x i)) (K : Fin n → ReceivedShares T → Res (List U)) (ans : Nat → U) (m : Nat)
    (hK : K ⟨0, hn⟩ ⟨(List.range n).map x, List.range n⟩ = .ok ((List.range n).map ans))
    (hans : ∀ i < n, Wire.Ok (ans i) ∧ (Wire.enc (ans i)).length = m) (f : Fin n → U → Proc α) {out : Fin n → α}
    {vs : Fin n → Transcript} (hf : RunsV All (only sid) (fun i => f i (ans i)) out vs) :
    RunsV All (only sid) (fun i : Fin n => (clientSendOrKingReceiveSer n i (x i) sid threshold).bind fun r =>
      (Proc.done (kingDo (K i) r)).bind fun a => (clientReceiveOrKingSendSer n i a sid).bind (f i)) out
      fun i => (if i.val = 0 then gathered n x else [(0, Wire.enc (ans i))]) ++ vs i := by
  have h3 := RunsV.bind (runsV_receiveSend (P := All) hn sid ans m hans) hf
  have h2 : RunsV All (only sid) (fun i : Fin n => (Proc.done (kingDo (K i)
      (if i.val = 0 then some (ReceivedShares.mk ((List.range n).map x) (List.range n)) else none))).bind fun a =>
        (clientReceiveOrKingSendSer n i a sid).bind (f i)) out
      fun i => (if i.val = 0 then [] else [(0, Wire.enc (ans i))]) ++ vs i := by
    refine RunsV.lift_bind (rs := fun i => if i.val = 0 then some ((List.range n).map ans) else none) ?_ h3
    intro i
    by_cases hi : i.val = 0
    · have : i = ⟨0, hn⟩ := Fin.ext hi
      subst this
      simp only [if_true, kingDo, hK]
      rfl
    · simp only [hi, if_false, kingDo]
  exact RunsV.congr (RunsV.bind (runsV_sendReceive (P := All) hn sid threshold x hx) h2) (fun _ => rfl) (fun _ => rfl)
    fun i => by by_cases hi : i.val = 0 <;> simp [hi]

end ZkSaas
