import Verif.Spec.Volume
import Verif.Lemmas.Trace
import Verif.Lemmas.Recorded
import Verif.Model.Prove
import Mathlib.Algebra.BigOperators.Ring.Finset
import Mathlib.Algebra.Order.BigOperators.Group.List

/-! How many bytes a program exchanges. -/

namespace ZkSaas

open Spec

variable {n : Nat} {α β γ δ : Type}

/-! ### Bytes of transcripts -/

/-- The bytes of the messages from `j` in a transcript. -/
def heard (j : Nat) (l : Transcript) : Nat := (l.map fun x => if x.1 = j then x.2.length else 0).sum

theorem heard_nil (j : Nat) : heard j [] = 0 := rfl

theorem heard_append (j : Nat) (l m : Transcript) : heard j (l ++ m) = heard j l + heard j m := by
  simp [heard]

theorem heard_single (j i : Nat) (b : Bytes) : heard j [(i, b)] = if i = j then b.length else 0 := by
  simp [heard]

theorem heard_filter (j : Nat) (l : Transcript) : heard j l = ((l.filter fun x => x.1 == j).map fun x => x.2.length).sum := by
  induction l with
  | nil => rfl
  | cons x l ih =>
    have : heard j (x :: l) = (if x.1 = j then x.2.length else 0) + heard j l := rfl
    rw [this, ih]
    by_cases h : x.1 = j <;> simp [h]

theorem heard_bySender (n j : Nat) (l : Transcript) : heard j (bySender n l) = if j < n then heard j l else 0 := by
  unfold bySender
  induction n with
  | zero => rfl
  | succ n ih =>
    rw [List.range_succ, List.flatMap_append, heard_append, ih]
    have : heard j (List.flatMap (fun i => l.filter fun x => x.1 == i) [n]) = if j = n then heard j l else 0 := by
      rw [List.flatMap_singleton, heard_filter, heard_filter, List.filter_filter]
      by_cases h : j = n
      · subst h; simp
      · rw [if_neg h]
        have : (l.filter fun x => x.1 == j && x.1 == n) = [] := by
          rw [List.filter_eq_nil_iff]; simp only [Bool.and_eq_true, beq_iff_eq]; rintro x _ ⟨h1, h2⟩; exact h (h1.symm.trans h2)
        rw [this]; rfl
    rw [this]
    split_ifs <;> omega

/-- The bytes from `j` that an open gather holds. -/
def held (j n : Nat) (got : Nat → Option Bytes) : Nat := if 1 ≤ j ∧ j < n then (got j).elim 0 List.length else 0

theorem heard_enumerates {n j : Nat} (hj : j ≠ 0) {own : Bytes} {got : Nat → Option Bytes} {L : Transcript} (h : Enumerates n own got L) :
    heard j (bySender n L) = held j n got := by
  rw [heard_bySender, heard_filter]
  unfold held
  by_cases hjn : j < n
  · rw [if_pos hjn, if_pos ⟨by omega, hjn⟩]
    have hlen : (L.filter fun x => x.1 == j).length ≤ 1 := by
      have h1 := List.nodup_iff_count_le_one.1 h.1 j
      rw [List.count, List.countP_map, List.countP_eq_length_filter] at h1
      exact h1
    have hmem : ∀ x, x ∈ (L.filter fun x => x.1 == j) ↔ x.1 = j ∧ got j = some x.2 := by
      intro x
      rw [List.mem_filter, h.2 x.1 x.2, beq_iff_eq]
      constructor
      · rintro ⟨h1 | h1, rfl⟩
        · exact absurd h1.1 hj
        · exact ⟨rfl, h1.2.2⟩
      · rintro ⟨rfl, h2⟩
        exact ⟨Or.inr ⟨by omega, hjn, h2⟩, rfl⟩
    cases hg : got j with
    | none =>
      have : (L.filter fun x => x.1 == j) = [] := by
        rw [List.eq_nil_iff_forall_not_mem]; intro x hx; have := ((hmem x).1 hx).2; rw [hg] at this; cases this
      rw [this]; rfl
    | some b =>
      have h1 : (j, b) ∈ (L.filter fun x => x.1 == j) := (hmem _).2 ⟨rfl, hg⟩
      match h2 : (L.filter fun x => x.1 == j) with
      | [] => rw [h2] at h1; cases h1
      | [x] => rw [h2] at h1; rw [List.mem_singleton] at h1; subst h1; rw [h2]; simp
      | x :: y :: r => rw [h2] at hlen; simp at hlen
  · rw [if_neg hjn, if_neg (fun h => hjn h.2)]

/-! ### What a program has taken is what it has recorded -/

/-- The gathers of the program start empty, and there are none if `j` is the king. -/
inductive Proc.Unheard (j : Nat) : {α : Type} → Proc α → Prop where
  | done {α : Type} (r : Res α) : Proc.Unheard j (.done r)
  | send {α : Type} {d : Nat} {x : Sid} {b : Bytes} {k : Proc α} (h : Proc.Unheard j k) : Proc.Unheard j (.send d x b k)
  | recv {α : Type} {d : Nat} {x : Sid} {k : Bytes → Proc α} (h : ∀ b, Proc.Unheard j (k b)) : Proc.Unheard j (.recv d x k)
  | gather {α : Type} {sid : Sid} {n : Nat} {own : Bytes} {k : List (Nat × Bytes) → Proc α} (hj : j ≠ 0) (h : ∀ L, Proc.Unheard j (k L)) :
      Proc.Unheard j (.gather sid n own (fun _ => none) k)
  | par {α β γ : Type} {p : Proc β} {q : Proc γ} {k : β → γ → Proc α} (hp : Proc.Unheard j p) (hq : Proc.Unheard j q)
      (hk : ∀ r t, Proc.Unheard j (k r t)) : Proc.Unheard j (.par p q k)

theorem Proc.Unheard.bind {j : Nat} {p : Proc α} (hp : p.Unheard j) {f : α → Proc β} (hf : ∀ a, (f a).Unheard j) : (p.bind f).Unheard j := by
  induction hp with
  | done r => cases r with
    | ok a => exact hf a
    | error e => exact .done _
  | send _ ih => exact .send (ih hf)
  | recv _ ih => exact .recv fun b => ih b hf
  | gather hj _ ih => exact .gather hj fun L => ih L hf
  | par h1 h2 _ _ _ ih => exact .par h1 h2 fun r t => ih r t hf

theorem Proc.Unheard.lift {j : Nat} {r : Res α} {f : α → Proc β} (hf : ∀ a, (f a).Unheard j) : ((liftM r : Proc α) >>= f).Unheard j :=
  Proc.Unheard.bind (.done r) hf

/-- `q` is `p` in the middle of recording, and has taken `w` bytes from `j`. -/
inductive RecB (j : Nat) : {α : Type} → Proc α → Proc (α × Transcript) → Nat → Prop where
  | base {α : Type} (p : Proc α) (l : Transcript) (h : p.Unheard j) : RecB j p (p.recorded.bind (after l)) (heard j l)
  | fail {α : Type} (e : Fault) (w : Nat) : RecB j (.done (.error e) : Proc α) (.done (.error e)) w
  | gather {α : Type} (sid : Sid) (n : Nat) (own : Bytes) (got : Nat → Option Bytes) (k : List (Nat × Bytes) → Proc α) (l : Transcript)
      (hj : j ≠ 0) (h : ∀ L, (k L).Unheard j) :
      RecB j (.gather sid n own got k) ((Proc.gather sid n own got k).recorded.bind (after l)) (heard j l + held j n got)
  | par {α β γ : Type} {p : Proc β} {p' : Proc (β × Transcript)} {q : Proc γ} {q' : Proc (γ × Transcript)} {w w' : Nat}
      (hp : RecB j p p' w) (hq : RecB j q q' w') (k : β → γ → Proc α) (l : Transcript) (h : ∀ r t, (k r t).Unheard j) :
      RecB j (.par p q k) (.par p' q' fun x y => (k x.1 y.1).recorded.bind (after (l ++ (x.2 ++ y.2)))) (heard j l + (w + w'))

theorem RecB.recorded {j : Nat} {p : Proc α} (h : p.Unheard j) : RecB j p p.recorded 0 := by
  have := RecB.base p [] h
  rwa [bind_after_nil] at this

theorem RecB.done_ok {j w : Nat} {v : α} {q : Proc (α × Transcript)} (h : RecB j (.done (.ok v)) q w) :
    ∃ l, q = .done (.ok (v, l)) ∧ w = heard j l := by
  cases h with
  | base _ l => exact ⟨l, by simp [Proc.recorded, Except.map, Proc.bind, after], rfl⟩

theorem RecB.done_error {j w : Nat} {e : Fault} {q : Proc (α × Transcript)} (h : RecB j (.done (.error e)) q w) : q = .done (.error e) := by
  cases h with
  | base _ l => rfl
  | fail => rfl

theorem RecB.par_cases {j w : Nat} {p : Proc β} {q : Proc γ} {k : β → γ → Proc α} {r : Proc (α × Transcript)} (h : RecB j (.par p q k) r w) :
    ∃ p' q' l w1 w2, RecB j p p' w1 ∧ RecB j q q' w2 ∧
      r = (.par p' q' fun x y => (k x.1 y.1).recorded.bind (after (l ++ (x.2 ++ y.2)))) ∧ w = heard j l + (w1 + w2) ∧
      ∀ r t, (k r t).Unheard j := by
  cases h with
  | base _ l h => cases h with
    | par hp hq hk => exact ⟨_, _, l, 0, 0, RecB.recorded hp, RecB.recorded hq, recorded_par_after p q k l, rfl, hk⟩
  | par hp hq k l h => exact ⟨_, _, l, _, _, hp, hq, rfl, rfl, h⟩

theorem RecB.gather_cases {j w : Nat} {s : Sid} {n : Nat} {o : Bytes} {g : Nat → Option Bytes} {k : List (Nat × Bytes) → Proc α}
    {r : Proc (α × Transcript)} (h : RecB j (.gather s n o g k) r w) :
    ∃ l, r = (Proc.gather s n o g k).recorded.bind (after l) ∧ w = heard j l + held j n g ∧ j ≠ 0 ∧ ∀ L, (k L).Unheard j := by
  cases h with
  | base _ l h => cases h with
    | gather hj h => exact ⟨l, rfl, by simp [held], hj, h⟩
  | gather _ _ _ _ _ l hj h => exact ⟨l, rfl, rfl, hj, h⟩

theorem RecB.step {j : Nat} {p p' : Proc α} {a : Act} (hs : LStep p a p') {q : Proc (α × Transcript)} {w : Nat} (h : RecB j p q w) :
    ∃ q' w', LStep q a q' ∧ RecB j p' q' w' ∧ w' = w + bytesFrom j a := by
  induction hs generalizing w with
  | send d s b k =>
    cases h with
    | base _ l h => cases h with | send h => exact ⟨_, _, .send _ _ _ _, .base k l h, rfl⟩
  | recv f s b k =>
    cases h with
    | base _ l h =>
      cases h with
      | recv h =>
        refine ⟨(k b).recorded.bind (after (l ++ [(f, b)])), _, ?_, .base (k b) _ (h b), ?_⟩
        · have : (k b).recorded.bind (after (l ++ [(f, b)])) =
              ((k b).recorded.bind fun x => .done (.ok (x.1, (f, b) :: x.2))).bind (after l) := by
            rw [Proc.bind_assoc]; congr 1; funext x; simp [Proc.bind, after]
          rw [this]
          exact .recv _ _ _ _
        · rw [heard_append, heard_single]; rfl
  | gatherRecv s n o g k i b h1 h2 h3 =>
    obtain ⟨l, rfl, rfl, hj, hk⟩ := h.gather_cases
    refine ⟨_, _, .gatherRecv _ _ _ _ _ _ _ h1 h2 h3, .gather s n o _ k l hj hk, ?_⟩
    rw [Nat.add_assoc]
    congr 1
    unfold held bytesFrom
    by_cases hij : i = j
    · subst hij
      simp [h1, h2, h3]
    · rw [Function.update_of_ne (Ne.symm hij)]
      simp [hij]
  | gatherDone s n o g k L h1 h2 =>
    obtain ⟨l, rfl, rfl, hj, hk⟩ := h.gather_cases
    refine ⟨_, _, .gatherDone _ _ _ _ _ L h1 h2, by rw [← recorded_gather_after]; exact .base (k L) _ (hk L), ?_⟩
    rw [heard_append, heard_enumerates hj h2]; rfl
  | gatherExpire s n o g k L h2 =>
    obtain ⟨l, rfl, rfl, hj, hk⟩ := h.gather_cases
    refine ⟨_, _, .gatherExpire _ _ _ _ _ L h2, by rw [← recorded_gather_after]; exact .base (k L) _ (hk L), ?_⟩
    rw [heard_append, heard_enumerates hj h2]; rfl
  | sendFail d s b k e => cases h with | base _ l => exact ⟨_, _, .sendFail _ _ _ _ e, .fail _ _, rfl⟩
  | recvFail f s k e => cases h with | base _ l => exact ⟨_, _, .recvFail _ _ _ e, .fail _ _, rfl⟩
  | parL p p' q k a hst ih =>
    obtain ⟨p1, q1, l, w1, w2, hp, hq, rfl, rfl, hk⟩ := h.par_cases
    obtain ⟨p2, w3, h1, h2, e⟩ := ih hp
    exact ⟨_, _, .parL _ _ _ _ _ h1, .par h2 hq k l hk, by omega⟩
  | parR p q q' k a hst ih =>
    obtain ⟨p1, q1, l, w1, w2, hp, hq, rfl, rfl, hk⟩ := h.par_cases
    obtain ⟨q2, w3, h1, h2, e⟩ := ih hq
    exact ⟨_, _, .parR _ _ _ _ _ h1, .par hp h2 k l hk, by omega⟩
  | join r s k =>
    obtain ⟨p1, q1, l, w1, w2, hp, hq, rfl, rfl, hk⟩ := h.par_cases
    obtain ⟨x, rfl, rfl⟩ := hp.done_ok
    obtain ⟨y, rfl, rfl⟩ := hq.done_ok
    exact ⟨_, _, .join _ _ _, .base (k r s) _ (hk r s), by simp [heard_append, bytesFrom]⟩
  | abortL e q k =>
    obtain ⟨p1, q1, l, w1, w2, hp, hq, rfl, rfl, hk⟩ := h.par_cases
    rw [hp.done_error]
    exact ⟨_, _, .abortL _ _ _, .fail _ _, rfl⟩
  | abortR e q k =>
    obtain ⟨p1, q1, l, w1, w2, hp, hq, rfl, rfl, hk⟩ := h.par_cases
    rw [hq.done_error]
    exact ⟨_, _, .abortR _ _ _, .fail _ _, rfl⟩

/-! ### Executions -/

theorem takenBytes_cons (i : Nat) (a : Act) (tr : List (Nat × Act)) (m j : Nat) :
    takenBytes ((i, a) :: tr) m j = (if i = m then bytesFrom j a else 0) + takenBytes tr m j := by
  simp [takenBytes]

theorem sentBytes_cons (i : Nat) (a : Act) (tr : List (Nat × Act)) (m j : Nat) :
    sentBytes ((i, a) :: tr) m j = (if i = m then bytesTo j a else 0) + sentBytes tr m j := by
  simp [sentBytes]

theorem RecB.toRec {j w : Nat} {p : Proc α} {q : Proc (α × Transcript)} (h : RecB j p q w) : Rec p q := by
  induction h with
  | base p l _ => exact .base p l
  | fail e _ => exact .base (.done (.error e)) []
  | gather s n o g k l _ _ => exact .base (.gather s n o g k) l
  | par _ _ k l _ h1 h2 => exact .par h1 h2 k l

/-- An execution is one of recording programs, and what party `i` has taken from `j` is in its record. -/
theorem RecB.trace {tr : List (Nat × Act)} {c c' : Net n α} (h : Trace tr c c') (i : Fin n) (j : Nat) :
    ∀ (d : Net n (α × Transcript)) (w : Nat), (∀ m, Rec (c.procs m) (d.procs m)) → d.queues = c.queues → RecB j (c.procs i) (d.procs i) w →
      ∃ d', Trace tr d d' ∧ (∀ m, Rec (c'.procs m) (d'.procs m)) ∧ d'.queues = c'.queues ∧
        RecB j (c'.procs i) (d'.procs i) (w + takenBytes tr i j) := by
  induction h with
  | refl c => intro d w hr hq h; exact ⟨d, .refl _, hr, hq, h⟩
  | @step procs Q Q' m a p' tr c hstep hq hs ih =>
    rintro ⟨ds, dQ⟩ w hr hQ hB
    simp only at hQ hr hB
    subst hQ
    rw [takenBytes_cons]
    have upd : ∀ q', Rec p' q' → ∀ x, Rec (Function.update procs m p' x) (Function.update ds m q' x) := by
      intro q' h x
      by_cases hx : x = m
      · subst hx; simpa using h
      · simpa [Function.update_of_ne hx] using hr x
    by_cases hm : m = i
    · subst hm
      obtain ⟨q', w', h2, h3, rfl⟩ := RecB.step hstep hB
      obtain ⟨d', g1, g2, g3, g4⟩ := ih ⟨Function.update ds m q', Q'⟩ _ (upd q' h3.toRec) rfl (by simpa using h3)
      refine ⟨d', .step h2 hq g1, g2, g3, ?_⟩
      rw [if_pos rfl, ← Nat.add_assoc]; exact g4
    · obtain ⟨q', h2, h3⟩ := Rec.step hstep (hr m)
      obtain ⟨d', g1, g2, g3, g4⟩ := ih ⟨Function.update ds m q', Q'⟩ w (upd q' h3) rfl
        (by simpa [Function.update_of_ne (Ne.symm hm)] using hB)
      have hne : m.val ≠ i.val := fun e => hm (Fin.ext e)
      refine ⟨d', .step h2 hq g1, g2, g3, ?_⟩
      rw [if_neg hne, Nat.zero_add]; exact g4

/-- The bytes in transit from `i` to `j`. -/
def transit (Q : Queues) (i j : Nat) (x : Sid) : Nat := ((Q (i, j, x)).map List.length).sum

/-- The bytes of the message, if the action is a send to `dst` on stream `x`. -/
def bytesOn (dst : Nat) (x : Sid) : Act → Nat
  | .send d y b => if d = dst ∧ y = x then b.length else 0
  | _ => 0

/-- The bytes of the message, if the action is a receive from `frm` on stream `x`. -/
def bytesOff (frm : Nat) (x : Sid) : Act → Nat
  | .recv d y b => if d = frm ∧ y = x then b.length else 0
  | _ => 0

theorem bytesTo_eq (d : Nat) (a : Act) : bytesTo d a = bytesOn d .zero a + bytesOn d .one a + bytesOn d .two a := by
  cases a with
  | send e y b => by_cases h : e = d <;> cases y <;> simp [bytesTo, bytesOn, h]
  | _ => rfl

theorem bytesFrom_eq (d : Nat) (a : Act) : bytesFrom d a = bytesOff d .zero a + bytesOff d .one a + bytesOff d .two a := by
  cases a with
  | recv e y b => by_cases h : e = d <;> cases y <;> simp [bytesFrom, bytesOff, h]
  | _ => rfl

theorem qstep_bytes {m : Nat} {a : Act} {Q Q' : Queues} (hq : qstep m a Q = some Q') (i j : Nat) (x : Sid) :
    (if m = j then bytesOff i x a else 0) + transit Q' i j x = (if m = i then bytesOn j x a else 0) + transit Q i j x := by
  cases a with
  | send d y b =>
    simp only [qstep, Option.some.injEq] at hq
    subst hq
    by_cases he : (i, j, x) = (m, d, y)
    · simp only [Prod.mk.injEq] at he
      obtain ⟨rfl, rfl, rfl⟩ := he
      simp [transit, bytesOff, bytesOn]; omega
    · have : transit (Function.update Q (m, d, y) (Q (m, d, y) ++ [b])) i j x = transit Q i j x := by
        unfold transit; rw [Function.update_of_ne he]
      rw [this]
      have h1 : (if m = i then bytesOn j x (.send d y b) else 0) = 0 := by
        split_ifs with h1
        · refine if_neg fun h2 => he ?_
          rw [h1, h2.1, h2.2]
        · rfl
      rw [h1]
      simp [bytesOff]
  | recv d y b =>
    simp only [qstep] at hq
    split at hq
    · cases hq
    · next z rest hz =>
      split_ifs at hq with hzb
      cases hq
      by_cases he : (i, j, x) = (d, m, y)
      · simp only [Prod.mk.injEq] at he
        obtain ⟨rfl, rfl, rfl⟩ := he
        simp [transit, bytesOff, bytesOn, hz, hzb]
      · have : transit (Function.update Q (d, m, y) rest) i j x = transit Q i j x := by
          unfold transit; rw [Function.update_of_ne he]
        rw [this]
        have h1 : (if m = j then bytesOff i x (.recv d y b) else 0) = 0 := by
          split_ifs with h1
          · refine if_neg fun h2 => he ?_
            rw [h1, h2.1, h2.2]
          · rfl
        rw [h1]
        simp [bytesOn]
  | tau => cases hq; simp [bytesOff, bytesOn]
  | abort => cases hq; simp [bytesOff, bytesOn]
  | fault => cases hq; simp [bytesOff, bytesOn]

/-- What is taken was sent before, and what is not yet taken is in transit. -/
theorem trace_bytes {tr : List (Nat × Act)} {c c' : Net n α} (h : Trace tr c c') (i j : Nat) :
    takenBytes tr j i + (transit c'.queues i j .zero + transit c'.queues i j .one + transit c'.queues i j .two) =
      sentBytes tr i j + (transit c.queues i j .zero + transit c.queues i j .one + transit c.queues i j .two) := by
  induction h with
  | refl => rfl
  | @step procs Q Q' m a p' tr c hstep hq hs ih =>
    rw [takenBytes_cons, sentBytes_cons, bytesFrom_eq, bytesTo_eq]
    have h0 := qstep_bytes hq i j .zero
    have h1 := qstep_bytes hq i j .one
    have h2 := qstep_bytes hq i j .two
    have ih : takenBytes tr j i + _ = sentBytes tr i j + (transit Q' i j .zero + transit Q' i j .one + transit Q' i j .two) := ih
    show _ = _ + (transit Q i j .zero + transit Q i j .one + transit Q i j .two)
    split_ifs at h0 h1 h2 ⊢ <;> omega

theorem sentBytes_append (tr tr' : List (Nat × Act)) (i j : Nat) : sentBytes (tr ++ tr') i j = sentBytes tr i j + sentBytes tr' i j := by
  simp [sentBytes]

theorem Spec.Trace.append {tr tr' : List (Nat × Act)} {c c' c'' : Net n α} (h : Trace tr c c') (h' : Trace tr' c' c'') :
    Trace (tr ++ tr') c c'' := by
  induction h with
  | refl => exact h'
  | step hs hq _ ih => exact .step hs hq (ih h')

theorem Spec.Trace.gsteps {ok : Act → Prop} {tr : List (Nat × Act)} {c c' : Net n α} (h : Trace tr c c') (hok : ∀ e ∈ tr, ok e.2) :
    GSteps ok tr.length c c' := by
  induction h with
  | refl => exact .refl _
  | @step _ _ _ i a _ _ _ hs hq _ ih =>
    exact .step (.mk _ _ _ _ _ _ (hok (i.val, a) (by simp)) hs hq) (ih fun e he => hok e (by simp [he]))

theorem GSteps.trace {ok : Act → Prop} {k : Nat} {c c' : Net n α} (h : GSteps ok k c c') :
    ∃ tr, Trace tr c c' ∧ ∀ e ∈ tr, ok e.2 := by
  induction h with
  | refl c => exact ⟨[], .refl c, by simp⟩
  | step h _ ih =>
    obtain ⟨tr, ht, ho⟩ := ih
    cases h with
    | mk procs Q Q' i a p' ha hstep hq =>
      refine ⟨(i.val, a) :: tr, .step hstep hq ht, fun e he => ?_⟩
      rcases List.mem_cons.1 he with rfl | he
      · exact ha
      · exact ho e he

theorem allBytes_eq (n : Nat) (tr : List (Nat × Act)) (h1 : ∀ e ∈ tr, e.1 < n) (h2 : ∀ i j, n ≤ j → sentBytes tr i j = 0) :
    allBytes tr = ∑ i ∈ Finset.range n, ∑ j ∈ Finset.range n, sentBytes tr i j := by
  induction tr with
  | nil => simp [allBytes, sentBytes]
  | cons e tr ih =>
    obtain ⟨i, a⟩ := e
    have hi : i < n := h1 (i, a) (by simp)
    have ih := ih (fun e he => h1 e (by simp [he])) fun m j hj => by
      have := h2 m j hj; rw [sentBytes_cons] at this; omega
    simp only [sentBytes_cons, Finset.sum_add_distrib]
    rw [← ih]
    have e1 : ∑ m ∈ Finset.range n, ∑ j ∈ Finset.range n, (if i = m then bytesTo j a else 0) = ∑ j ∈ Finset.range n, bytesTo j a := by
      rw [Finset.sum_eq_single_of_mem i (by simpa using hi)]
      · simp
      · intro m _ hm; simp [Ne.symm hm]
    rw [e1]
    cases a with
    | send d x b =>
      have e2 : allBytes ((i, .send d x b) :: tr) = b.length + allBytes tr := by simp [allBytes]
      rw [e2]
      congr 1
      by_cases hd : d < n
      · rw [Finset.sum_eq_single_of_mem d (by simpa using hd)]
        · simp [bytesTo]
        · intro j _ hj; simp [bytesTo, Ne.symm hj]
      · have h3 := h2 i d (by omega)
        rw [sentBytes_cons] at h3
        simp [bytesTo] at h3
        rw [Finset.sum_eq_zero]
        · simp [h3.1]
        · intro j hj; rw [Finset.mem_range] at hj; exact if_neg (by omega)
    | _ => simp [allBytes, bytesTo]

/-! ### Programs that exchange a fixed number of bytes -/

theorem takenBytes_zero {tr : List (Nat × Act)} {i j : Nat} (h : ∀ x, taken tr i j x = 0) : takenBytes tr i j = 0 := by
  unfold takenBytes
  rw [List.sum_eq_zero]
  intro w hw
  obtain ⟨⟨m, a⟩, he, rfl⟩ := List.mem_map.1 hw
  simp only
  split_ifs with hm
  · subst hm
    cases a with
    | recv d x b =>
      refine if_neg fun hd => ?_
      subst hd
      have := h x
      unfold taken at this
      rw [List.countP_eq_zero] at this
      exact this _ he (by simp [isRecv])
    | _ => rfl
  · rfl

theorem takenBytes_none {tr : List (Nat × Act)} {i j : Nat} (h : ∀ e ∈ tr, e.1 ≠ i) : takenBytes tr i j = 0 := by
  unfold takenBytes
  rw [List.sum_eq_zero]
  intro w hw
  obtain ⟨e, he, rfl⟩ := List.mem_map.1 hw
  exact if_neg (h e he)

theorem Spec.Trace.lt {tr : List (Nat × Act)} {c c' : Net n α} (h : Trace tr c c') : ∀ e ∈ tr, e.1 < n := by
  induction h with
  | refl => simp
  | @step _ _ _ i _ _ _ _ _ _ _ ih =>
    intro e he
    rcases List.mem_cons.1 he with rfl | he
    · exact i.isLt
    · exact ih e he

theorem sum_star (hn : 0 < n) (up down : Nat) :
    (∑ i ∈ Finset.range n, ∑ j ∈ Finset.range n, starBytes n up down i j) = (n - 1) * (up + down) := by
  have e1 : ∀ i ∈ Finset.range n, (∑ j ∈ Finset.range n, starBytes n up down i j) = if i = 0 then (n - 1) * down else up := by
    intro i hi
    rw [Finset.mem_range] at hi
    by_cases h0 : i = 0
    · rw [if_pos h0]
      have : ∀ j ∈ Finset.range n, starBytes n up down i j = if 1 ≤ j then down else 0 := by
        intro j hj
        rw [Finset.mem_range] at hj
        unfold starBytes
        split_ifs <;> omega
      rw [Finset.sum_congr rfl this, ← Finset.sum_filter, Finset.sum_const, smul_eq_mul]
      congr 1
      have : (Finset.range n).filter (fun j => 1 ≤ j) = Finset.Ico 1 n := by
        ext j; simp only [Finset.mem_filter, Finset.mem_range, Finset.mem_Ico]; omega
      rw [this, Nat.card_Ico]
    · rw [if_neg h0, Finset.sum_eq_single_of_mem 0 (by simpa using hn)]
      · unfold starBytes; rw [if_neg (by omega), if_pos ⟨rfl, by omega, hi⟩]
      · intro j _ hj; unfold starBytes; rw [if_neg (by omega), if_neg (by omega)]
  rw [Finset.sum_congr rfl e1]
  obtain ⟨m, rfl⟩ : ∃ m, n = m + 1 := ⟨n - 1, by omega⟩
  rw [Finset.sum_range_succ']
  simp
  ring

theorem Rec.trace {tr : List (Nat × Act)} {c c' : Net n α} (ht : Trace tr c c') : ∀ d : Net n (α × Transcript),
    (∀ i, Rec (c.procs i) (d.procs i)) → d.queues = c.queues →
      ∃ d', Trace tr d d' ∧ (∀ i, Rec (c'.procs i) (d'.procs i)) ∧ d'.queues = c'.queues := by
  induction ht with
  | refl c => intro d h hq; exact ⟨d, .refl _, h, hq⟩
  | @step procs Q Q' i a p' tr c hstep hqs _ ih =>
    rintro ⟨ds, dQ⟩ h hq
    obtain ⟨q', h2, h3⟩ := Rec.step hstep (h i)
    simp only at hq
    subst hq
    obtain ⟨d', h4, h5, h6⟩ := ih ⟨Function.update ds i q', Q'⟩ (by
      intro j
      by_cases hj : j = i
      · subst hj; simpa using h3
      · simpa [Function.update_of_ne hj] using h j) rfl
    exact ⟨d', .step h2 hqs h4, h5, h6⟩

/-- A run in which the king hears `up` bytes from each client, and each client `down` bytes from the king. -/
def RunsB (P : Bytes → Prop) (S : Sid → Prop) (ps : Fin n → Proc α) (rs : Fin n → α) (up down : Nat) : Prop :=
  ∃ vs, RunsV P S ps rs vs ∧ ∀ i j, Peer' n i.val j → heard j (vs i) = if i.val = 0 then up else down

theorem RunsB.done {P : Bytes → Prop} {S : Sid → Prop} (rs : Fin n → α) : RunsB P S (fun i => .done (.ok (rs i))) rs 0 0 :=
  ⟨_, RunsV.done rs, fun i j _ => by simp [heard_nil]⟩

theorem RunsB.congr {P : Bytes → Prop} {S : Sid → Prop} {ps ps' : Fin n → Proc α} {rs rs' : Fin n → α} {up down : Nat}
    (h : RunsB P S ps rs up down) (hp : ∀ i, ps' i = ps i) (hr : ∀ i, rs' i = rs i) : RunsB P S ps' rs' up down :=
  let ⟨vs, h1, h2⟩ := h
  ⟨vs, h1.congr hp hr fun _ => rfl, h2⟩

theorem RunsB.bind {P : Bytes → Prop} {S : Sid → Prop} {ps : Fin n → Proc α} {rs : Fin n → α} {up down : Nat} (h : RunsB P S ps rs up down)
    {f : Fin n → α → Proc β} {out : Fin n → β} {up' down' : Nat} (hf : RunsB P S (fun i => f i (rs i)) out up' down') :
    RunsB P S (fun i => (ps i).bind (f i)) out (up + up') (down + down') := by
  obtain ⟨vs, h1, h2⟩ := h
  obtain ⟨ws, h3, h4⟩ := hf
  refine ⟨_, RunsV.bind h1 h3, fun i j hp => ?_⟩
  rw [heard_append, h2 i j hp, h4 i j hp]
  split_ifs <;> rfl

/-- A complete execution of the recorded programs shows what was sent. -/
theorem heard_eq {P : Bytes → Prop} {ps : Fin n → Proc α} {rs : Fin n → α} {vs : Fin n → Transcript} {tr : List (Nat × Act)}
    (ht : Trace tr (Net.init ps) ⟨fun i => .done (.ok (rs i)), fun _ => []⟩) (hnf : ∀ e ∈ tr, e.2 ≠ .fault)
    {S : Sid → Prop} (hwf : ∀ i, (ps i).WF S) (hv : RunsV P S ps rs vs) (i : Fin n) (j : Nat) (hf : (ps i).Unheard j) :
    takenBytes tr i j = heard j (vs i) := by
  obtain ⟨m, hm⟩ := hv (fun _ => []) (fun _ _ _ _ => rfl)
  have hc : (⟨fun i => (ps i).recorded, fun _ => []⟩ : Net n _).WF := fun i => ⟨S, (hwf i).recorded⟩
  obtain ⟨d', h1, h2, -, h4⟩ := RecB.trace ht i j ⟨fun i => (ps i).recorded, fun _ => []⟩ 0 (fun i => Rec.recorded (ps i)) rfl
    (RecB.recorded hf)
  have hd : d' = ⟨fun i => .done (.ok (rs i, vs i)), fun _ => []⟩ := by
    refine (reliable_of_run hc hm (by
      rintro ⟨c', h⟩
      cases h with
      | mk procs Q Q' i a p' ha hstep hq => cases hstep) (fun i h => by cases h)).2 _ d' (h1.gsteps hnf) ?_
    rintro ⟨c'', h⟩
    cases h with
    | mk procs Q Q' m a p' ha hstep hq =>
      obtain ⟨l, hl⟩ := (h2 m).done_ok
      simp only at hl
      rw [hl] at hstep
      cases hstep
  rw [hd] at h4
  obtain ⟨l, hl, hw⟩ := h4.done_ok
  simp only [Proc.done.injEq, Except.ok.injEq, Prod.mk.injEq] at hl
  rw [Nat.zero_add] at hw
  rw [hw, ← hl.2]

/-- One run in which every party hears a fixed number of bytes from each of its peers determines the traffic of all executions. -/
theorem RunsB.exchanges {P : Bytes → Prop} {S : Sid → Prop} (hn : 0 < n) {ps : Fin n → Proc α} {rs : Fin n → α}
    {R : Nat → Sid → Nat} {up down : Nat} (hv : RunsB P S ps rs up down) (hwf : ∀ i, (ps i).WF S) (hr : ∀ i, (ps i).Rounds n i (R i))
    (hf : ∀ i j, Peer' n i.val j → (ps i).Unheard j) : Exchanges (Net.init ps) up down := by
  obtain ⟨vs, hv, hB⟩ := hv
  obtain ⟨m, hm⟩ := hv (fun _ => []) (fun _ _ _ _ => rfl)
  have hc : (⟨fun i => (ps i).recorded, fun _ => []⟩ : Net n _).WF := fun i => ⟨S, (hwf i).recorded⟩
  have hstuck : ¬ ∃ c', GStep Core (⟨fun i => .done (.ok (rs i, vs i)), fun _ => []⟩ : Net n (α × Transcript)) c' := by
    rintro ⟨c', h⟩
    cases h with
    | mk procs Q Q' i a p' ha hstep hq => cases hstep
  have hne : ∀ i, ¬ HasErr ((⟨fun i => .done (.ok (rs i, vs i)), fun _ => []⟩ : Net n (α × Transcript)).procs i) := fun i h => by cases h
  -- every execution can be completed
  have ext : ∀ tr c', Trace tr (Net.init ps) c' → (∀ e ∈ tr, e.2 ≠ .fault) →
      ∃ tr' c'', Trace tr' c' c'' ∧ (∀ e ∈ tr', e.2 ≠ .fault) ∧ ∀ i, ∃ v, c''.procs i = .done (.ok v) := by
    intro tr c' ht hnf
    obtain ⟨d', h1, h2, h3⟩ := Rec.steps (ht.gsteps (ok := Reliable) hnf) ⟨fun i => (ps i).recorded, fun _ => []⟩
      (fun i => Rec.recorded (ps i)) rfl
    have hm' := hm.mono fun _ h => h.1
    have hk := core_of_reliable hc hm' hstuck hne _ _ h1
    have hend := (GSteps.confluence (fun _ h => h) hc hm' hstuck hk).2
    obtain ⟨c'', g1, g2, -⟩ := Rec.steps' hend c' h2 h3
    obtain ⟨tr', ht', ho⟩ := g1.trace
    exact ⟨tr', c'', ht', fun e he => (ho e he).1, fun i => ⟨_, (g2 i).of_done_ok⟩⟩
  -- complete executions
  have fin : ∀ tr c', Trace tr (Net.init ps) c' → (∀ e ∈ tr, e.2 ≠ .fault) → (∀ i, ∃ v, c'.procs i = .done (.ok v)) →
      ∀ i j, sentBytes tr i j = starBytes n up down i j ∧ takenBytes tr j i = starBytes n up down i j := by
    intro tr c' ht hnf hd
    have hc' : c' = ⟨fun i => .done (.ok (rs i)), fun _ => []⟩ := by
      obtain ⟨x, h1, h2, h3⟩ := Rec.trace ht ⟨fun i => (ps i).recorded, fun _ => []⟩ (fun i => Rec.recorded (ps i)) rfl
      have hx : x = ⟨fun i => .done (.ok (rs i, vs i)), fun _ => []⟩ := by
        refine (reliable_of_run hc hm hstuck hne).2 _ x (h1.gsteps hnf) ?_
        rintro ⟨c'', h⟩
        cases h with
        | mk procs Q Q' i a p' ha hstep hq =>
          obtain ⟨v, hv⟩ := hd i
          have := h2 i
          rw [hv] at this
          obtain ⟨l, hl⟩ := this.done_ok
          simp only at hl
          rw [hl] at hstep
          cases hstep
      subst hx
      obtain ⟨cs, cQ⟩ := c'
      congr
      · funext i; exact (h2 i).of_done_ok
      · exact h3.symm
    subst hc'
    have heq : ∀ i j, takenBytes tr j i = sentBytes tr i j := by
      intro i j
      have := trace_bytes ht i j
      simpa [transit, Net.init] using this
    have key : ∀ i j, takenBytes tr j i = starBytes n up down i j := by
      intro i j
      unfold starBytes
      by_cases hj : j < n
      · by_cases hp : Peer' n j i
        · rw [heard_eq ht hnf hwf hv ⟨j, hj⟩ i (hf ⟨j, hj⟩ i hp), hB ⟨j, hj⟩ i hp]
          unfold Peer' at hp
          simp only
          split_ifs <;> omega
        · have h0 : takenBytes tr j i = 0 := takenBytes_zero fun x => by
            obtain ⟨_, _, hi', -, -, -, h3⟩ := Proc.Says.trace ht ⟨j, hj⟩ (hr ⟨j, hj⟩)
            have := h3 i x
            rw [if_neg hp] at this
            simp only at this
            omega
          rw [h0]
          unfold Peer' at hp
          rw [if_neg (by omega), if_neg (by omega)]
      · rw [if_neg (by omega), if_neg (by omega)]
        refine takenBytes_none fun e he h => ?_
        have := ht.lt e he
        omega
    exact fun i j => ⟨by rw [← heq, key], key i j⟩
  intro tr c' ht hnf
  refine ⟨fun i j => ?_, fun hd => ?_⟩
  · obtain ⟨tr', c'', h1, h2, h3⟩ := ext tr c' ht hnf
    have := (fin (tr ++ tr') c'' (Spec.Trace.append ht h1) (fun e he => (List.mem_append.1 he).elim (hnf e) (h2 e)) h3 i j).1
    rw [sentBytes_append] at this
    omega
  · have h := fin tr c' ht hnf hd
    refine ⟨h, ?_⟩
    rw [allBytes_eq n tr ht.lt fun i j hj => by rw [(h i j).1]; unfold starBytes; rw [if_neg (by omega), if_neg (by omega)]]
    rw [← sum_star hn up down]
    exact Finset.sum_congr rfl fun i _ => Finset.sum_congr rfl fun j _ => (h i j).1

theorem sentBytes_of_sized {tr : List (Nat × Act)} {m : Nat} (h : ∀ e ∈ tr, ∀ d x b, e.2 = .send d x b → b.length = m) (i j : Nat) :
    sentBytes tr i j = (sent tr i j .zero + sent tr i j .one + sent tr i j .two) * m := by
  induction tr with
  | nil => simp [sentBytes, sent]
  | cons e tr ih =>
    obtain ⟨p, a⟩ := e
    rw [sentBytes_cons, sent_cons, sent_cons, sent_cons, ih fun e he => h e (by simp [he])]
    cases a with
    | send d x b =>
      have hb := h (p, .send d x b) (by simp) d x b rfl
      simp only [Act.sends_send, Tally.one, bytesTo, hb]
      by_cases hp : p = i
      · by_cases hd : d = j
        · cases x <;> simp [hp, hd] <;> ring
        · simp [hp, hd, Ne.symm hd]
      · simp [hp]
    | _ => simp [bytesTo, Act.sends, isSend]

/-- Rounds with messages of one size. -/
theorem Runs.runsB {ps : Fin n → Proc α} {rs : Fin n → α} {m : Nat} (h : Runs (Sized m) (fun _ => True) ps rs) {R : Sid → Nat}
    (hwf : ∀ i, (ps i).WF fun _ => True) (hr : ∀ i, (ps i).Rounds n i R) (hf : ∀ i j, Peer' n i.val j → (ps i).Unheard j) :
    RunsB All (fun _ => True) ps rs ((R .zero + R .one + R .two) * m) ((R .zero + R .one + R .two) * m) := by
  obtain ⟨k, hk⟩ := h (fun _ => []) (fun _ _ _ _ => rfl)
  obtain ⟨d', h1, h2, h3⟩ := Rec.steps hk ⟨fun i => (ps i).recorded, fun _ => []⟩ (fun i => Rec.recorded (ps i)) rfl
  choose vs hvs using fun i => (h2 i).done_ok
  have hd : d' = ⟨fun i => .done (.ok (rs i, vs i)), fun _ => []⟩ := by
    obtain ⟨ds, dQ⟩ := d'
    congr
    funext i; exact hvs i
  subst hd
  have hv : RunsV All (fun _ => True) ps rs vs := by
    intro Q hQ
    obtain rfl : Q = fun _ => [] := funext fun x => hQ x.1 x.2.1 x.2.2 trivial
    exact ⟨k, h1.mono fun a ha => ⟨ha.1, fun _ _ _ _ => trivial⟩⟩
  obtain ⟨tr, ht, ho⟩ := hk.trace
  have hnf : ∀ e ∈ tr, e.2 ≠ .fault := fun e he => (ho e he).1.1
  refine ⟨vs, hv, fun i j hp => ?_⟩
  rw [ite_self, ← heard_eq ht hnf hwf hv i j (hf i j hp)]
  have hjn : j < n := by unfold Peer' at hp; have := i.isLt; omega
  have hts := trace_bytes ht j i
  have hs : takenBytes tr i j = sentBytes tr j i := by simpa [transit, Net.init] using hts
  rw [hs, sentBytes_of_sized (fun e he d x b hb => (ho e he).2 d x b hb)]
  have hsent : ∀ x, sent tr j i x = R x := by
    intro x
    obtain ⟨s', lo', hi', g1, g2, -, -⟩ := Proc.Says.trace ht ⟨j, hjn⟩ (hr ⟨j, hjn⟩)
    have g3 := g2 i x
    rw [if_pos (show Peer' n j i by unfold Peer' at hp ⊢; have := i.isLt; omega)] at g3
    cases g1 with
    | ok _ _ _ _ z _ => rw [z] at g3; simpa using g3.symm
  rw [hsent, hsent, hsent]

/-! ### The protocols -/

theorem gather_unheard {n me j : Nat} (hj : Peer' n me j) (bytes : Bytes) (sid : Sid) : (clientSendOrKingReceive n me bytes sid).Unheard j := by
  unfold clientSendOrKingReceive
  split_ifs with h
  · exact .gather (by unfold Peer' at hj; omega) fun L => .done _
  · exact .send (.done _)

theorem kingSendLoop_unheard (j : Nat) (bs : List Bytes) (m : Nat) (sid : Sid) : ∀ ids : List Nat, (kingSendLoop bs m sid ids).Unheard j
  | [] => .done _
  | id :: ids => by
    unfold kingSendLoop
    refine .lift fun b => ?_
    split_ifs
    · exact .done _
    · exact .send (kingSendLoop_unheard j bs m sid ids)

theorem scatter_unheard (n me j : Nat) (out : Option (List Bytes)) (sid : Sid) : (clientReceiveOrKingSend n me out sid).Unheard j := by
  unfold clientReceiveOrKingSend
  cases out with
  | none =>
    simp only
    split_ifs
    · exact .done _
    · exact .recv fun b => .done _
  | some bs =>
    simp only
    split_ifs
    · exact .done _
    · exact .lift fun _ => .bind (kingSendLoop_unheard j _ _ _ _) fun _ => .done _

theorem round_unheard {T U : Type} [Wire T] [Wire U] {n me j : Nat} (hj : Peer' n me j) (x : T) (sid : Sid) (thr : Nat)
    (K : Option (ReceivedShares T) → Res (Option (List U))) (fin : U → Proc β) (hfin : ∀ u, (fin u).Unheard j) :
    Proc.Unheard j (do
      let received ← clientSendOrKingReceiveSer n me x sid thr
      let answer ← K received
      let out ← clientReceiveOrKingSendSer n me answer sid
      fin out) := by
  refine Proc.Unheard.bind (.bind (gather_unheard hj _ sid) fun _ => .done _) fun r => .lift fun a => ?_
  exact Proc.Unheard.bind (.bind (scatter_unheard n me j _ sid) fun _ => .done _) hfin

section protocols
variable {F : Type} [Field F] [DecidableEq F] (pp : PSS F) (dbg : Bool) {n me j : Nat} (hj : Peer' n me j)
include hj

section field
variable [FixedWire F]

theorem PSS.fft2WithRearrange_unheard (px : List F) (mask : FftMask F) (rearrange : Bool) (g gen : F) (sid : Sid) (rng : Nat → Nat → F) :
    (pp.fft2WithRearrange dbg n me px mask rearrange g gen sid rng).Unheard j :=
  round_unheard hj _ sid pp.t _ (fun out => pure (addMask out mask.outMask)) fun _ => .done _

theorem PSS.dFft_unheard (sh : List F) (mask : FftMask F) (rearrange : Bool) (dom : Domain F) (sid : Sid) (rng : Nat → Nat → F) :
    (pp.dFft dbg n me sh mask rearrange dom sid rng).Unheard j := by
  unfold PSS.dFft
  exact .lift fun _ => .lift fun _ => pp.fft2WithRearrange_unheard dbg hj _ mask rearrange 1 dom.groupGen sid rng

theorem PSS.dIfft_unheard (sh : List F) (mask : FftMask F) (rearrange : Bool) (dom : Domain F) (g : F) (sid : Sid) (rng : Nat → Nat → F) :
    (pp.dIfft dbg n me sh mask rearrange dom g sid rng).Unheard j := by
  unfold PSS.dIfft
  exact .lift fun _ => .lift fun _ => pp.fft2WithRearrange_unheard dbg hj _ mask rearrange g dom.groupGenInv sid rng

end field

theorem PSS.degRed_unheard {T : Type} [AddCommGroup T] [Module F T] [DecidableEq T] [FixedWire T] (sh : List T) (mask : DegRedMask T)
    (sid : Sid) (rng : Nat → Nat → T) : (pp.degRed dbg n me sh mask sid rng).Unheard j := by
  unfold PSS.degRed
  exact .lift fun _ => .lift fun _ => round_unheard hj _ sid pp.t _ (fun out => pure (addMask out mask.outMask)) fun _ => .done _

theorem PSS.dMsm_unheard {G : Type} [AddCommGroup G] [Module F G] [DecidableEq G] [FixedWire G] (bases : List G) (scalars : List F)
    (mask : MsmMask G) (sid : Sid) : (pp.dMsm dbg n me bases scalars mask sid).Unheard j := by
  unfold PSS.dMsm
  exact .lift fun _ => .lift fun _ => round_unheard hj _ sid pp.t _ (fun out => pure (out + mask.outMask)) fun _ => .done _

theorem PSS.dPp_unheard [FixedWire F] (num den : List F) (mask : DegRedMask F) (sid : Sid) (rng rng' : Nat → Nat → F) :
    (pp.dPp dbg n me num den mask sid rng rng').Unheard j := by
  unfold PSS.dPp
  exact .lift fun sinv => round_unheard hj _ sid pp.t _ (fun out : List F => pp.degRed dbg n me (out.map fun x => x * sinv) mask sid rng')
    fun _ => pp.degRed_unheard dbg hj _ mask sid rng'

omit hj in
theorem tryJoin3_unheard {A B C D : Type} {p : Proc A} {q : Proc B} {u : Proc C} {k : A → B → C → Proc D}
    (hp : p.Unheard j) (hq : q.Unheard j) (hu : u.Unheard j) (hk : ∀ a b c, (k a b c).Unheard j) : (tryJoin3 p q u k).Unheard j :=
  .par (.par hp hq fun _ _ => .done _) hu fun ab c => hk ab.1 ab.2 c

theorem PSS.circomH_unheard [FixedWire F] [FftField F] (q : PackedQAPShare F) (mask : Nat → FftMask F) (dmask : DegRedMask F)
    (rng : Nat → Nat → Nat → F) : (pp.circomH dbg n me q mask dmask rng).Unheard j := by
  unfold PSS.circomH
  exact .lift fun _ => tryJoin3_unheard (pp.dIfft_unheard dbg hj ..) (pp.dIfft_unheard dbg hj ..) (pp.dIfft_unheard dbg hj ..) fun _ _ _ =>
    tryJoin3_unheard (pp.dFft_unheard dbg hj ..) (pp.dFft_unheard dbg hj ..) (pp.dFft_unheard dbg hj ..) fun _ _ _ => pp.degRed_unheard dbg hj ..

theorem PSS.libsnarkH_unheard [FixedWire F] [FftField F] (q : PackedQAPShare F) (mask : Nat → FftMask F) (rng : Nat → Nat → Nat → F) :
    (pp.libsnarkH dbg n me q mask rng).Unheard j := by
  unfold PSS.libsnarkH
  exact .lift fun _ => tryJoin3_unheard (pp.dIfft_unheard dbg hj ..) (pp.dIfft_unheard dbg hj ..) (pp.dIfft_unheard dbg hj ..) fun _ _ _ =>
    tryJoin3_unheard (pp.dFft_unheard dbg hj ..) (pp.dFft_unheard dbg hj ..) (pp.dFft_unheard dbg hj ..) fun _ _ _ =>
      .lift fun _ => pp.dIfft_unheard dbg hj ..

section groups
variable {G1 G2 : Type} [AddCommGroup G1] [Module F G1] [DecidableEq G1] [FixedWire G1]
  [AddCommGroup G2] [Module F G2] [DecidableEq G2] [FixedWire G2]

theorem PSS.proveA_unheard (L N AG1 : G1) (S : List G1) (a : List F) (r : F) (mask : MsmMask G1) (sid : Sid) :
    (pp.proveA dbg n me L N AG1 S a r mask sid).Unheard j := .bind (pp.dMsm_unheard dbg hj S a mask sid) fun _ => .done _

theorem PSS.proveBInG1_unheard (Z K BG1 : G1) (H : List G1) (a : List F) (s r : F) (mask : MsmMask G1) (sid : Sid) :
    (pp.proveBInG1 dbg n me Z K BG1 H a s r mask sid).Unheard j := by
  unfold PSS.proveBInG1
  split_ifs
  · exact .done _
  · exact .bind (pp.dMsm_unheard dbg hj H a mask sid) fun _ => .done _

theorem PSS.proveBInG2_unheard (Z K BG2 : G2) (V : List G2) (a : List F) (s : F) (mask : MsmMask G2) (sid : Sid) :
    (pp.proveBInG2 dbg n me Z K BG2 V a s mask sid).Unheard j := .bind (pp.dMsm_unheard dbg hj V a mask sid) fun _ => .done _

theorem PSS.proveC_unheard (A B : G1) (s r : F) (M : G1) (W U : List G1) (ax h : List F) (m0 m1 : MsmMask G1) :
    (pp.proveC dbg n me A B s r M W U ax h m0 m1).Unheard j :=
  .par (pp.dMsm_unheard dbg hj ..) (pp.dMsm_unheard dbg hj ..) fun _ _ => .done _

theorem PSS.dsha256_unheard [FixedWire F] [FftField F] (crs : PackedProvingKeyShare G1 G2) (q : PackedQAPShare F) (a ax : List F) (r s : F)
    (fftMask : Nat → FftMask F) (dmask : DegRedMask F) (g1Mask : Nat → MsmMask G1) (g2Mask : MsmMask G2) (rng : Nat → Nat → Nat → F) :
    (pp.dsha256 dbg n me crs q a ax r s fftMask dmask g1Mask g2Mask rng).Unheard j :=
  .bind (pp.circomH_unheard dbg hj ..) fun _ => .bind (pp.proveA_unheard dbg hj ..) fun _ => .bind (pp.proveBInG1_unheard dbg hj ..) fun _ =>
    .bind (pp.proveBInG2_unheard dbg hj ..) fun _ => .bind (pp.proveC_unheard dbg hj ..) fun _ => .done _

end groups

end protocols

end ZkSaas
