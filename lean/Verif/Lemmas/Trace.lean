import Verif.Spec.Trace
import Verif.Model.Prove
import Verif.Lemmas.SerNet
import Mathlib.Tactic.Ring
import Mathlib.Data.Fintype.Basic
import Mathlib.Algebra.BigOperators.Fin

/-! How many messages a program exchanges. -/

namespace ZkSaas

open Spec

/-- Messages per peer and stream. -/
abbrev Tally := Nat → Sid → Nat

/-- One message to or from `d` on stream `x`. -/
def Tally.one (d : Nat) (x : Sid) : Tally := fun j y => if j = d ∧ y = x then 1 else 0

/-- What a gather may still take. -/
def Tally.open (sid : Sid) (n : Nat) (got : Nat → Option Bytes) : Tally :=
  fun i x => if x = sid ∧ 1 ≤ i ∧ i < n ∧ got i = none then 1 else 0

/-- On success `p` sends exactly `s`, takes at least `lo` and at most `hi`; in any case not more than `s` and `hi`. -/
inductive Proc.Says : {α : Type} → Proc α → (s lo hi : Tally) → Prop where
  | fail {α : Type} (e : Fault) (s lo hi : Tally) : Proc.Says (.done (.error e) : Proc α) s lo hi
  | ok {α : Type} (a : α) (s lo hi : Tally) (hs : ∀ d x, s d x = 0) (hlo : ∀ d x, lo d x = 0) : Proc.Says (.done (.ok a) : Proc α) s lo hi
  | send {α : Type} {d : Nat} {x : Sid} {b : Bytes} {k : Proc α} {s s' lo hi : Tally} (h : Proc.Says k s lo hi)
      (hs : ∀ j y, s' j y = s j y + Tally.one d x j y) : Proc.Says (.send d x b k) s' lo hi
  | recv {α : Type} {d : Nat} {x : Sid} {k : Bytes → Proc α} {s lo hi lo' hi' : Tally} (h : ∀ b, Proc.Says (k b) s lo hi)
      (hlo : ∀ j y, lo' j y = lo j y + Tally.one d x j y) (hhi : ∀ j y, hi j y + Tally.one d x j y ≤ hi' j y) :
      Proc.Says (.recv d x k) s lo' hi'
  | gather {α : Type} {sid : Sid} {n : Nat} {own : Bytes} {got : Nat → Option Bytes} {k : List (Nat × Bytes) → Proc α} {s lo hi hi' : Tally}
      (h : ∀ L, Proc.Says (k L) s lo hi) (hhi : ∀ j y, hi j y + Tally.open sid n got j y ≤ hi' j y) :
      Proc.Says (.gather sid n own got k) s lo hi'
  | par {α β γ : Type} {p : Proc β} {q : Proc γ} {k : β → γ → Proc α} {s1 lo1 hi1 s2 lo2 hi2 s3 lo3 hi3 s lo hi : Tally}
      (hp : Proc.Says p s1 lo1 hi1) (hq : Proc.Says q s2 lo2 hi2) (hk : ∀ r t, Proc.Says (k r t) s3 lo3 hi3)
      (hs : ∀ j y, s j y = s1 j y + s2 j y + s3 j y) (hlo : ∀ j y, lo j y = lo1 j y + lo2 j y + lo3 j y)
      (hhi : ∀ j y, hi1 j y + hi2 j y + hi3 j y ≤ hi j y) : Proc.Says (.par p q k) s lo hi

variable {α β γ : Type}

/-- A send counts one. -/
def Act.sends (a : Act) : Tally := fun j y => if isSend j y a then 1 else 0
/-- A receive counts one. -/
def Act.recvs (a : Act) : Tally := fun j y => if isRecv j y a then 1 else 0

theorem Act.sends_send (d : Nat) (x : Sid) (b : Bytes) (j : Nat) (y : Sid) : Act.sends (.send d x b) j y = Tally.one d x j y := by
  simp only [Act.sends, isSend, Tally.one, Bool.and_eq_true, beq_iff_eq, eq_comm (a := d), eq_comm (a := x)]

theorem Act.recvs_recv (d : Nat) (x : Sid) (b : Bytes) (j : Nat) (y : Sid) : Act.recvs (.recv d x b) j y = Tally.one d x j y := by
  simp only [Act.recvs, isRecv, Tally.one, Bool.and_eq_true, beq_iff_eq, eq_comm (a := d), eq_comm (a := x)]

theorem Proc.Says.step {p p' : Proc α} {a : Act} (h : LStep p a p') {s lo hi : Tally} (hp : p.Says s lo hi) :
    ∃ s' lo' hi', p'.Says s' lo' hi' ∧ (∀ j y, s j y = s' j y + a.sends j y) ∧ (∀ j y, lo j y ≤ lo' j y + a.recvs j y) ∧
      ∀ j y, hi' j y + a.recvs j y ≤ hi j y := by
  induction h generalizing s lo hi with
  | send d x b k =>
    cases hp with
    | send h hs => exact ⟨_, _, _, h, fun j y => by rw [hs, Act.sends_send], fun _ _ => Nat.le_add_right _ _, fun _ _ => le_rfl⟩
  | recv d x b k =>
    cases hp with
    | recv h hlo hhi =>
      exact ⟨_, _, _, h b, fun _ _ => rfl, fun j y => by rw [hlo, Act.recvs_recv], fun j y => by rw [Act.recvs_recv]; exact hhi j y⟩
  | gatherRecv sid n own got k i b h1 h2 h3 =>
    cases hp with
    | @gather _ _ _ _ _ _ s lo hi₀ _ h hhi =>
      refine ⟨_, _, fun j y => hi₀ j y + Tally.open sid n (Function.update got i (some b)) j y, .gather h fun _ _ => le_rfl,
        fun _ _ => rfl, fun _ _ => Nat.le_add_right _ _, fun j y => ?_⟩
      refine le_trans ?_ (hhi j y)
      rw [Act.recvs_recv, Nat.add_assoc]
      refine Nat.add_le_add_left ?_ _
      unfold Tally.open Tally.one
      by_cases hj : j = i
      · subst hj
        by_cases hy : y = sid
        · subst hy; simp [h1, h2, h3]
        · simp [hy]
      · simp [hj]
  | gatherDone sid n own got k L h1 h2 =>
    cases hp with
    | gather h hhi =>
      exact ⟨_, _, _, h L, fun _ _ => rfl, fun _ _ => le_rfl, fun j y => (Nat.le_add_right _ _).trans (hhi j y)⟩
  | gatherExpire sid n own got k L h2 =>
    cases hp with
    | gather h hhi =>
      exact ⟨_, _, _, h L, fun _ _ => rfl, fun _ _ => le_rfl, fun j y => (Nat.le_add_right _ _).trans (hhi j y)⟩
  | sendFail => exact ⟨s, lo, hi, .fail _ _ _ _, fun _ _ => rfl, fun _ _ => le_rfl, fun _ _ => le_rfl⟩
  | recvFail => exact ⟨s, lo, hi, .fail _ _ _ _, fun _ _ => rfl, fun _ _ => le_rfl, fun _ _ => le_rfl⟩
  | parL p p' q k a _ ih =>
    cases hp with
    | par h1 h2 h3 hs hlo hhi =>
      obtain ⟨s', lo', hi', h, e1, e2, e3⟩ := ih h1
      exact ⟨_, _, _, .par h h2 h3 (fun _ _ => rfl) (fun _ _ => rfl) (fun _ _ => le_rfl), fun j y => by rw [hs, e1]; ring,
        fun j y => by rw [hlo]; have := e2 j y; omega, fun j y => by have := hhi j y; have := e3 j y; omega⟩
  | parR p q q' k a _ ih =>
    cases hp with
    | par h1 h2 h3 hs hlo hhi =>
      obtain ⟨s', lo', hi', h, e1, e2, e3⟩ := ih h2
      exact ⟨_, _, _, .par h1 h h3 (fun _ _ => rfl) (fun _ _ => rfl) (fun _ _ => le_rfl), fun j y => by rw [hs, e1]; ring,
        fun j y => by rw [hlo]; have := e2 j y; omega, fun j y => by have := hhi j y; have := e3 j y; omega⟩
  | join r t k =>
    cases hp with
    | par h1 h2 h3 hs hlo hhi =>
      cases h1 with
      | ok _ _ _ _ z1 w1 =>
        cases h2 with
        | ok _ _ _ _ z2 w2 =>
          refine ⟨_, _, _, h3 r t, fun j y => ?_, fun j y => ?_, fun j y => ?_⟩
          · rw [hs, z1, z2]; simp [Act.sends, isSend]
          · rw [hlo, w1, w2]; simp
          · have := hhi j y; simp only [Act.recvs, isRecv]; simp; omega
  | abortL => exact ⟨s, lo, hi, .fail _ _ _ _, fun _ _ => rfl, fun _ _ => le_rfl, fun _ _ => le_rfl⟩
  | abortR => exact ⟨s, lo, hi, .fail _ _ _ _, fun _ _ => rfl, fun _ _ => le_rfl, fun _ _ => le_rfl⟩

theorem Proc.Says.mono {p : Proc α} {s lo hi : Tally} (h : p.Says s lo hi) {hi' : Tally} (hh : ∀ j y, hi j y ≤ hi' j y) :
    p.Says s lo hi' := by
  induction h generalizing hi' with
  | fail => exact .fail _ _ _ _
  | ok _ _ _ _ z w => exact .ok _ _ _ _ z w
  | send h hs ih => exact .send (ih hh) hs
  | recv h a b => exact .recv h a fun j y => (b j y).trans (hh j y)
  | gather h b => exact .gather h fun j y => (b j y).trans (hh j y)
  | par h1 h2 h3 a b c => exact .par h1 h2 h3 a b fun j y => (c j y).trans (hh j y)

theorem Proc.Says.bind {p : Proc α} {s lo hi : Tally} (hp : p.Says s lo hi) {f : α → Proc β} {s' lo' hi' : Tally}
    (hf : ∀ a, (f a).Says s' lo' hi') {s'' lo'' hi'' : Tally} (hs : ∀ j y, s'' j y = s j y + s' j y)
    (hlo : ∀ j y, lo'' j y = lo j y + lo' j y) (hhi : ∀ j y, hi j y + hi' j y ≤ hi'' j y) : (p.bind f).Says s'' lo'' hi'' := by
  induction hp generalizing s'' lo'' hi'' with
  | fail e => exact .fail _ _ _ _
  | ok a s lo hi z w =>
    have e1 : s'' = s' := by funext j y; rw [hs, z, Nat.zero_add]
    have e2 : lo'' = lo' := by funext j y; rw [hlo, w, Nat.zero_add]
    rw [e1, e2]
    have h := hf a
    show (f a).Says _ _ _
    exact Proc.Says.mono h fun j y => le_trans (Nat.le_add_left _ _) (hhi j y)
  | send h hs' ih =>
    exact .send (ih hf (fun _ _ => rfl) hlo hhi) fun j y => by rw [hs, hs']; ring
  | recv h hlo' hhi' ih =>
    exact .recv (fun b => ih b hf hs (fun _ _ => rfl) (fun _ _ => le_rfl)) (fun j y => by rw [hlo, hlo']; ring)
      fun j y => by have := hhi j y; have := hhi' j y; omega
  | gather h hhi' ih =>
    exact .gather (fun L => ih L hf hs hlo fun _ _ => le_rfl) fun j y => by have := hhi j y; have := hhi' j y; omega
  | par h1 h2 h3 hs' hlo' hhi' _ _ ih =>
    exact .par h1 h2 (fun r t => ih r t hf (fun _ _ => rfl) (fun _ _ => rfl) fun _ _ => le_rfl) (fun j y => by rw [hs, hs']; ring)
      (fun j y => by rw [hlo, hlo']; ring) fun j y => by have := hhi j y; have := hhi' j y; omega

/-! ### Executions -/

variable {n : Nat}

theorem sent_cons (i : Nat) (a : Act) (tr : List (Nat × Act)) (m j : Nat) (x : Sid) :
    sent ((i, a) :: tr) m j x = sent tr m j x + if i = m then a.sends j x else 0 := by
  unfold sent Act.sends
  rw [List.countP_cons]
  by_cases h : i = m <;> simp [h]

theorem taken_cons (i : Nat) (a : Act) (tr : List (Nat × Act)) (m j : Nat) (x : Sid) :
    taken ((i, a) :: tr) m j x = taken tr m j x + if i = m then a.recvs j x else 0 := by
  unfold taken Act.recvs
  rw [List.countP_cons]
  by_cases h : i = m <;> simp [h]

theorem Proc.Says.trace {tr : List (Nat × Act)} {c c' : Net n α} (h : Trace tr c c') (i : Fin n) {s lo hi : Tally}
    (hp : (c.procs i).Says s lo hi) :
    ∃ s' lo' hi', (c'.procs i).Says s' lo' hi' ∧ (∀ j y, s j y = s' j y + sent tr i j y) ∧
      (∀ j y, lo j y ≤ lo' j y + taken tr i j y) ∧ ∀ j y, hi' j y + taken tr i j y ≤ hi j y := by
  induction h generalizing s lo hi with
  | refl => exact ⟨s, lo, hi, hp, fun _ _ => rfl, fun _ _ => le_rfl, fun _ _ => le_rfl⟩
  | @step procs Q Q' m a p' tr c hstep hq hs ih =>
    by_cases hm : m = i
    · subst hm
      obtain ⟨s1, lo1, hi1, h1, e1, e2, e3⟩ := Proc.Says.step hstep hp
      obtain ⟨s2, lo2, hi2, h2, f1, f2, f3⟩ := ih (s := s1) (lo := lo1) (hi := hi1) (by simpa using h1)
      refine ⟨s2, lo2, hi2, h2, fun j y => ?_, fun j y => ?_, fun j y => ?_⟩
      · rw [sent_cons, if_pos rfl, e1, f1]; ring
      · rw [taken_cons, if_pos rfl]; have := e2 j y; have := f2 j y; omega
      · rw [taken_cons, if_pos rfl]; have := e3 j y; have := f3 j y; omega
    · obtain ⟨s2, lo2, hi2, h2, f1, f2, f3⟩ := ih (s := s) (lo := lo) (hi := hi) (by simpa [Function.update_of_ne (Ne.symm hm)] using hp)
      have hne : m.val ≠ i.val := fun e => hm (Fin.ext e)
      refine ⟨s2, lo2, hi2, h2, fun j y => ?_, fun j y => ?_, fun j y => ?_⟩
      · rw [sent_cons, if_neg hne, f1]; rfl
      · rw [taken_cons, if_neg hne]; exact f2 j y
      · rw [taken_cons, if_neg hne]; exact f3 j y

/-- What is taken was sent before, and what is not yet taken is in transit. -/
theorem trace_fifo {tr : List (Nat × Act)} {c c' : Net n α} (h : Trace tr c c') (i j : Nat) (x : Sid) :
    taken tr j i x + (c'.queues (i, j, x)).length = sent tr i j x + (c.queues (i, j, x)).length := by
  induction h with
  | refl => rfl
  | @step procs Q Q' m a p' tr c hstep hq hs ih =>
    rw [taken_cons, sent_cons]
    have key : (if m.val = j then a.recvs i x else 0) + (Q' (i, j, x)).length =
        (if m.val = i then a.sends j x else 0) + (Q (i, j, x)).length := by
      cases a with
      | send d y b =>
        simp only [qstep, Option.some.injEq] at hq
        subst hq
        rw [Act.sends_send]
        have hr : Act.recvs (.send d y b) i x = 0 := rfl
        rw [hr, ite_self, Nat.zero_add]
        by_cases he : (i, j, x) = (m.val, d, y)
        · simp only [Prod.mk.injEq] at he
          obtain ⟨rfl, rfl, rfl⟩ := he
          rw [Function.update_self, if_pos rfl]
          simp [Tally.one]; omega
        · rw [Function.update_of_ne he]
          have : (if m.val = i then Tally.one d y j x else 0) = 0 := by
            split_ifs with h1
            · refine if_neg fun h2 => he ?_
              rw [h1, h2.1, h2.2]
            · rfl
          rw [this, Nat.zero_add]
      | recv d y b =>
        have hsd : Act.sends (.recv d y b) j x = 0 := rfl
        rw [hsd, ite_self, Nat.zero_add, Act.recvs_recv]
        simp only [qstep] at hq
        split at hq
        · cases hq
        · next z rest hz =>
          split_ifs at hq with hzb
          cases hq
          by_cases he : (i, j, x) = (d, m.val, y)
          · simp only [Prod.mk.injEq] at he
            obtain ⟨rfl, rfl, rfl⟩ := he
            rw [Function.update_self, if_pos rfl, hz]
            simp [Tally.one]; omega
          · rw [Function.update_of_ne he]
            have : (if m.val = j then Tally.one d y i x else 0) = 0 := by
              split_ifs with h1
              · refine if_neg fun h2 => he ?_
                rw [h1, h2.1, h2.2]
              · rfl
            rw [this, Nat.zero_add]
      | tau => cases hq; simp [Act.sends, Act.recvs, isSend, isRecv]
      | abort => cases hq; simp [Act.sends, Act.recvs, isSend, isRecv]
      | fault => cases hq; simp [Act.sends, Act.recvs, isSend, isRecv]
    have : taken tr j i x + (c.queues (i, j, x)).length = sent tr i j x + (Q' (i, j, x)).length := ih
    show _ = _ + (Q (i, j, x)).length
    omega

/-! ### Star rounds -/

/-- The peers of a party. -/
def Peer' (n me j : Nat) : Prop := (me = 0 ∧ 1 ≤ j ∧ j < n) ∨ (me ≠ 0 ∧ j = 0)

instance (n me j : Nat) : Decidable (Peer' n me j) := inferInstanceAs (Decidable (_ ∨ _))

/-- `R` star rounds. -/
def Proc.Rounds (n me : Nat) (p : Proc α) (R : Sid → Nat) : Prop :=
  p.Says (fun j x => if Peer' n me j then R x else 0) (fun j x => if me ≠ 0 ∧ j = 0 then R x else 0)
    (fun j x => if Peer' n me j then R x else 0)

theorem Proc.Rounds.error (n me : Nat) (e : Fault) (R : Sid → Nat) : (Proc.done (.error e) : Proc α).Rounds n me R := .fail _ _ _ _

theorem Proc.Rounds.ok (n me : Nat) (a : α) : (Proc.done (.ok a)).Rounds n me 0 :=
  Proc.Says.ok _ _ _ _ (fun _ _ => by simp) (fun _ _ => by simp)

theorem Proc.Rounds.ret (n me : Nat) (r : Res α) : (Proc.done r).Rounds n me 0 := by
  cases r with
  | ok a => exact .ok n me a
  | error e => exact .error n me e 0

theorem Proc.Rounds.bind {me : Nat} {p : Proc α} {R : Sid → Nat} (h : p.Rounds n me R) {f : α → Proc β} {R' : Sid → Nat}
    (hf : ∀ a, (f a).Rounds n me R') {R'' : Sid → Nat} (e : R'' = R + R') : (p >>= f).Rounds n me R'' := by
  subst e
  refine Proc.Says.bind h hf (fun j y => ?_) (fun j y => ?_) fun j y => ?_ <;> split_ifs <;> simp

theorem Proc.Rounds.lift {me : Nat} {r : Res α} {f : α → Proc β} {R : Sid → Nat} (hf : ∀ a, (f a).Rounds n me R) :
    ((liftM r : Proc α) >>= f).Rounds n me R := by
  cases r with
  | ok a => exact hf a
  | error e => exact .error n me e R

theorem Proc.Rounds.par {me : Nat} {p : Proc β} {q : Proc γ} {k : β → γ → Proc α} {R1 R2 R3 R : Sid → Nat} (hp : p.Rounds n me R1)
    (hq : q.Rounds n me R2) (hk : ∀ r t, (k r t).Rounds n me R3) (e : R = R1 + R2 + R3) : (Proc.par p q k).Rounds n me R := by
  subst e
  refine Proc.Says.par hp hq hk (fun j y => ?_) (fun j y => ?_) fun j y => ?_ <;> split_ifs <;> simp

/-- One round on one stream. -/
def once (sid : Sid) : Sid → Nat := fun x => if x = sid then 1 else 0

theorem gather_says (n me : Nat) (bytes : Bytes) (sid : Sid) :
    (clientSendOrKingReceive n me bytes sid).Says (fun j x => if me ≠ 0 ∧ j = 0 then once sid x else 0) (fun _ _ => 0)
      (fun j x => if me = 0 ∧ 1 ≤ j ∧ j < n then once sid x else 0) := by
  unfold clientSendOrKingReceive
  split_ifs with h
  · refine .gather (hi := fun _ _ => 0) (fun L => ?_) fun j y => ?_
    · cases kingFinish n L with
      | ok a => exact .ok _ _ _ _ (fun _ _ => by simp [h]) (fun _ _ => rfl)
      | error e => exact .fail _ _ _ _
    · unfold Tally.open once
      split_ifs <;> first | omega | tauto
  · refine .send (s := fun _ _ => 0) (.ok _ _ _ _ (fun _ _ => rfl) fun _ _ => rfl) fun j y => ?_
    unfold Tally.one once
    by_cases h1 : j = 0 <;> by_cases h2 : y = sid <;> simp [h, h1, h2]

theorem kingSendLoop_says (bs : List Bytes) (m : Nat) (sid : Sid) (lo : Tally) (hlo : ∀ j y, lo j y = 0) (hi : Tally) :
    ∀ ids : List Nat, (kingSendLoop bs m sid ids).Says (fun j x => ids.count j * once sid x) lo hi
  | [] => .ok _ _ _ _ (fun _ _ => by simp) hlo
  | id :: ids => by
    unfold kingSendLoop
    cases hb : rd bs id with
    | error e => exact .fail _ _ _ _
    | ok b =>
      show (if b.length ≠ m then _ else _ : Proc Unit).Says _ _ _
      split_ifs with h
      · exact .fail _ _ _ _
      · refine .send (kingSendLoop_says bs m sid lo hlo hi ids) fun j y => ?_
        unfold Tally.one once
        rw [List.count_cons]
        by_cases h1 : j = id
        · by_cases h2 : y = sid <;> simp [h1, h2]
        · by_cases h2 : y = sid <;> simp [h1, h2, Ne.symm h1]

theorem scatter_says (n me : Nat) (out : Option (List Bytes)) (sid : Sid) :
    (clientReceiveOrKingSend n me out sid).Says (fun j x => if me = 0 ∧ 1 ≤ j ∧ j < n then once sid x else 0)
      (fun j x => if me ≠ 0 ∧ j = 0 then once sid x else 0) (fun j x => if me ≠ 0 ∧ j = 0 then once sid x else 0) := by
  unfold clientReceiveOrKingSend
  cases out with
  | none =>
    simp only
    split_ifs with h
    · exact .fail _ _ _ _
    · refine .recv (lo := fun _ _ => 0) (hi := fun _ _ => 0) (fun b => .ok _ _ _ _ (fun j y => by simp [h]) fun _ _ => rfl) (fun j y => ?_) fun j y => ?_ <;>
      · unfold Tally.one once
        by_cases h1 : j = 0 <;> by_cases h2 : y = sid <;> simp [h, h1, h2]
  | some bs =>
    simp only
    split_ifs with h
    · exact .fail _ _ _ _
    · have h : me = 0 := by simpa using h
      subst h
      cases rd bs 0 with
      | error e => exact .fail _ _ _ _
      | ok b0 =>
        show ((kingSendLoop bs b0.length sid ((List.range n).filter (· ≠ 0))).bind fun _ => (Proc.done (.ok b0) : Proc Bytes)).Says _ _ _
        refine Proc.Says.bind (kingSendLoop_says bs b0.length sid (fun _ _ => 0) (fun _ _ => rfl) (fun _ _ => 0) _)
          (s' := fun _ _ => 0) (lo' := fun _ _ => 0) (hi' := fun _ _ => 0) (fun _ => ?_) (fun j y => ?_) (fun _ _ => by simp) fun _ _ => by simp
        · exact .ok _ _ _ _ (fun _ _ => rfl) fun _ _ => rfl
        · rw [(List.nodup_range.filter _).count]
          by_cases h1 : 1 ≤ j ∧ j < n
          · rw [if_pos ⟨rfl, h1⟩, if_pos (by simp; omega), Nat.one_mul, Nat.add_zero]
          · rw [if_neg (by tauto), if_neg (by simp; omega), Nat.zero_mul]

theorem says_decode {p : Proc α} {s lo hi : Tally} (h : p.Says s lo hi) (f : α → Res β) : (p >>= fun a => (liftM (f a) : Proc β)).Says s lo hi := by
  refine Proc.Says.bind h (s' := fun _ _ => 0) (lo' := fun _ _ => 0) (hi' := fun _ _ => 0) (fun a => ?_) (fun _ _ => rfl) (fun _ _ => rfl)
    fun _ _ => le_rfl
  show (Proc.done (f a)).Says _ _ _
  cases f a with
  | ok b => exact .ok _ _ _ _ (fun _ _ => rfl) fun _ _ => rfl
  | error e => exact .fail _ _ _ _

/-- A star round with whatever the king computes in between. -/
theorem round_rounds {T U : Type} [Wire T] [Wire U] (n me : Nat) (x : T) (sid : Sid) (thr : Nat) (K : Option (ReceivedShares T) → Res (Option (List U)))
    (fin : U → Proc β) {R : Sid → Nat} (hfin : ∀ u, (fin u).Rounds n me R) {R' : Sid → Nat} (e : R' = once sid + R) :
    Proc.Rounds n me (do
      let received ← clientSendOrKingReceiveSer n me x sid thr
      let answer ← K received
      let out ← clientReceiveOrKingSendSer n me answer sid
      fin out) R' := by
  have h1 : (clientSendOrKingReceiveSer n me x sid thr).Says _ _ _ := says_decode (gather_says n me (Wire.enc x) sid) (decodeReceived (T := T) n thr)
  have h2 : ∀ a : Option (List U), (clientReceiveOrKingSendSer n me a sid).Says
      (fun j x => if me = 0 ∧ 1 ≤ j ∧ j < n then once sid x else 0)
      (fun j x => if me ≠ 0 ∧ j = 0 then once sid x else 0) (fun j x => if me ≠ 0 ∧ j = 0 then once sid x else 0) := fun a =>
    says_decode (scatter_says n me (a.map fun o : List U => o.map Wire.enc) sid) (decodeOrError (T := U))
  subst e
  refine Proc.Says.bind h1 (fun rcv => ?_) (s' := fun j x => (if me = 0 ∧ 1 ≤ j ∧ j < n then once sid x else 0) + if Peer' n me j then R x else 0)
    (lo' := fun j x => (if me ≠ 0 ∧ j = 0 then once sid x else 0) + if me ≠ 0 ∧ j = 0 then R x else 0)
    (hi' := fun j x => (if me ≠ 0 ∧ j = 0 then once sid x else 0) + if Peer' n me j then R x else 0)
    (fun j y => ?_) (fun j y => ?_) (fun j y => ?_)
  · cases K rcv with
    | error e => exact .fail _ _ _ _
    | ok a => exact Proc.Says.bind (h2 a) hfin (fun _ _ => rfl) (fun _ _ => rfl) fun _ _ => le_rfl
  · unfold Peer'
    by_cases h : me = 0 <;> by_cases h' : 1 ≤ j ∧ j < n <;> by_cases h'' : j = 0 <;> simp [h, h', h'']
  · split_ifs <;> simp
  · unfold Peer'
    by_cases h : me = 0 <;> by_cases h' : 1 ≤ j ∧ j < n <;> by_cases h'' : j = 0 <;> simp [h, h', h'']

/-! ### The protocols -/

section protocols
variable {F : Type} [Field F] [DecidableEq F] [FixedWire F] (pp : PSS F) (dbg : Bool) (n me : Nat)

theorem add_zero_rounds (R : Sid → Nat) : R = R + 0 := (add_zero R).symm

theorem PSS.fft2WithRearrange_rounds (px : List F) (mask : FftMask F) (rearrange : Bool) (g gen : F) (sid : Sid) (rng : Nat → Nat → F) :
    (pp.fft2WithRearrange dbg n me px mask rearrange g gen sid rng).Rounds n me (once sid) :=
  round_rounds n me _ sid pp.t _ (fun out => pure (addMask out mask.outMask)) (fun _ => .ok n me _) (add_zero_rounds _)

theorem PSS.dFft_rounds (sh : List F) (mask : FftMask F) (rearrange : Bool) (dom : Domain F) (sid : Sid) (rng : Nat → Nat → F) :
    (pp.dFft dbg n me sh mask rearrange dom sid rng).Rounds n me (once sid) := by
  unfold PSS.dFft
  exact .lift fun _ => .lift fun _ => pp.fft2WithRearrange_rounds dbg n me _ mask rearrange 1 dom.groupGen sid rng

theorem PSS.dIfft_rounds (sh : List F) (mask : FftMask F) (rearrange : Bool) (dom : Domain F) (g : F) (sid : Sid) (rng : Nat → Nat → F) :
    (pp.dIfft dbg n me sh mask rearrange dom g sid rng).Rounds n me (once sid) := by
  unfold PSS.dIfft
  exact .lift fun _ => .lift fun _ => pp.fft2WithRearrange_rounds dbg n me _ mask rearrange g dom.groupGenInv sid rng

omit [FixedWire F] in
theorem PSS.degRed_rounds {T : Type} [AddCommGroup T] [Module F T] [DecidableEq T] [FixedWire T] (sh : List T) (mask : DegRedMask T) (sid : Sid)
    (rng : Nat → Nat → T) : (pp.degRed dbg n me sh mask sid rng).Rounds n me (once sid) := by
  unfold PSS.degRed
  exact .lift fun _ => .lift fun _ =>
    round_rounds n me _ sid pp.t _ (fun out => pure (addMask out mask.outMask)) (fun _ => .ok n me _) (add_zero_rounds _)

omit [FixedWire F] in
theorem PSS.dMsm_rounds {G : Type} [AddCommGroup G] [Module F G] [DecidableEq G] [FixedWire G] (bases : List G) (scalars : List F)
    (mask : MsmMask G) (sid : Sid) : (pp.dMsm dbg n me bases scalars mask sid).Rounds n me (once sid) := by
  unfold PSS.dMsm
  exact .lift fun _ => .lift fun _ =>
    round_rounds n me _ sid pp.t _ (fun out => pure (out + mask.outMask)) (fun _ => .ok n me _) (add_zero_rounds _)

theorem PSS.dPp_rounds (num den : List F) (mask : DegRedMask F) (sid : Sid) (rng rng' : Nat → Nat → F) :
    (pp.dPp dbg n me num den mask sid rng rng').Rounds n me (once sid + once sid) := by
  unfold PSS.dPp
  exact .lift fun sinv => round_rounds n me _ sid pp.t _ (fun out : List F => pp.degRed dbg n me (out.map fun x => x * sinv) mask sid rng')
    (fun _ => pp.degRed_rounds dbg n me _ mask sid rng') rfl

theorem tryJoin3_rounds {A B C D : Type} {p : Proc A} {q : Proc B} {u : Proc C} {k : A → B → C → Proc D} {R1 R2 R3 R4 R : Sid → Nat}
    (hp : p.Rounds n me R1) (hq : q.Rounds n me R2) (hu : u.Rounds n me R3) (hk : ∀ a b c, (k a b c).Rounds n me R4)
    (e : R = R1 + R2 + R3 + R4) : (tryJoin3 p q u k).Rounds n me R :=
  .par (.par hp hq (fun _ _ => .ok n me _) (add_zero_rounds _)) hu (fun ab c => hk ab.1 ab.2 c) e

/-- Three rounds on stream zero, two on each of the others. -/
def rounds322 : Sid → Nat := once .zero + once .one + once .two + (once .zero + once .one + once .two + once .zero)

theorem PSS.circomH_rounds [FftField F] (q : PackedQAPShare F) (mask : Nat → FftMask F) (dmask : DegRedMask F) (rng : Nat → Nat → Nat → F) :
    (pp.circomH dbg n me q mask dmask rng).Rounds n me rounds322 := by
  unfold PSS.circomH
  exact .lift fun _ => tryJoin3_rounds n me (pp.dIfft_rounds ..) (pp.dIfft_rounds ..) (pp.dIfft_rounds ..) (fun _ _ _ =>
    tryJoin3_rounds n me (pp.dFft_rounds ..) (pp.dFft_rounds ..) (pp.dFft_rounds ..) (fun _ _ _ => pp.degRed_rounds ..) rfl) rfl

theorem PSS.libsnarkH_rounds [FftField F] (q : PackedQAPShare F) (mask : Nat → FftMask F) (rng : Nat → Nat → Nat → F) :
    (pp.libsnarkH dbg n me q mask rng).Rounds n me rounds322 := by
  unfold PSS.libsnarkH
  exact .lift fun _ => tryJoin3_rounds n me (pp.dIfft_rounds ..) (pp.dIfft_rounds ..) (pp.dIfft_rounds ..) (fun _ _ _ =>
    tryJoin3_rounds n me (pp.dFft_rounds ..) (pp.dFft_rounds ..) (pp.dFft_rounds ..) (fun _ _ _ => .lift fun _ => pp.dIfft_rounds ..) rfl) rfl

section groups
variable {G1 G2 : Type} [AddCommGroup G1] [Module F G1] [DecidableEq G1] [FixedWire G1]
  [AddCommGroup G2] [Module F G2] [DecidableEq G2] [FixedWire G2]

omit [FixedWire F] in
theorem PSS.proveA_rounds (L N AG1 : G1) (S : List G1) (a : List F) (r : F) (mask : MsmMask G1) (sid : Sid) :
    (pp.proveA dbg n me L N AG1 S a r mask sid).Rounds n me (once sid) :=
  .bind (pp.dMsm_rounds dbg n me S a mask sid) (fun _ => .ok n me _) (add_zero_rounds _)

omit [FixedWire F] in
theorem PSS.proveBInG1_rounds (Z K BG1 : G1) (H : List G1) (a : List F) (s r : F) (mask : MsmMask G1) (sid : Sid) :
    (pp.proveBInG1 dbg n me Z K BG1 H a s r mask sid).Rounds n me (if r = 0 then 0 else once sid) := by
  unfold PSS.proveBInG1
  split_ifs
  · exact .ok n me _
  · exact .bind (pp.dMsm_rounds dbg n me H a mask sid) (fun _ => .ok n me _) (add_zero_rounds _)

omit [FixedWire F] in
theorem PSS.proveBInG2_rounds (Z K BG2 : G2) (V : List G2) (a : List F) (s : F) (mask : MsmMask G2) (sid : Sid) :
    (pp.proveBInG2 dbg n me Z K BG2 V a s mask sid).Rounds n me (once sid) :=
  .bind (pp.dMsm_rounds dbg n me V a mask sid) (fun _ => .ok n me _) (add_zero_rounds _)

omit [FixedWire F] in
theorem PSS.proveC_rounds (A B : G1) (s r : F) (M : G1) (W U : List G1) (ax h : List F) (m0 m1 : MsmMask G1) :
    (pp.proveC dbg n me A B s r M W U ax h m0 m1).Rounds n me (once .zero + once .one) :=
  .par (pp.dMsm_rounds ..) (pp.dMsm_rounds ..) (fun _ _ => .ok n me _) (add_zero_rounds _)

theorem PSS.dsha256_rounds [FftField F] (crs : PackedProvingKeyShare G1 G2) (q : PackedQAPShare F) (a ax : List F) (r s : F)
    (fftMask : Nat → FftMask F) (dmask : DegRedMask F) (g1Mask : Nat → MsmMask G1) (g2Mask : MsmMask G2) (rng : Nat → Nat → Nat → F) :
    (pp.dsha256 dbg n me crs q a ax r s fftMask dmask g1Mask g2Mask rng).Rounds n me
      (rounds322 + (once .zero + ((if r = 0 then 0 else once .zero) + (once .zero + (once .zero + once .one + 0))))) :=
  .bind (pp.circomH_rounds ..) (fun _ => .bind (pp.proveA_rounds ..) (fun _ => .bind (pp.proveBInG1_rounds ..) (fun _ =>
    .bind (pp.proveBInG2_rounds ..) (fun _ => .bind (pp.proveC_rounds ..) (fun _ => .ok n me _) rfl) rfl) rfl) rfl) rfl

end groups

end protocols

theorem Proc.Rounds.takes {me : Nat} {p : Proc α} {R : Sid → Nat} (h : p.Rounds n me R) : TakesRounds n me p R := by
  rintro procs hi rfl tr c ht
  obtain ⟨s, lo, hi', h1, e1, e2, e3⟩ := Proc.Says.trace ht ⟨me, hi⟩ (s := _) (lo := _) (hi := _) h
  refine ⟨fun j sid => ⟨?_, ?_⟩, fun v hv sid => ⟨?_, fun hme => ?_⟩⟩
  · exact (Nat.le_add_left _ _).trans (e1 j sid).ge
  · exact (Nat.le_add_left _ _).trans (e3 j sid)
  · rintro rfl j h2 h3
    rw [hv] at h1
    cases h1 with
    | ok _ _ _ _ z w =>
      have := e1 j sid
      rw [z, Nat.zero_add, if_pos (.inl ⟨rfl, h2, h3⟩)] at this
      exact this.symm
  · rw [hv] at h1
    cases h1 with
    | ok _ _ _ _ z w =>
      have f1 := e1 0 sid
      have f2 := e2 0 sid
      have f3 := e3 0 sid
      rw [z, Nat.zero_add, if_pos (.inr ⟨hme, rfl⟩)] at f1
      rw [w, Nat.zero_add, if_pos ⟨hme, rfl⟩] at f2
      rw [if_pos (.inr ⟨hme, rfl⟩)] at f3
      exact ⟨f1.symm, le_antisymm (by simp only at *; omega) f2⟩

end ZkSaas
