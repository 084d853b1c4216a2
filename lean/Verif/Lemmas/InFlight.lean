import Verif.Spec.Streams
import Verif.Lemmas.Runs

/-! Whose turn it is on every stream: at most one message is in transit. -/

namespace ZkSaas

open Spec

variable {n : Nat} {α β γ : Type}

/-- For every peer and stream: is it this party's turn to send? -/
abbrev Turns := Nat → Sid → Bool

/-- The program uses only the streams in `S`; it sends only when the turn is its own (`t`) and receives only when it is not, a
message passing the turn on; when it succeeds the turns are `u`. -/
inductive Alt : {α : Type} → (Sid → Prop) → Turns → Proc α → Turns → Prop where
  | ok {α : Type} {S : Sid → Prop} {t u : Turns} (a : α) (h : ∀ d x, S x → t d x = u d x) : Alt S t (.done (.ok a)) u
  | error {α : Type} (S : Sid → Prop) (t u : Turns) (e : Fault) : Alt (α := α) S t (.done (.error e)) u
  | send {α : Type} {S : Sid → Prop} {t u : Turns} {d : Nat} {x : Sid} {b : Bytes} {k : Proc α} (hs : S x) (ht : t d x = true)
      (h : Alt S (fun d' y => if d' = d ∧ y = x then false else t d' y) k u) : Alt S t (.send d x b k) u
  | recv {α : Type} {S : Sid → Prop} {t u : Turns} {d : Nat} {x : Sid} {k : Bytes → Proc α} (hs : S x) (ht : t d x = false)
      (h : ∀ b, Alt S (fun d' y => if d' = d ∧ y = x then true else t d' y) (k b) u) : Alt S t (.recv d x k) u
  | gather {α : Type} {S : Sid → Prop} {t u : Turns} {x : Sid} {n : Nat} {own : Bytes} {got : Nat → Option Bytes}
      {k : List (Nat × Bytes) → Proc α} (hs : S x) (ht : ∀ i, 1 ≤ i → i < n → t i x = (got i).isSome)
      (h : ∀ L, Alt S (fun d y => if (1 ≤ d ∧ d < n) ∧ y = x then true else t d y) (k L) u) : Alt S t (.gather x n own got k) u
  | par {α β γ : Type} {S S1 S2 : Sid → Prop} {t u v : Turns} {p : Proc β} {q : Proc γ} {k : β → γ → Proc α}
      (hdis : ∀ x, S1 x → S2 x → False) (h1 : ∀ x, S1 x → S x) (h2 : ∀ x, S2 x → S x) (hp : Alt S1 t p v) (hq : Alt S2 t q v)
      (hrest : ∀ d x, S x → ¬ S1 x → ¬ S2 x → t d x = v d x) (hk : ∀ r s, Alt S v (k r s) u) : Alt S t (.par p q k) u

theorem Alt.congr {S : Sid → Prop} {t u s : Turns} {p : Proc α} (h : Alt S t p u) (he : ∀ d x, S x → t d x = s d x) :
    Alt S s p u := by
  induction h generalizing s with
  | ok a h => exact .ok a fun d x hx => (he d x hx).symm.trans (h d x hx)
  | error S t u e => exact .error _ _ _ _
  | send hs ht _ ih =>
    refine .send hs ((he _ _ hs).symm.trans ht) (ih fun d x hx => ?_)
    dsimp only
    rw [he d x hx]
  | recv hs ht _ ih =>
    refine .recv hs ((he _ _ hs).symm.trans ht) fun b => ih b fun d x hx => ?_
    dsimp only
    rw [he d x hx]
  | gather hs ht _ ih =>
    refine .gather hs (fun i h1 h2 => (he _ _ hs).symm.trans (ht i h1 h2)) fun L => ih L fun d x hx => ?_
    dsimp only
    rw [he d x hx]
  | par hdis h1 h2 _ _ hrest hk ihp ihq ihk =>
    exact .par hdis h1 h2 (ihp fun d x hx => he d x (h1 x hx)) (ihq fun d x hx => he d x (h2 x hx))
      (fun d x hx n1 n2 => (he d x hx).symm.trans (hrest d x hx n1 n2)) hk

theorem Alt.bind {S : Sid → Prop} {t u v : Turns} {p : Proc α} (h : Alt S t p u) {f : α → Proc β} (hf : ∀ a, Alt S u (f a) v) :
    Alt S t (p.bind f) v := by
  induction h with
  | ok a h => exact (hf a).congr fun d x hx => (h d x hx).symm
  | error S t u e => exact .error _ _ _ _
  | send hs ht _ ih => exact .send hs ht (ih hf)
  | recv hs ht _ ih => exact .recv hs ht fun b => ih b hf
  | gather hs ht _ ih => exact .gather hs ht fun L => ih L hf
  | par hdis h1 h2 hp hq hrest _ _ _ ihk => exact .par hdis h1 h2 hp hq hrest fun r s => ihk r s hf

theorem Alt.done (S : Sid → Prop) (t : Turns) (r : Res α) : Alt S t (.done r) t := by
  cases r with
  | ok a => exact .ok a fun _ _ _ => rfl
  | error e => exact .error _ _ _ _

theorem Alt.lift {S S' : Sid → Prop} {t u t' u' : Turns} {p : Proc α} (h : Alt S t p u) (hS : ∀ x, S x → S' x)
    (ht : ∀ d x, S x → t d x = t' d x) (hu : ∀ d x, S x → u d x = u' d x) (hr : ∀ d x, S' x → ¬ S x → t' d x = u' d x) :
    Alt S' t' p u' := by
  induction h generalizing S' t' u' with
  | @ok α S t u a h =>
    refine .ok a fun d x hx => ?_
    by_cases hs : S x
    · exact (ht d x hs).symm.trans ((h d x hs).trans (hu d x hs))
    · exact hr d x hx hs
  | error S t u e => exact .error _ _ _ _
  | send hs h0 _ ih =>
    refine .send (hS _ hs) ((ht _ _ hs).symm.trans h0) (ih hS (fun d' y hy => ?_) hu fun d' y hy hn => ?_)
    · dsimp only
      rw [ht _ _ hy]
    · rw [if_neg (by rintro ⟨_, rfl⟩; exact hn hs)]
      exact hr _ _ hy hn
  | recv hs h0 _ ih =>
    refine .recv (hS _ hs) ((ht _ _ hs).symm.trans h0) fun b => ih b hS (fun d' y hy => ?_) hu fun d' y hy hn => ?_
    · dsimp only
      rw [ht _ _ hy]
    · rw [if_neg (by rintro ⟨_, rfl⟩; exact hn hs)]
      exact hr _ _ hy hn
  | gather hs h0 _ ih =>
    refine .gather (hS _ hs) (fun i h1 h2 => (ht _ _ hs).symm.trans (h0 i h1 h2)) fun L =>
      ih L hS (fun d' y hy => ?_) hu fun d' y hy hn => ?_
    · dsimp only
      rw [ht _ _ hy]
    · rw [if_neg (by rintro ⟨_, rfl⟩; exact hn hs)]
      exact hr _ _ hy hn
  | @par _ _ _ S S1 S2 t u v p q k hdis h1 h2 hp hq hrest hk ihp ihq ihk =>
    classical
    refine .par (v := fun d x => if S x then v d x else t' d x) hdis (fun x h => hS x (h1 x h)) (fun x h => hS x (h2 x h))
      (ihp (fun _ h => h) (fun d x hx => ht d x (h1 x hx)) (fun d x hx => ?_) fun d x hx hn => absurd hx hn)
      (ihq (fun _ h => h) (fun d x hx => ht d x (h2 x hx)) (fun d x hx => ?_) fun d x hx hn => absurd hx hn)
      (fun d x hx n1 n2 => ?_) fun r s => ihk r s hS (fun d x hx => ?_) hu fun d x hx hn => ?_
    · simp only [if_pos (h1 x hx)]
    · simp only [if_pos (h2 x hx)]
    · split
      · exact (ht d x ‹_›).symm.trans (hrest d x ‹_› n1 n2)
      · rfl
    · simp only [if_pos hx]
    · simp only [if_neg hn]
      exact hr d x hx hn

/-- A program that leaves the turns as they were can be used where more streams are allowed. -/
theorem Alt.mono {S S' : Sid → Prop} {t : Turns} {p : Proc α} (h : Alt S t p t) (hS : ∀ x, S x → S' x) : Alt S' t p t :=
  h.lift hS (fun _ _ _ => rfl) (fun _ _ _ => rfl) fun _ _ _ _ => rfl

/-- The turns after a step. -/
def Turns.after (t : Turns) : Act → Turns
  | .send d x _ => fun d' y => if d' = d ∧ y = x then false else t d' y
  | .recv d x _ => fun d' y => if d' = d ∧ y = x then true else t d' y
  | _ => t

/-- A step at its turn. -/
def Turns.Fits (t : Turns) : Act → Prop
  | .send d x _ => t d x = true
  | .recv d x _ => t d x = false
  | _ => True

theorem Turns.after_of_ne {t : Turns} {a : Act} {x : Sid} (h : ∀ s, a.sid? = some s → s ≠ x) (d : Nat) : t.after a d x = t d x := by
  cases a with
  | send d' y b => exact if_neg fun e => h y rfl e.2.symm
  | recv d' y b => exact if_neg fun e => h y rfl e.2.symm
  | _ => rfl

theorem Alt.uses {S : Sid → Prop} {t u : Turns} {p p' : Proc α} {a : Act} (hs : LStep p a p') (h : Alt S t p u) :
    ∀ s, a.sid? = some s → S s := by
  induction hs generalizing S t u with
  | send dst sid b k => cases h; intro s e; cases e; assumption
  | recv frm sid b k => cases h; intro s e; cases e; assumption
  | gatherRecv sid n own got k i b h1 h2 h3 => cases h; intro s e; cases e; assumption
  | parL p p' q k a _ ih =>
    cases h with
    | par hdis h1 h2 hp hq hrest hk => intro s e; exact h1 s (ih hp s e)
  | parR p q q' k a _ ih =>
    cases h with
    | par hdis h1 h2 hp hq hrest hk => intro s e; exact h2 s (ih hq s e)
  | _ => intro s e; cases e

theorem Alt.step {S : Sid → Prop} {t u : Turns} {p p' : Proc α} {a : Act} (hs : LStep p a p') (ha : a ≠ .fault) (h : Alt S t p u) :
    t.Fits a ∧ Alt S (t.after a) p' u := by
  induction hs generalizing S t u with
  | send dst sid b k => cases h with | send hs ht h => exact ⟨ht, h⟩
  | recv frm sid b k => cases h with | recv hs ht h => exact ⟨ht, h b⟩
  | gatherRecv sid n own got k i b h1 h2 h3 =>
    cases h with
    | gather hs ht h =>
      refine ⟨by rw [Turns.Fits, ht i h1 h2, h3]; rfl, .gather hs (fun j j1 j2 => ?_) fun L => (h L).congr fun d y hy => ?_⟩
      · by_cases e : j = i
        · subst e
          simp [Turns.after]
        · simp [Turns.after, e, ht j j1 j2]
      · simp only [Turns.after]
        split
        · rfl
        · rw [if_neg]
          rintro ⟨rfl, rfl⟩
          rename_i hn
          exact hn ⟨⟨h1, h2⟩, rfl⟩
  | gatherDone sid n own got k L hfull hL =>
    cases h with
    | gather hs ht h =>
      refine ⟨trivial, (h L).congr fun d y hy => ?_⟩
      split
      · rename_i e
        obtain ⟨⟨d1, d2⟩, rfl⟩ := e
        show true = t d y
        rw [ht d d1 d2, eq_comm, Option.isSome_iff_ne_none]
        exact hfull d d1 d2
      · rfl
  | gatherExpire => exact absurd rfl ha
  | sendFail => exact absurd rfl ha
  | recvFail => exact absurd rfl ha
  | parL p p' q k a hst ih =>
    cases h with
    | @par _ _ _ _ S1 S2 _ _ v _ _ _ hdis h1 h2 hp hq hrest hk =>
      obtain ⟨hf, hp'⟩ := ih ha hp
      have hu := Alt.uses hst hp
      refine ⟨hf, .par hdis h1 h2 hp' (hq.congr fun d x hx => ?_) (fun d x hx n1 n2 => ?_) hk⟩
      · exact (Turns.after_of_ne (fun s e e' => hdis x (by rw [← e']; exact hu s e) hx) d).symm
      · rw [Turns.after_of_ne (fun s e e' => n1 (by rw [← e']; exact hu s e)) d]
        exact hrest d x hx n1 n2
  | parR p q q' k a hst ih =>
    cases h with
    | @par _ _ _ _ S1 S2 _ _ v _ _ _ hdis h1 h2 hp hq hrest hk =>
      obtain ⟨hf, hq'⟩ := ih ha hq
      have hu := Alt.uses hst hq
      refine ⟨hf, .par hdis h1 h2 (hp.congr fun d x hx => ?_) hq' (fun d x hx n1 n2 => ?_) hk⟩
      · exact (Turns.after_of_ne (fun s e e' => hdis x hx (by rw [← e']; exact hu s e)) d).symm
      · rw [Turns.after_of_ne (fun s e e' => n2 (by rw [← e']; exact hu s e)) d]
        exact hrest d x hx n1 n2
  | join r s k =>
    cases h with
    | @par _ _ _ _ S1 S2 _ _ v _ _ _ hdis h1 h2 hp hq hrest hk =>
      refine ⟨trivial, (hk r s).congr fun d x hx => ?_⟩
      cases hp with
      | ok _ hp =>
      cases hq with
      | ok _ hq =>
      by_cases e1 : S1 x
      · exact (hp d x e1).symm
      · by_cases e2 : S2 x
        · exact (hq d x e2).symm
        · exact (hrest d x hx e1 e2).symm
  | abortL => exact ⟨trivial, .error _ _ _ _⟩
  | abortR => exact ⟨trivial, .error _ _ _ _⟩

/-- One token per stream between the king and a client, none between two clients. -/
def hub (i j : Nat) : Nat := if i = 0 ∨ j = 0 then 1 else 0

theorem hub_le (i j : Nat) : hub i j ≤ 1 := by unfold hub; split <;> omega

/-- The turns and messages of a network: exactly one of them per client and stream, none of a party to itself or between clients. -/
def Tokens (T : Nat → Turns) (Q : Queues) : Prop :=
  (∀ i x, T i i x = false ∧ Q (i, i, x) = []) ∧
  ∀ i j x, i ≠ j → (T i j x).toNat + (T j i x).toNat + (Q (i, j, x)).length + (Q (j, i, x)).length = hub i j

theorem Tokens.step {T : Nat → Turns} {Q Q' : Queues} (h : Tokens T Q) {m : Nat} {a : Act} (hf : (T m).Fits a)
    (hq : qstep m a Q = some Q') : Tokens (Function.update T m ((T m).after a)) Q' := by
  obtain ⟨hd, ho⟩ := h
  cases a with
  | send d x b =>
    simp only [Turns.Fits] at hf
    have hne : m ≠ d := by rintro rfl; rw [(hd m x).1] at hf; cases hf
    simp only [qstep, Option.some.injEq] at hq
    subst hq
    have key : ∀ i j y, Function.update T m ((T m).after (.send d x b)) i j y =
        if i = m ∧ j = d ∧ y = x then false else T i j y := by
      intro i j y
      by_cases e : i = m
      · subst e; simp [Turns.after]
      · simp [e]
    have keyQ : ∀ i j y, (Function.update Q (m, d, x) (Q (m, d, x) ++ [b])) (i, j, y) =
        if i = m ∧ j = d ∧ y = x then Q (m, d, x) ++ [b] else Q (i, j, y) := by
      intro i j y
      simp only [Function.update_apply, Prod.mk.injEq]
    refine ⟨fun i y => ⟨?_, ?_⟩, fun i j y hij => ?_⟩
    · rw [key]; split
      · rfl
      · exact (hd i y).1
    · rw [keyQ, if_neg (by rintro ⟨rfl, rfl, _⟩; exact hne rfl)]
      exact (hd i y).2
    · have := ho i j y hij
      simp only [key, keyQ]
      by_cases e1 : i = m ∧ j = d ∧ y = x
      · obtain ⟨rfl, rfl, rfl⟩ := e1
        have e3 : ¬ (j = i ∧ i = j) := by rintro ⟨e, _⟩; exact hne e.symm
        simp only [and_self, if_true, e3, if_false, List.length_append, List.length_singleton, hf, Bool.toNat_false,
          Bool.toNat_true, and_true] at this ⊢
        omega
      · by_cases e2 : j = m ∧ i = d ∧ y = x
        · obtain ⟨rfl, rfl, rfl⟩ := e2
          have e3 : ¬ (i = j ∧ j = i) := by rintro ⟨e, _⟩; exact hij e
          simp only [e3, if_false, and_self, if_true, List.length_append, List.length_singleton, hf, Bool.toNat_false,
            Bool.toNat_true, and_true] at this ⊢
          omega
        · simp only [e1, e2, if_false]
          exact this
  | recv d x b =>
    simp only [Turns.Fits] at hf
    have hne : m ≠ d := by
      rintro rfl
      simp only [qstep, (hd m x).2] at hq
      cases hq
    obtain ⟨rest, hQ, rfl⟩ : ∃ rest, Q (d, m, x) = b :: rest ∧ Function.update Q (d, m, x) rest = Q' := by
      simp only [qstep] at hq
      split at hq
      · cases hq
      · rename_i y rest e
        split at hq
        · rename_i e'; subst e'
          exact ⟨rest, e, by simpa using hq⟩
        · cases hq
    have key : ∀ i j y, Function.update T m ((T m).after (.recv d x b)) i j y =
        if i = m ∧ j = d ∧ y = x then true else T i j y := by
      intro i j y
      by_cases e : i = m
      · subst e; simp [Turns.after]
      · simp [e]
    have keyQ : ∀ i j y, (Function.update Q (d, m, x) rest) (i, j, y) =
        if i = d ∧ j = m ∧ y = x then rest else Q (i, j, y) := by
      intro i j y
      simp only [Function.update_apply, Prod.mk.injEq]
    refine ⟨fun i y => ⟨?_, ?_⟩, fun i j y hij => ?_⟩
    · rw [key, if_neg (by rintro ⟨rfl, rfl, _⟩; exact hne rfl)]
      exact (hd i y).1
    · rw [keyQ, if_neg (by rintro ⟨rfl, rfl, _⟩; exact hne rfl)]
      exact (hd i y).2
    · have := ho i j y hij
      simp only [key, keyQ]
      by_cases e1 : i = m ∧ j = d ∧ y = x
      · obtain ⟨rfl, rfl, rfl⟩ := e1
        have e3 : ¬ (j = i ∧ i = j) := by rintro ⟨e, _⟩; exact hne e.symm
        have e4 : ¬ (i = j ∧ j = i) := by rintro ⟨e, _⟩; exact hne e
        simp only [and_true, if_true, e3, e4, if_false, hf, hQ, Bool.toNat_false, Bool.toNat_true,
          List.length_cons] at this ⊢
        omega
      · by_cases e2 : j = m ∧ i = d ∧ y = x
        · obtain ⟨rfl, rfl, rfl⟩ := e2
          have e3 : ¬ (j = i ∧ i = j) := by rintro ⟨e, _⟩; exact hne e
          have e4 : ¬ (i = j ∧ j = i) := by rintro ⟨e, _⟩; exact hne e.symm
          simp only [and_true, if_true, e3, e4, if_false, hf, hQ, Bool.toNat_false, Bool.toNat_true,
            List.length_cons] at this ⊢
          omega
        · have e3 : ¬ (i = d ∧ j = m ∧ y = x) := fun e => e2 ⟨e.2.1, e.1, e.2.2⟩
          have e4 : ¬ (j = d ∧ i = m ∧ y = x) := fun e => e1 ⟨e.2.1, e.1, e.2.2⟩
          simp only [e1, e2, e3, e4, if_false]
          exact this
  | _ =>
    simp only [qstep, Option.some.injEq] at hq
    subst hq
    rw [show Turns.after (T m) _ = T m from rfl, Function.update_eq_self]
    exact ⟨hd, ho⟩

/-- The turns between two star rounds: every client is the next to send to the king. -/
def idle (me : Nat) : Turns := fun d _ => decide (me ≠ 0 ∧ d = 0)

/-- The invariant. -/
def Paced (c : Net n α) : Prop :=
  ∃ T : Nat → Turns, (∀ i : Fin n, Alt (fun _ => True) (T i) (c.procs i) (idle i)) ∧ (∀ i, n ≤ i → T i = idle i) ∧ Tokens T c.queues

theorem Paced.step {c c' : Net n α} (h : Paced c) (hs : GStep Reliable c c') : Paced c' := by
  obtain ⟨procs, Q, Q', i, a, p', ha, hstep, hq⟩ := hs
  obtain ⟨T, hT, hout, hk⟩ := h
  obtain ⟨hf, hu'⟩ := (hT i).step hstep ha
  refine ⟨Function.update T i ((T i).after a), fun j => ?_, fun j hj => ?_, hk.step hf hq⟩
  · by_cases e : j = i
    · subst e
      simp only [Function.update_self]
      exact hu'
    · simp only [Function.update_of_ne e]
      rw [Function.update_of_ne (fun h => e (Fin.ext h))]
      exact hT j
  · rw [Function.update_of_ne (by have := i.2; omega)]
    exact hout j hj

theorem Paced.steps {c c' : Net n α} {k : Nat} (h : Paced c) (hs : GSteps Reliable k c c') : Paced c' := by
  induction hs with
  | refl => exact h
  | step h1 _ ih => exact ih (h.step h1)

theorem Paced.one {c : Net n α} (h : Paced c) : OneInFlight c := by
  intro k c' hs i j x
  obtain ⟨T, -, -, hd, ho⟩ := h.steps hs
  by_cases e : i = j
  · subst e; simp [(hd i x).2]
  · have := ho i j x e
    have := hub_le i j
    omega

/-- When all have succeeded it is every client's turn, so nothing is in transit. -/
theorem Paced.empty {c : Net n α} (h : Paced c) (hd : ∀ i, ∃ v, c.procs i = .done (.ok v)) : ∀ i j x, c.queues (i, j, x) = [] := by
  obtain ⟨T, hT, hout, hdiag, ho⟩ := h
  have hidle : ∀ i d x, T i d x = idle i d x := by
    intro i d x
    by_cases e : i < n
    · obtain ⟨v, hv⟩ := hd ⟨i, e⟩
      have := hT ⟨i, e⟩
      rw [hv] at this
      cases this with
      | ok a h => exact h d x trivial
    · rw [hout i (by omega)]
  intro i j x
  by_cases e : i = j
  · subst e; exact (hdiag i x).2
  · have := ho i j x e
    rw [hidle, hidle] at this
    refine List.eq_nil_of_length_eq_zero ?_
    simp only [idle, hub] at this
    by_cases e1 : i = 0
    · subst e1
      have e2 : j ≠ 0 := fun h => e h.symm
      simp [e2] at this
      omega
    · by_cases e2 : j = 0
      · subst e2; simp [e1] at this; omega
      · simp [e1, e2] at this; simp [this]

theorem Paced.room {c c' : Net n α} (h : Paced c) (hs : GStep Reliable c c') {cap : Nat} (hc : 0 < cap) : BStep cap c c' := by
  obtain ⟨procs, Q, Q', i, a, p', ha, hstep, hq⟩ := hs
  refine .mk procs Q Q' i a p' ha ?_ hstep hq
  rintro dst x b rfl
  obtain ⟨T, hT, -, hd, ho⟩ := h
  have hf := ((hT i).step hstep ha).1
  simp only [Turns.Fits] at hf
  have hne : (i : Nat) ≠ dst := by rintro rfl; rw [(hd i x).1] at hf; cases hf
  have := ho i dst x hne
  rw [hf] at this
  simp only [Bool.toNat_true] at this
  have := hub_le i dst
  show (Q (i, dst, x)).length < cap
  omega

theorem Spec.BStep.reliable {cap : Nat} {c c' : Net n α} (h : BStep cap c c') : GStep Reliable c c' := by
  obtain ⟨procs, Q, Q', i, a, p', ha, -, hstep, hq⟩ := h
  exact .mk procs Q Q' i a p' ha hstep hq

theorem Spec.BSteps.reliable {cap k : Nat} {c c' : Net n α} (h : BSteps cap k c c') : GSteps Reliable k c c' := by
  induction h with
  | refl => exact .refl _
  | step h1 _ ih => exact .step h1.reliable ih

theorem Paced.buffered {c : Net n α} (h : Paced c) {rs : Fin n → α} (hy : AlwaysYields c rs) {cap : Nat} (hc : 0 < cap) :
    AlwaysYieldsBuffered cap c rs := by
  obtain ⟨⟨m, hm⟩, hy⟩ := hy
  refine ⟨⟨m, fun k c' hs => hm k c' hs.reliable⟩, fun k c' hs hst => hy k c' hs.reliable ?_⟩
  rintro ⟨c'', h''⟩
  exact hst ⟨c'', (h.steps hs.reliable).room h'' hc⟩

theorem idle_tokens : Tokens idle fun _ => [] := by
  refine ⟨fun i x => ⟨?_, rfl⟩, fun i j x h => ?_⟩
  · simp only [idle, decide_eq_false_iff_not]; omega
  · simp only [idle, List.length_nil, Nat.add_zero]
    by_cases e : i = 0
    · subst e; simp [h.symm, hub]
    · by_cases e' : j = 0
      · subst e'; simp [e, hub]
      · simp [e, e', hub]

theorem paced_init {ps : Fin n → Proc α} (h : ∀ i : Fin n, Alt (fun _ => True) (idle i) (ps i) (idle i)) : Paced (Net.init ps) :=
  ⟨idle, h, fun _ _ => rfl, idle_tokens⟩

theorem kingSendLoop_alt (out : List Bytes) (m : Nat) (sid : Sid) (ids : List Nat) (t : Turns) (hnd : ids.Nodup)
    (ht : ∀ d ∈ ids, t d sid = true) :
    Alt (only sid) t (kingSendLoop out m sid ids) fun d x => if d ∈ ids ∧ x = sid then false else t d x := by
  induction ids generalizing t with
  | nil => exact .ok _ fun d x _ => by simp
  | cons id ids ih =>
    show Alt _ _ (Proc.bind (.done (rd out id)) _) _
    refine (Alt.done _ _ _).bind fun b => ?_
    split
    · exact .error _ _ _ _
    · have hnd' := List.nodup_cons.1 hnd
      refine .send rfl (ht id (by simp)) ((ih _ hnd'.2 fun d hd => ?_).lift (fun _ h => h) (fun _ _ _ => rfl) (fun d x hx => ?_)
        fun _ _ h h' => absurd h h')
      · rw [if_neg (by rintro ⟨rfl, _⟩; exact hnd'.1 hd)]
        exact ht d (by simp [hd])
      · simp only [List.mem_cons]
        by_cases e1 : d ∈ ids ∧ x = sid
        · simp [e1]
        · by_cases e2 : d = id ∧ x = sid
          · simp [e2]
          · rw [if_neg e1, if_neg e2, if_neg]
            rintro ⟨e | e, e'⟩
            · exact e2 ⟨e, e'⟩
            · exact e1 ⟨e, e'⟩

/-- A star round starts and ends with every client next to send. -/
theorem round_alt {T U : Type} [Wire T] [Wire U] (sid : Sid) (threshold me : Nat) (x : T)
    (K : ReceivedShares T → Res (List U)) (f : U → Proc α) {u : Turns} (hf : ∀ y, Alt (only sid) (idle me) (f y) u) :
    Alt (only sid) (idle me) ((clientSendOrKingReceiveSer n me x sid threshold).bind fun r =>
      (Proc.done (kingDo K r)).bind fun a => (clientReceiveOrKingSendSer n me a sid).bind f) u := by
  by_cases h0 : me = 0
  · subst h0
    show Alt _ _ (.gather sid n (Wire.enc x) (fun _ => none) _) _
    refine .gather rfl (fun i _ _ => by simp [idle]) fun L => ?_
    refine ((Alt.done _ _ _).bind fun r => Alt.done _ _ _).bind fun r => (Alt.done _ _ _).bind fun a =>
      (((?_ : Alt _ _ (clientReceiveOrKingSend n 0 _ sid) (idle 0)).bind fun _ => Alt.done _ _ _)).bind hf
    unfold clientReceiveOrKingSend
    split
    · simp only [ne_eq, not_true_eq_false, if_false]
      refine (Alt.done _ _ _).bind fun b => (kingSendLoop_alt _ _ sid _ _ ((List.nodup_range).filter _) fun d hd => ?_).bind
        fun _ => (Alt.done _ _ _).lift (fun _ h => h) (fun _ _ _ => rfl) (fun d y hy => ?_) fun _ _ h h' => absurd h h'
      · simp only [List.mem_filter, List.mem_range, decide_eq_true_eq] at hd
        rw [if_pos ⟨⟨by omega, hd.1⟩, rfl⟩]
      · cases hy
        simp only [List.mem_filter, List.mem_range, decide_eq_true_eq, and_true, idle]
        split
        · simp
        · rw [if_neg (by omega)]
    · simp only [if_true]; exact .error _ _ _ _
  · have hs : clientSendOrKingReceiveSer n me x sid threshold = .send 0 sid (Wire.enc x) (.done (.ok none)) := by
      unfold clientSendOrKingReceiveSer clientSendOrKingReceive
      rw [if_neg h0]; rfl
    rw [hs]
    refine .send rfl (by simp [idle, h0]) ?_
    show Alt _ _ (Proc.bind (clientReceiveOrKingSendSer n me none sid) f) _
    have hr : clientReceiveOrKingSendSer (T := U) n me none sid = .recv 0 sid fun b => .done (decodeOrError b) := by
      unfold clientReceiveOrKingSendSer clientReceiveOrKingSend
      simp only [Option.map_none, if_neg h0]; rfl
    rw [hr]
    refine .recv rfl (by simp) fun b => ((Alt.done _ _ _).bind hf).congr fun d y hy => ?_
    cases hy
    simp only [idle, and_true]
    split <;> simp [*]

end ZkSaas
