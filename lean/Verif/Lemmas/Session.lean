import Verif.Lemmas.LossyProtocols
import Verif.Spec.Adversary

/-! Protocols in which some clients run arbitrary programs.

The king and the other clients follow a protocol built from star rounds, sequencing and `try_join!`. `Cl` and `Kg` describe
what an honest client and the king will still send and receive if the king never accepts anything but the honest messages; the
king may die (`Kg.dead`) at any time. The queues between the king and the honest clients then always match these
descriptions, whatever the other parties do. -/

set_option linter.unusedSectionVars false

namespace ZkSaas

open Spec

variable {n : Nat} {α β γ : Type}

/-- A client that receives `I` from the king, sends `O` to the king and ends with `v`, unless it fails before. -/
inductive Cl : {α : Type} → Proc α → (Sid → List Bytes) → (Sid → List Bytes) → α → Prop where
  | dead {α : Type} (e : Fault) (I O : Sid → List Bytes) (v : α) : Cl (.done (.error e)) I O v
  | done {α : Type} (v : α) {I O : Sid → List Bytes} (hI : I = fun _ => []) (hO : O = fun _ => []) : Cl (.done (.ok v)) I O v
  | send {α : Type} (s : Sid) (b : Bytes) (k : Proc α) {I O O' : Sid → List Bytes} {v : α} (h : Cl k I O v)
      (hO : O' = Function.update O s (b :: O s)) : Cl (.send 0 s b k) I O' v
  | recv {α : Type} (s : Sid) (k : Bytes → Proc α) (b : Bytes) {I I' O : Sid → List Bytes} {v : α} (h : Cl (k b) I O v)
      (hI : I' = Function.update I s (b :: I s)) : Cl (.recv 0 s k) I' O v
  | par {α β γ : Type} (p : Proc β) (q : Proc γ) (k : β → γ → Proc α) {I I1 I2 I3 O O1 O2 O3 : Sid → List Bytes} {r : β} {s : γ} {v : α}
      (hp : Cl p I1 O1 r) (hq : Cl q I2 O2 s) (hk : Cl (k r s) I3 O3 v)
      (hdis : ∀ x, (I1 x = [] ∧ O1 x = []) ∨ (I2 x = [] ∧ O2 x = []))
      (hI : I = fun x => I1 x ++ (I2 x ++ I3 x)) (hO : O = fun x => O1 x ++ (O2 x ++ O3 x)) : Cl (.par p q k) I O v

/-- What a step of a client does to its description. -/
def ClStep (P' : Proc α) (I O : Sid → List Bytes) (v : α) : Act → Prop
  | .tau => Cl P' I O v
  | .send d s b => d = 0 ∧ ∃ rest, O s = b :: rest ∧ Cl P' I (Function.update O s rest) v
  | .recv f s b => f = 0 ∧ ∃ b' rest, I s = b' :: rest ∧ (b = b' → Cl P' (Function.update I s rest) O v)
  | .abort => Cl P' I O v
  | .fault => Cl P' I O v

theorem Cl.step {P P' : Proc α} {a : Act} (hs : LStep P a P') {I O : Sid → List Bytes} {v : α} (h : Cl P I O v) :
    ClStep P' I O v a := by
  induction hs generalizing I O with
  | send d s b k =>
    cases h with
    | send _ _ _ h hO =>
      refine ⟨rfl, _, by rw [hO, Function.update_self], ?_⟩
      rw [hO, Function.update_idem, Function.update_eq_self]
      exact h
  | recv f s b k =>
    cases h with
    | recv _ _ b' h hI =>
      refine ⟨rfl, b', _, by rw [hI, Function.update_self], ?_⟩
      rintro rfl
      rw [hI, Function.update_idem, Function.update_eq_self]
      exact h
  | gatherRecv => cases h
  | gatherDone => cases h
  | gatherExpire => cases h
  | sendFail => exact .dead _ _ _ _
  | recvFail => exact .dead _ _ _ _
  | parL p p' q k a hst ih =>
    cases h with
    | par _ _ _ hp hq hk hdis hI hO =>
      rename_i I1 I2 I3 O1 O2 O3 r s
      have h := ih hp
      cases a with
      | tau => exact .par _ _ _ h hq hk hdis hI hO
      | send d sid b =>
        obtain ⟨h0, rest, e, h⟩ := h
        refine ⟨h0, rest ++ (O2 sid ++ O3 sid), by simp only [hO, e, List.cons_append], .par _ _ _ h hq hk ?_ hI ?_⟩
        · intro x
          rcases hdis x with h1 | h1
          · left
            refine ⟨h1.1, ?_⟩
            by_cases hx : x = sid
            · subst hx; rw [h1.2] at e; cases e
            · rw [Function.update_of_ne hx]; exact h1.2
          · exact Or.inr h1
        · rw [hO]
          funext x
          by_cases hx : x = sid
          · subst hx; simp only [Function.update_self]
          · simp only [Function.update_of_ne hx]
      | recv f sid b =>
        obtain ⟨h0, b', rest, e, h⟩ := h
        refine ⟨h0, b', rest ++ (I2 sid ++ I3 sid), by simp only [hI, e, List.cons_append], fun hb => .par _ _ _ (h hb) hq hk ?_ ?_ hO⟩
        · intro x
          rcases hdis x with h1 | h1
          · left
            refine ⟨?_, h1.2⟩
            by_cases hx : x = sid
            · subst hx; rw [h1.1] at e; cases e
            · rw [Function.update_of_ne hx]; exact h1.1
          · exact Or.inr h1
        · rw [hI]
          funext x
          by_cases hx : x = sid
          · subst hx; simp only [Function.update_self]
          · simp only [Function.update_of_ne hx]
      | abort => exact .par _ _ _ h hq hk hdis hI hO
      | fault => exact .par _ _ _ h hq hk hdis hI hO
  | parR p q q' k a hst ih =>
    cases h with
    | par _ _ _ hp hq hk hdis hI hO =>
      rename_i I1 I2 I3 O1 O2 O3 r s
      have h := ih hq
      cases a with
      | tau => exact .par _ _ _ hp h hk hdis hI hO
      | send d sid b =>
        obtain ⟨h0, rest, e, h⟩ := h
        have hnil : O1 sid = [] := by
          rcases hdis sid with h1 | h1
          · exact h1.2
          · rw [h1.2] at e; cases e
        refine ⟨h0, rest ++ O3 sid, by rw [hO]; simp only [hnil, e]; rfl, .par _ _ _ hp h hk ?_ hI ?_⟩
        · intro x
          rcases hdis x with h1 | h1
          · exact Or.inl h1
          · right
            refine ⟨h1.1, ?_⟩
            by_cases hx : x = sid
            · subst hx; rw [h1.2] at e; cases e
            · rw [Function.update_of_ne hx]; exact h1.2
        · rw [hO]
          funext x
          by_cases hx : x = sid
          · subst hx; simp only [Function.update_self, hnil, List.nil_append]
          · simp only [Function.update_of_ne hx]
      | recv f sid b =>
        obtain ⟨h0, b', rest, e, h⟩ := h
        have hnil : I1 sid = [] := by
          rcases hdis sid with h1 | h1
          · exact h1.1
          · rw [h1.1] at e; cases e
        refine ⟨h0, b', rest ++ I3 sid, by rw [hI]; simp only [hnil, e]; rfl, fun hb => .par _ _ _ hp (h hb) hk ?_ ?_ hO⟩
        · intro x
          rcases hdis x with h1 | h1
          · exact Or.inl h1
          · right
            refine ⟨?_, h1.2⟩
            by_cases hx : x = sid
            · subst hx; rw [h1.1] at e; cases e
            · rw [Function.update_of_ne hx]; exact h1.1
        · rw [hI]
          funext x
          by_cases hx : x = sid
          · subst hx; simp only [Function.update_self, hnil, List.nil_append]
          · simp only [Function.update_of_ne hx]
      | abort => exact .par _ _ _ hp h hk hdis hI hO
      | fault => exact .par _ _ _ hp h hk hdis hI hO
  | join r s k =>
    cases h with
    | par _ _ _ hp hq hk hdis hI hO =>
      cases hp with
      | done _ h1 h2 =>
        cases hq with
        | done _ h3 h4 =>
          subst h1 h2 h3 h4 hI hO
          exact hk
  | abortL e q k => exact .dead _ _ _ _
  | abortR e p k => exact .dead _ _ _ _

theorem Cl.bind {p : Proc α} {I O : Sid → List Bytes} {r : α} (h : Cl p I O r) {f : α → Proc β} {I' O' : Sid → List Bytes} {v : β}
    (hf : Cl (f r) I' O' v) : Cl (p.bind f) (fun s => I s ++ I' s) (fun s => O s ++ O' s) v := by
  induction h with
  | dead e => exact .dead _ _ _ _
  | done v hI hO => subst hI hO; exact hf
  | send s b k h hO ih =>
    refine .send _ _ _ (ih hf) ?_
    rw [hO]
    funext x
    by_cases hx : x = s
    · subst hx; simp only [Function.update_self, List.cons_append]
    · simp only [Function.update_of_ne hx]
  | recv s k b h hI ih =>
    refine .recv _ _ _ (ih hf) ?_
    rw [hI]
    funext x
    by_cases hx : x = s
    · subst hx; simp only [Function.update_self, List.cons_append]
    · simp only [Function.update_of_ne hx]
  | par p q k hp hq hk hdis hI hO _ _ ih =>
    refine .par _ _ _ hp hq (ih hf) hdis ?_ ?_
    · rw [hI]; funext x; simp only [List.append_assoc]
    · rw [hO]; funext x; simp only [List.append_assoc]

/-- A king that receives `R` from the honest clients, sends `S` to them and ends with `v`, unless it fails before. What the
parties `bad` send is arbitrary. -/
inductive Kg (bad : Nat → Prop) (n : Nat) : {α : Type} → Proc α → (Nat × Sid → List Bytes) → (Nat × Sid → List Bytes) → α → Prop where
  | dead {α : Type} (e : Fault) (R S : Nat × Sid → List Bytes) (v : α) : Kg bad n (.done (.error e)) R S v
  | done {α : Type} (v : α) {R S : Nat × Sid → List Bytes} (hR : R = fun _ => []) (hS : S = fun _ => []) : Kg bad n (.done (.ok v)) R S v
  | send {α : Type} (d : Nat) (s : Sid) (b : Bytes) (k : Proc α) {R S S' : Nat × Sid → List Bytes} {v : α} (hd : ¬ bad d)
      (h : Kg bad n k R S v) (hS : S' = Function.update S (d, s) (b :: S (d, s))) : Kg bad n (.send d s b k) R S' v
  | sendBad {α : Type} (d : Nat) (s : Sid) (b : Bytes) (k : Proc α) {R S : Nat × Sid → List Bytes} {v : α} (hd : bad d)
      (h : Kg bad n k R S v) : Kg bad n (.send d s b k) R S v
  | gather {α : Type} (s : Sid) (own : Bytes) (got : Nat → Option Bytes) (k : List (Nat × Bytes) → Proc α) (msg : Nat → Bytes)
      {R R' S : Nat × Sid → List Bytes} {v : α}
      (hgot : ∀ i b, ¬ bad i → got i = some b → b = msg i)
      (h1 : ∀ i, 1 ≤ i → i < n → ¬ bad i → got i = none → R' (i, s) = msg i :: R (i, s))
      (h2 : ∀ i x, ¬ (x = s ∧ 1 ≤ i ∧ i < n ∧ ¬ bad i ∧ got i = none) → R' (i, x) = R (i, x))
      (hk : ∀ got' L, (∀ i b, ¬ bad i → got' i = some b → b = msg i) → (∀ i, 1 ≤ i → i < n → ¬ bad i → got' i ≠ none) →
        Enumerates n own got' L → Kg bad n (k L) R S v) :
      Kg bad n (.gather s n own got k) R' S v
  | par {α β γ : Type} (p : Proc β) (q : Proc γ) (k : β → γ → Proc α) {R R1 R2 R3 S S1 S2 S3 : Nat × Sid → List Bytes}
      {r : β} {s : γ} {v : α} (hp : Kg bad n p R1 S1 r) (hq : Kg bad n q R2 S2 s) (hk : Kg bad n (k r s) R3 S3 v)
      (hdis : ∀ x, (R1 x = [] ∧ S1 x = []) ∨ (R2 x = [] ∧ S2 x = []))
      (hR : R = fun x => R1 x ++ (R2 x ++ R3 x)) (hS : S = fun x => S1 x ++ (S2 x ++ S3 x)) : Kg bad n (.par p q k) R S v

/-- What a step of the king does to its description. -/
def KgStep (bad : Nat → Prop) (n : Nat) (P' : Proc α) (R S : Nat × Sid → List Bytes) (v : α) : Act → Prop
  | .tau => Kg bad n P' R S v
  | .abort => Kg bad n P' R S v
  | .send d s b => (bad d ∧ Kg bad n P' R S v) ∨
      (¬ bad d ∧ ∃ rest, S (d, s) = b :: rest ∧ Kg bad n P' R (Function.update S (d, s) rest) v)
  | .recv f s b => 1 ≤ f ∧ f < n ∧ ((bad f ∧ Kg bad n P' R S v) ∨
      (¬ bad f ∧ ∃ b' rest, R (f, s) = b' :: rest ∧ (b = b' → Kg bad n P' (Function.update R (f, s) rest) S v)))
  | .fault => True

theorem Kg.step {bad : Nat → Prop} {P P' : Proc α} {a : Act} (hs : LStep P a P') {R S : Nat × Sid → List Bytes} {v : α}
    (h : Kg bad n P R S v) : KgStep bad n P' R S v a := by
  induction hs generalizing R S with
  | send d s b k =>
    cases h with
    | send _ _ _ _ hd h hS =>
      refine Or.inr ⟨hd, _, by rw [hS, Function.update_self], ?_⟩
      rw [hS, Function.update_idem, Function.update_eq_self]
      exact h
    | sendBad _ _ _ _ hd h => exact Or.inl ⟨hd, h⟩
  | recv f s b k => cases h
  | gatherRecv s m own got k i b h1 h2 h3 =>
    cases h with
    | gather _ _ _ _ msg hgot hr1 hr2 hk =>
      rename_i R
      refine ⟨h1, h2, ?_⟩
      by_cases hb : bad i
      · refine Or.inl ⟨hb, .gather _ _ _ _ msg (R := R) ?_ ?_ ?_ hk⟩
        · intro j c hj hc
          rw [Function.update_of_ne (by rintro rfl; exact hj hb)] at hc
          exact hgot j c hj hc
        · intro j hj1 hj2 hj hc
          rw [Function.update_of_ne (by rintro rfl; exact hj hb)] at hc
          exact hr1 j hj1 hj2 hj hc
        · intro j x hc
          refine hr2 j x fun hc' => hc ?_
          rw [Function.update_of_ne (by rintro rfl; exact hc'.2.2.2.1 hb)]
          exact hc'
      · refine Or.inr ⟨hb, msg i, R (i, s), hr1 i h1 h2 hb h3, fun hbm => ?_⟩
        subst hbm
        refine .gather _ _ _ _ msg (R := R) ?_ ?_ ?_ hk
        · intro j c hj hc
          by_cases hij : j = i
          · subst hij; rw [Function.update_self] at hc; cases hc; rfl
          · rw [Function.update_of_ne hij] at hc; exact hgot j c hj hc
        · intro j hj1 hj2 hj hc
          have hij : j ≠ i := by rintro rfl; rw [Function.update_self] at hc; cases hc
          rw [Function.update_of_ne hij] at hc
          rw [Function.update_of_ne (by simp [hij])]
          exact hr1 j hj1 hj2 hj hc
        · intro j x hc
          by_cases hij : (j, x) = (i, s)
          · cases hij; rw [Function.update_self]
          · rw [Function.update_of_ne hij]
            refine hr2 j x fun hc' => hc ?_
            rw [Function.update_of_ne (by rintro rfl; exact hij (by rw [hc'.1]))]
            exact hc'
  | gatherDone s m own got k L hfull hL =>
    cases h with
    | gather _ _ _ _ msg hgot hr1 hr2 hk =>
      rename_i R0
      obtain rfl : R = R0 := by
        funext x
        exact hr2 x.1 x.2 fun hc => hfull x.1 hc.2.1 hc.2.2.1 hc.2.2.2.2
      exact hk got L hgot (fun i h1 h2 _ => hfull i h1 h2) hL
  | gatherExpire => trivial
  | sendFail => trivial
  | recvFail => trivial
  | parL p p' q k a hst ih =>
    cases h with
    | par _ _ _ hp hq hk hdis hR hS =>
      rename_i R1 R2 R3 S1 S2 S3 r s
      have h := ih hp
      cases a with
      | tau => exact .par _ _ _ h hq hk hdis hR hS
      | abort => exact .par _ _ _ h hq hk hdis hR hS
      | send d sid b =>
        rcases h with ⟨hb, h⟩ | ⟨hb, rest, e, h⟩
        · exact Or.inl ⟨hb, .par _ _ _ h hq hk hdis hR hS⟩
        refine Or.inr ⟨hb, rest ++ (S2 (d, sid) ++ S3 (d, sid)), by simp only [hS, e, List.cons_append], .par _ _ _ h hq hk ?_ hR ?_⟩
        · intro x
          rcases hdis x with h1 | h1
          · left
            refine ⟨h1.1, ?_⟩
            by_cases hx : x = (d, sid)
            · subst hx; rw [h1.2] at e; cases e
            · rw [Function.update_of_ne hx]; exact h1.2
          · exact Or.inr h1
        · rw [hS]
          funext x
          by_cases hx : x = (d, sid)
          · subst hx; simp only [Function.update_self]
          · simp only [Function.update_of_ne hx]
      | recv f sid b =>
        obtain ⟨hf1, hf2, h⟩ := h
        refine ⟨hf1, hf2, ?_⟩
        rcases h with ⟨hb, h⟩ | ⟨hb, b', rest, e, h⟩
        · exact Or.inl ⟨hb, .par _ _ _ h hq hk hdis hR hS⟩
        refine Or.inr ⟨hb, b', rest ++ (R2 (f, sid) ++ R3 (f, sid)), by simp only [hR, e, List.cons_append], fun hbb => .par _ _ _ (h hbb) hq hk ?_ ?_ hS⟩
        · intro x
          rcases hdis x with h1 | h1
          · left
            refine ⟨?_, h1.2⟩
            by_cases hx : x = (f, sid)
            · subst hx; rw [h1.1] at e; cases e
            · rw [Function.update_of_ne hx]; exact h1.1
          · exact Or.inr h1
        · rw [hR]
          funext x
          by_cases hx : x = (f, sid)
          · subst hx; simp only [Function.update_self]
          · simp only [Function.update_of_ne hx]
      | fault => trivial
  | parR p q q' k a hst ih =>
    cases h with
    | par _ _ _ hp hq hk hdis hR hS =>
      rename_i R1 R2 R3 S1 S2 S3 r s
      have h := ih hq
      cases a with
      | tau => exact .par _ _ _ hp h hk hdis hR hS
      | abort => exact .par _ _ _ hp h hk hdis hR hS
      | send d sid b =>
        rcases h with ⟨hb, h⟩ | ⟨hb, rest, e, h⟩
        · exact Or.inl ⟨hb, .par _ _ _ hp h hk hdis hR hS⟩
        have hnil : S1 (d, sid) = [] := by
          rcases hdis (d, sid) with h1 | h1
          · exact h1.2
          · rw [h1.2] at e; cases e
        refine Or.inr ⟨hb, rest ++ S3 (d, sid), by rw [hS]; simp only [hnil, e]; rfl, .par _ _ _ hp h hk ?_ hR ?_⟩
        · intro x
          rcases hdis x with h1 | h1
          · exact Or.inl h1
          · right
            refine ⟨h1.1, ?_⟩
            by_cases hx : x = (d, sid)
            · subst hx; rw [h1.2] at e; cases e
            · rw [Function.update_of_ne hx]; exact h1.2
        · rw [hS]
          funext x
          by_cases hx : x = (d, sid)
          · subst hx; simp only [Function.update_self, hnil, List.nil_append]
          · simp only [Function.update_of_ne hx]
      | recv f sid b =>
        obtain ⟨hf1, hf2, h⟩ := h
        refine ⟨hf1, hf2, ?_⟩
        rcases h with ⟨hb, h⟩ | ⟨hb, b', rest, e, h⟩
        · exact Or.inl ⟨hb, .par _ _ _ hp h hk hdis hR hS⟩
        have hnil : R1 (f, sid) = [] := by
          rcases hdis (f, sid) with h1 | h1
          · exact h1.1
          · rw [h1.1] at e; cases e
        refine Or.inr ⟨hb, b', rest ++ R3 (f, sid), by rw [hR]; simp only [hnil, e]; rfl,
          fun hbb => .par _ _ _ hp (h hbb) hk ?_ ?_ hS⟩
        · intro x
          rcases hdis x with h1 | h1
          · exact Or.inl h1
          · right
            refine ⟨?_, h1.2⟩
            by_cases hx : x = (f, sid)
            · subst hx; rw [h1.1] at e; cases e
            · rw [Function.update_of_ne hx]; exact h1.1
        · rw [hR]
          funext x
          by_cases hx : x = (f, sid)
          · subst hx; simp only [Function.update_self, hnil, List.nil_append]
          · simp only [Function.update_of_ne hx]
      | fault => trivial
  | join r s k =>
    cases h with
    | par _ _ _ hp hq hk hdis hR hS =>
      cases hp with
      | done _ h1 h2 =>
        cases hq with
        | done _ h3 h4 =>
          subst h1 h2 h3 h4 hR hS
          exact hk
  | abortL e q k => exact .dead _ _ _ _
  | abortR e p k => exact .dead _ _ _ _

/-- A king that does not give up on honest parties. -/
theorem Kg.timely {bad : Nat → Prop} {P P' : Proc α} (ht : Timely bad P P') {R S : Nat × Sid → List Bytes} {v : α}
    (h : Kg bad n P R S v) : Kg bad n P' R S v := by
  induction ht generalizing R S with
  | sendFail => exact .dead _ _ _ _
  | recvFail => exact .dead _ _ _ _
  | expire s m own got k L hfull hL =>
    cases h with
    | gather _ _ _ _ msg hgot hr1 hr2 hk =>
      rename_i R0
      obtain rfl : R = R0 := by
        funext x
        exact hr2 x.1 x.2 fun hc => hfull x.1 hc.2.1 hc.2.2.1 hc.2.2.2.1 hc.2.2.2.2
      exact hk got L hgot hfull hL
  | parL p p' q k _ ih =>
    cases h with
    | par _ _ _ hp hq hk hdis hR hS => exact .par _ _ _ (ih hp) hq hk hdis hR hS
  | parR p q q' k _ ih =>
    cases h with
    | par _ _ _ hp hq hk hdis hR hS => exact .par _ _ _ hp (ih hq) hk hdis hR hS

theorem Kg.bind {bad : Nat → Prop} {p : Proc α} {R S : Nat × Sid → List Bytes} {r : α} (h : Kg bad n p R S r) {f : α → Proc β}
    {R' S' : Nat × Sid → List Bytes} {v : β} (hf : Kg bad n (f r) R' S' v) :
    Kg bad n (p.bind f) (fun x => R x ++ R' x) (fun x => S x ++ S' x) v := by
  induction h with
  | dead e => exact .dead _ _ _ _
  | done v hR hS => subst hR hS; exact hf
  | send d s b k hd h hS ih =>
    refine .send _ _ _ _ hd (ih hf) ?_
    rw [hS]
    funext x
    by_cases hx : x = (d, s)
    · subst hx; simp only [Function.update_self, List.cons_append]
    · simp only [Function.update_of_ne hx]
  | sendBad d s b k hd h ih => exact .sendBad _ _ _ _ hd (ih hf)
  | gather s own got k msg hgot h1 h2 hk ih =>
    refine .gather _ _ _ _ msg hgot ?_ ?_ fun got' L a1 a2 a3 => ih got' L a1 a2 a3 hf
    · intro i i1 i2 i3 i4
      rw [h1 i i1 i2 i3 i4]; rfl
    · intro i x hx
      simp only [h2 i x hx]
  | par p q k hp hq hk hdis hR hS _ _ ih =>
    refine .par _ _ _ hp hq (ih hf) hdis ?_ ?_
    · rw [hR]; funext x; simp only [List.append_assoc]
    · rw [hS]; funext x; simp only [List.append_assoc]

/-- Programs of a king and clients that fit together. -/
def Session (hn : 0 < n) (bad : Nat → Prop) (St : Sid → Prop) (ps : Fin n → Proc α) (rs : Fin n → α) : Prop :=
  ∃ R S : Nat × Sid → List Bytes, (∀ i s, ¬ St s → R (i, s) = [] ∧ S (i, s) = []) ∧
    Kg bad n (ps ⟨0, hn⟩) R S (rs ⟨0, hn⟩) ∧
    ∀ i : Fin n, i.val ≠ 0 → ¬ bad i → Cl (ps i) (fun s => S (i.val, s)) (fun s => R (i.val, s)) (rs i)

/-- The states of a session in which the parties `bad` do what they like. -/
def SessionInv (hn : 0 < n) (bad : Nat → Prop) (rs : Fin n → α) (c : Net n α) : Prop :=
  ∃ (R S : Nat × Sid → List Bytes) (I O : Nat → Sid → List Bytes), Kg bad n (c.procs ⟨0, hn⟩) R S (rs ⟨0, hn⟩) ∧
    ∀ i : Fin n, i.val ≠ 0 → ¬ bad i → Cl (c.procs i) (I i) (O i) (rs i) ∧
      ∀ s, c.queues (i.val, 0, s) ++ O i s = R (i.val, s) ∧ c.queues (0, i.val, s) ++ S (i.val, s) = I i s

/-- What a step of a party does to the queues between the king and another client. -/
theorem qstep_others {i : Nat} {a : Act} {Q Q' : Queues} (h : qstep i a Q = some Q') (hi : i ≠ 0) {j : Nat} (hj : j ≠ i) (s : Sid) :
    Q' (j, 0, s) = Q (j, 0, s) ∧ Q' (0, j, s) = Q (0, j, s) := by
  cases a with
  | tau => cases h; exact ⟨rfl, rfl⟩
  | abort => cases h; exact ⟨rfl, rfl⟩
  | fault => cases h; exact ⟨rfl, rfl⟩
  | send dst x b =>
    cases h
    rw [Function.update_of_ne (by intro h; exact hj (congrArg Prod.fst h)),
      Function.update_of_ne (by intro h; exact hi (congrArg Prod.fst h).symm)]
    exact ⟨rfl, rfl⟩
  | recv frm x b =>
    simp only [qstep] at h
    cases hQ : Q (frm, i, x) with
    | nil => rw [hQ] at h; cases h
    | cons y rest =>
      rw [hQ] at h
      simp only at h
      split at h
      · cases h
        rw [Function.update_of_ne (by intro h; exact hi (congrArg (fun q => q.2.1) h).symm),
          Function.update_of_ne (by intro h; exact hj (congrArg (fun q => q.2.1) h))]
        exact ⟨rfl, rfl⟩
      · cases h

theorem qstep_recv {i f : Nat} {s : Sid} {b : Bytes} {Q Q' : Queues} (h : qstep i (.recv f s b) Q = some Q') :
    ∃ rest, Q (f, i, s) = b :: rest ∧ Q' = Function.update Q (f, i, s) rest := by
  simp only [qstep] at h
  cases hQ : Q (f, i, s) with
  | nil => rw [hQ] at h; cases h
  | cons y rest =>
    rw [hQ] at h
    simp only at h
    split at h
    · next hy => cases h; exact ⟨rest, by rw [hy], rfl⟩
    · cases h

theorem sessionInv_step (hn : 0 < n) {bad : Nat → Prop} {rs : Fin n → α} {c c' : Net n α}
    (hbad : ¬ bad 0) (hinv : SessionInv hn bad rs c) (h : TStep bad c c') : SessionInv hn bad rs c' := by
  cases h with
  | mk procs Q Q' i a p' hstep ha hq =>
  obtain ⟨R, S, I, O, hk, hc⟩ := hinv
  simp only at hk hc
  by_cases hi : i.val = 0
  · obtain rfl : i = ⟨0, hn⟩ := Fin.ext hi
    have hne : ∀ j : Fin n, j.val ≠ 0 → j ≠ ⟨0, hn⟩ := fun j hj h => hj (by rw [h])
    have hst := Kg.step hstep hk
    cases a with
    | tau =>
      cases hq
      refine ⟨R, S, I, O, by simp only [Function.update_self]; exact hst, fun j hj hb => ?_⟩
      simp only [Function.update_of_ne (hne j hj)]
      exact hc j hj hb
    | abort =>
      cases hq
      refine ⟨R, S, I, O, by simp only [Function.update_self]; exact hst, fun j hj hb => ?_⟩
      simp only [Function.update_of_ne (hne j hj)]
      exact hc j hj hb
    | fault =>
      cases hq
      have hst := Kg.timely ((ha rfl).resolve_left hbad) hk
      refine ⟨R, S, I, O, by simp only [Function.update_self]; exact hst, fun j hj hb => ?_⟩
      simp only [Function.update_of_ne (hne j hj)]
      exact hc j hj hb
    | send d s b =>
      cases hq
      rcases hst with ⟨hb, hst⟩ | ⟨hb, rest, e, hst⟩
      · refine ⟨R, S, I, O, by simpa only [Function.update_self] using hst, fun j hj hbj => ?_⟩
        simp only [Function.update_of_ne (hne j hj)]
        refine ⟨(hc j hj hbj).1, fun x => ?_⟩
        rw [Function.update_of_ne (by intro h; exact hj (congrArg Prod.fst h)),
          Function.update_of_ne (by intro h; exact hbj ((congrArg (fun q => q.2.1) h : j.val = d) ▸ hb))]
        exact (hc j hj hbj).2 x
      · refine ⟨R, _, I, O, by simpa only [Function.update_self] using hst, fun j hj hbj => ?_⟩
        simp only [Function.update_of_ne (hne j hj)]
        refine ⟨(hc j hj hbj).1, fun x => ?_⟩
        rw [Function.update_of_ne (by intro h; exact hj (congrArg Prod.fst h))]
        refine ⟨((hc j hj hbj).2 x).1, ?_⟩
        have := ((hc j hj hbj).2 x).2
        by_cases hx : (j.val, x) = (d, s)
        · cases hx
          rw [Function.update_self, Function.update_self, List.append_assoc, List.singleton_append, ← e]
          exact this
        · rw [Function.update_of_ne hx, Function.update_of_ne (by intro h; exact hx (congrArg Prod.snd h))]
          exact this
    | recv f s b =>
      obtain ⟨rest', hQ, rfl⟩ := qstep_recv hq
      obtain ⟨hf1, hf2, hst⟩ := hst
      rcases hst with ⟨hb, hst⟩ | ⟨hb, b', rest, e, hst⟩
      · refine ⟨R, S, I, O, by simpa only [Function.update_self] using hst, fun j hj hbj => ?_⟩
        simp only [Function.update_of_ne (hne j hj)]
        refine ⟨(hc j hj hbj).1, fun x => ?_⟩
        rw [Function.update_of_ne (by
            intro h
            have e : j.val = f := congrArg Prod.fst h
            rw [e] at hbj
            exact hbj hb),
          Function.update_of_ne (by intro h; exact hj (congrArg (fun q => q.2.1) h))]
        exact (hc j hj hbj).2 x
      · have hcf := ((hc ⟨f, hf2⟩ (by simp only; omega) hb).2 s).1
        simp only at hcf hQ
        rw [hQ, e, List.cons_append] at hcf
        obtain ⟨rfl, hrest⟩ := List.cons.inj hcf
        refine ⟨_, S, I, O, by simpa only [Function.update_self] using hst rfl, fun j hj hbj => ?_⟩
        simp only [Function.update_of_ne (hne j hj)]
        refine ⟨(hc j hj hbj).1, fun x => ?_⟩
        have := (hc j hj hbj).2 x
        rw [Function.update_of_ne (a := (0, j.val, x)) (by intro h; exact hj (congrArg (fun q => q.2.1) h))]
        refine ⟨?_, this.2⟩
        by_cases hx : (j.val, x) = (f, s)
        · cases hx
          rw [Function.update_self, Function.update_self]
          exact hrest
        · rw [Function.update_of_ne hx, Function.update_of_ne (by
            intro h
            have e1 : j.val = f := congrArg Prod.fst h
            have e2 : x = s := congrArg (fun q => q.2.2) h
            exact hx (by rw [e1, e2]))]
          exact this.1
  · have h0 : (⟨0, hn⟩ : Fin n) ≠ i := fun h => hi (by rw [← h])
    by_cases hbi : bad i
    · refine ⟨R, S, I, O, by simp only [Function.update_of_ne h0]; exact hk, fun j hj hb => ?_⟩
      have hij : j ≠ i := by rintro rfl; exact hb hbi
      simp only [Function.update_of_ne hij]
      refine ⟨(hc j hj hb).1, fun x => ?_⟩
      obtain ⟨e1, e2⟩ := qstep_others hq hi (j := j.val) (fun h => hij (Fin.ext h)) x
      rw [e1, e2]
      exact (hc j hj hb).2 x
    · obtain ⟨hcl, hcq⟩ := hc i hi hbi
      have hst := Cl.step hstep hcl
      have hoth : ∀ j : Fin n, j.val ≠ 0 → ¬ bad j → j ≠ i → Cl (Function.update procs i p' j) (I j) (O j) (rs j) ∧
          ∀ s, Q' (j.val, 0, s) ++ O j s = R (j.val, s) ∧ Q' (0, j.val, s) ++ S (j.val, s) = I j s := by
        intro j hj hb hij
        rw [Function.update_of_ne hij]
        refine ⟨(hc j hj hb).1, fun x => ?_⟩
        obtain ⟨e1, e2⟩ := qstep_others hq hi (j := j.val) (fun h => hij (Fin.ext h)) x
        rw [e1, e2]
        exact (hc j hj hb).2 x
      -- a new description for party `i`
      have key : ∀ I' O', Cl p' I' O' (rs i) → (∀ s, Q' (i.val, 0, s) ++ O' s = R (i.val, s) ∧ Q' (0, i.val, s) ++ S (i.val, s) = I' s) →
          SessionInv hn bad rs ⟨Function.update procs i p', Q'⟩ := by
        intro I' O' h1 h2
        refine ⟨R, S, Function.update I i.val I', Function.update O i.val O', by simp only [Function.update_of_ne h0]; exact hk, ?_⟩
        intro j hj hb
        by_cases hij : j = i
        · subst hij
          simp only [Function.update_self]
          exact ⟨h1, h2⟩
        · have : j.val ≠ i.val := fun h => hij (Fin.ext h)
          rw [Function.update_of_ne this, Function.update_of_ne this]
          exact hoth j hj hb hij
      cases a with
      | tau => cases hq; exact key _ _ hst hcq
      | abort => cases hq; exact key _ _ hst hcq
      | fault => cases hq; exact key _ _ hst hcq
      | send d s b =>
        cases hq
        obtain ⟨rfl, rest, e, hst⟩ := hst
        refine key _ _ hst fun x => ⟨?_, ?_⟩
        · have := (hcq x).1
          by_cases hx : x = s
          · subst hx
            rw [Function.update_self, Function.update_self, List.append_assoc, List.singleton_append, ← e]
            exact this
          · rw [Function.update_of_ne hx, Function.update_of_ne (by intro h; exact hx (congrArg (fun q => q.2.2) h))]
            exact this
        · rw [Function.update_of_ne (by intro h; exact hi (congrArg Prod.fst h).symm)]
          exact (hcq x).2
      | recv f s b =>
        obtain ⟨rest', hQ, rfl⟩ := qstep_recv hq
        obtain ⟨rfl, b', rest, e, hst⟩ := hst
        have hcf := (hcq s).2
        rw [hQ, e, List.cons_append] at hcf
        obtain ⟨rfl, hrest⟩ := List.cons.inj hcf
        refine key _ _ (hst rfl) fun x => ⟨?_, ?_⟩
        · rw [Function.update_of_ne (by intro h; exact hi (congrArg Prod.fst h))]
          exact (hcq x).1
        · by_cases hx : x = s
          · subst hx
            rw [Function.update_self, Function.update_self]
            exact hrest
          · rw [Function.update_of_ne hx, Function.update_of_ne (by intro h; exact hx (congrArg (fun q => q.2.2) h))]
            exact (hcq x).2

/-- In every execution of a session, whatever the parties `bad` do, an honest party that succeeds has its result. -/
theorem Session.safe {hn : 0 < n} {bad : Nat → Prop} (hbad : ¬ bad 0) {St : Sid → Prop} {ps : Fin n → Proc α} {rs : Fin n → α}
    (h : Session hn bad St ps rs) : SafeAgainst bad ps rs := by
  intro procs hprocs c hc i hi v hv
  obtain ⟨R, S, -, hk, hcl⟩ := h
  have h0 : SessionInv hn bad rs (Net.init procs) := by
    refine ⟨R, S, fun i s => S (i, s), fun i s => R (i, s), ?_, fun j hj hb => ⟨?_, fun s => ⟨rfl, rfl⟩⟩⟩
    · simp only [Net.init]; rw [hprocs ⟨0, hn⟩ hbad]; exact hk
    · simp only [Net.init]; rw [hprocs j hb]; exact hcl j hj hb
  have hinv : SessionInv hn bad rs c := by
    clear hv
    generalize Net.init procs = c0 at hc h0
    induction hc with
    | refl => exact h0
    | step h _ ih => exact ih (sessionInv_step hn hbad h0 h)
  obtain ⟨R, S, I, O, hk, hcl⟩ := hinv
  by_cases h0 : i.val = 0
  · obtain rfl : i = ⟨0, hn⟩ := Fin.ext h0
    rw [hv] at hk
    cases hk
    rfl
  · have := (hcl i h0 hi).1
    rw [hv] at this
    cases this
    rfl

/-! ### Combinators -/

section comb
variable {hn : 0 < n} {bad : Nat → Prop} {St : Sid → Prop}

theorem Session.done (rs : Fin n → α) : Session hn bad St (fun i => .done (.ok (rs i))) rs :=
  ⟨fun _ => [], fun _ => [], fun _ _ _ => ⟨rfl, rfl⟩, .done _ rfl rfl, fun _ _ _ => .done _ rfl rfl⟩

theorem Session.mono {St' : Sid → Prop} {ps : Fin n → Proc α} {rs : Fin n → α} (h : Session hn bad St ps rs)
    (hS : ∀ s, St s → St' s) : Session hn bad St' ps rs := by
  obtain ⟨R, S, h1, h2⟩ := h
  exact ⟨R, S, fun i s hs => h1 i s fun h => hs (hS s h), h2⟩

/-- Only the programs and results of the honest parties matter. -/
theorem Session.congr (hbad : ¬ bad 0) {ps ps' : Fin n → Proc α} {rs rs' : Fin n → α} (h : Session hn bad St ps rs)
    (hp : ∀ i : Fin n, ¬ bad i → ps' i = ps i) (hr : ∀ i : Fin n, ¬ bad i → rs' i = rs i) : Session hn bad St ps' rs' := by
  obtain ⟨R, S, h1, h2, h3⟩ := h
  refine ⟨R, S, h1, ?_, fun i hi hb => ?_⟩
  · rw [hp _ hbad, hr _ hbad]; exact h2
  · rw [hp _ hb, hr _ hb]; exact h3 i hi hb

theorem Session.bind {ps : Fin n → Proc α} {rs : Fin n → α} (h : Session hn bad St ps rs) {f : Fin n → α → Proc β} {out : Fin n → β}
    (hf : Session hn bad St (fun i => f i (rs i)) out) : Session hn bad St (fun i => (ps i).bind (f i)) out := by
  obtain ⟨R, S, h1, h2, h3⟩ := h
  obtain ⟨R', S', h1', h2', h3'⟩ := hf
  refine ⟨fun x => R x ++ R' x, fun x => S x ++ S' x, fun i s hs => ?_, Kg.bind h2 h2', fun i hi hb => Cl.bind (h3 i hi hb) (h3' i hi hb)⟩
  simp only [(h1 i s hs).1, (h1 i s hs).2, (h1' i s hs).1, (h1' i s hs).2]
  exact ⟨rfl, rfl⟩

theorem Session.lift_bind (hbad : ¬ bad 0) {f : Fin n → α → Proc β} {r : Fin n → Res α} {rs : Fin n → α} {out : Fin n → β}
    (hr : ∀ i : Fin n, ¬ bad i → r i = .ok (rs i)) (h : Session hn bad St (fun i => f i (rs i)) out) :
    Session hn bad St (fun i => (Proc.done (r i)).bind (f i)) out := by
  refine h.congr hbad (fun i hb => ?_) fun _ _ => rfl
  rw [hr i hb]; rfl

theorem Session.par {S1 S2 : Sid → Prop} {ps : Fin n → Proc β} {rs : Fin n → β} {qs : Fin n → Proc γ} {ss : Fin n → γ}
    (hp : Session hn bad S1 ps rs) (hq : Session hn bad S2 qs ss) (h1 : ∀ x, S1 x → St x) (h2 : ∀ x, S2 x → St x)
    (hdis : ∀ x, S1 x → ¬ S2 x) {k : Fin n → β → γ → Proc α} {out : Fin n → α}
    (hk : Session hn bad St (fun i => k i (rs i) (ss i)) out) : Session hn bad St (fun i => .par (ps i) (qs i) (k i)) out := by
  obtain ⟨R1, T1, a1, b1, c1⟩ := hp
  obtain ⟨R2, T2, a2, b2, c2⟩ := hq
  obtain ⟨R3, T3, a3, b3, c3⟩ := hk
  have hd : ∀ i s, (R1 (i, s) = [] ∧ T1 (i, s) = []) ∨ (R2 (i, s) = [] ∧ T2 (i, s) = []) := by
    intro i s
    by_cases hs : S1 s
    · exact Or.inr (a2 i s (hdis s hs))
    · exact Or.inl (a1 i s hs)
  refine ⟨fun x => R1 x ++ (R2 x ++ R3 x), fun x => T1 x ++ (T2 x ++ T3 x), fun i s hs => ?_, ?_, fun i hi hb => ?_⟩
  · have e1 := a1 i s fun h => hs (h1 s h)
    have e2 := a2 i s fun h => hs (h2 s h)
    have e3 := a3 i s hs
    simp only [e1.1, e1.2, e2.1, e2.2, e3.1, e3.2]
    exact ⟨rfl, rfl⟩
  · exact .par _ _ _ b1 b2 b3 (fun x => hd x.1 x.2) rfl rfl
  · refine .par _ _ _ (c1 i hi hb) (c2 i hi hb) (c3 i hi hb) (fun s => ?_) rfl rfl
    rcases hd i s with h | h
    · exact Or.inl ⟨h.2, h.1⟩
    · exact Or.inr ⟨h.2, h.1⟩

theorem mapM_mem_ok {f : α → Res β} {xs : List α} {ys : List β} (h : xs.mapM f = .ok ys) {x : α} (hx : x ∈ xs) :
    ∃ y, f x = .ok y := by
  induction xs generalizing ys with
  | nil => cases hx
  | cons a xs ih =>
    rw [List.mapM_cons] at h
    cases ha : f a with
    | error e => rw [ha] at h; cases h
    | ok b =>
      rcases List.mem_cons.1 hx with rfl | hx
      · exact ⟨b, ha⟩
      · rw [ha, ok_bind] at h
        cases hr : xs.mapM f with
        | error e => rw [hr] at h; cases h
        | ok zs => exact ih hr hx

/-- The king hands out its answers. -/
theorem kg_loop (out : List Bytes) (sid : Sid) (m : Nat) (b : Nat → Bytes) (f : Unit → Proc α) {R S : Nat × Sid → List Bytes} {v : α}
    (hf : Kg bad n (f ()) R S v) (ids : List Nat) (hnd : ids.Nodup) (hb : ∀ i ∈ ids, ¬ bad i → ∀ c, out[i]? = some c → c = b i)
    {S' : Nat × Sid → List Bytes} (h1 : ∀ i ∈ ids, ¬ bad i → S' (i, sid) = b i :: S (i, sid))
    (h2 : ∀ i s, ¬ (s = sid ∧ i ∈ ids ∧ ¬ bad i) → S' (i, s) = S (i, s)) :
    Kg bad n ((kingSendLoop out m sid ids).bind f) R S' v := by
  induction ids generalizing S' with
  | nil =>
    obtain rfl : S' = S := by funext x; exact h2 x.1 x.2 (by simp)
    exact hf
  | cons id ids ih =>
    cases ho : out[id]? with
    | none =>
      show Kg bad n (Proc.bind (Proc.bind (.done (rd out id)) _) _) R S' v
      unfold rd
      rw [ho]
      exact .dead _ _ _ _
    | some c =>
      by_cases hm : c.length = m
      · rw [kingSendLoop_bind out m sid _ id ids c ho hm]
        have hni : id ∉ ids := (List.nodup_cons.1 hnd).1
        have hnd' := (List.nodup_cons.1 hnd).2
        by_cases hbad : bad id
        · refine .sendBad _ _ _ _ hbad (ih hnd' (fun i hi => hb i (List.mem_cons_of_mem _ hi)) (fun i hi => h1 i (List.mem_cons_of_mem _ hi)) ?_)
          intro i s hs
          refine h2 i s fun h => hs ⟨h.1, ?_, h.2.2⟩
          rcases List.mem_cons.1 h.2.1 with rfl | h'
          · exact absurd hbad h.2.2
          · exact h'
        · obtain rfl := hb id (by simp) hbad c ho
          refine .send _ _ _ _ hbad (ih (S' := Function.update S' (id, sid) (S (id, sid))) hnd'
            (fun i hi => hb i (List.mem_cons_of_mem _ hi)) ?_ ?_) ?_
          · intro i hi hbi
            rw [Function.update_of_ne (by
              intro h
              have e : i = id := congrArg Prod.fst h
              rw [e] at hi
              exact hni hi)]
            exact h1 i (List.mem_cons_of_mem _ hi) hbi
          · intro i s hs
            by_cases hx : (i, s) = (id, sid)
            · cases hx; rw [Function.update_self]
            · rw [Function.update_of_ne hx]
              refine h2 i s fun h => hs ⟨h.1, ?_, h.2.2⟩
              rcases List.mem_cons.1 h.2.1 with rfl | h'
              · exact absurd (by rw [h.1]) hx
              · exact h'
          · rw [Function.update_self, Function.update_idem, ← h1 id (by simp) hbad, Function.update_eq_self]
      · show Kg bad n (Proc.bind (Proc.bind (.done (rd out id)) _) _) R S' v
        unfold rd
        rw [ho]
        simp only [Proc.bind]
        rw [if_pos hm]
        exact .dead _ _ _ _

/-- What a king gets to compute with when some of the parties may have sent anything or nothing. -/
theorem received_robust {T : Type} [Wire T] (hn : 0 < n) (threshold : Nat) (x : Nat → T) (hx : ∀ i < n, ¬ bad i → Wire.Ok (x i))
    (hbad : ¬ bad 0) {got : Nat → Option Bytes} (hgot : ∀ i b, ¬ bad i → got i = some b → b = Wire.enc (x i))
    (hfull : ∀ i, 1 ≤ i → i < n → ¬ bad i → got i ≠ none) {L : List (Nat × Bytes)} (hL : Enumerates n (Wire.enc (x 0)) got L) :
    (∃ e, ((kingFinish n L).map some >>= decodeReceived (T := T) n threshold) = .error e) ∨
    ∃ z : Nat → T, (∀ i < n, ¬ bad i → z i = x i) ∧ ∃ parties, Responders n threshold parties ∧ (∀ i < n, ¬ bad i → i ∈ parties) ∧
      ((kingFinish n L).map some >>= decodeReceived (T := T) n threshold) = .ok (some ⟨parties.map z, parties⟩) := by
  classical
  set bs : Nat → Bytes := fun i => if i = 0 then Wire.enc (x 0) else (got i).getD [] with hbs
  have hLbs : ∀ e ∈ L, e.1 < n ∧ e.2 = bs e.1 := by
    rintro ⟨i, b⟩ he
    rcases (hL.2 i b).1 he with ⟨rfl, rfl⟩ | ⟨h1, h2, h3⟩
    · exact ⟨hn, by simp [hbs]⟩
    · refine ⟨h2, ?_⟩
      simp only [hbs]
      rw [if_neg (by omega), h3]
      rfl
  have hdec : ∀ i < n, ¬ bad i → Wire.dec (T := T) (bs i) = some (x i) := by
    intro i hi hb
    have : bs i = Wire.enc (x i) := by
      by_cases h0 : i = 0
      · subst h0; simp [hbs]
      · simp only [hbs, if_neg h0]
        obtain ⟨b, hb'⟩ := Option.ne_none_iff_exists'.1 (hfull i (by omega) hi hb)
        rw [hb']
        exact hgot _ _ hb hb'
    rw [this]
    exact hx i hi hb
  set z : Nat → T := fun i => (Wire.dec (T := T) (bs i)).getD (x 0) with hz
  have hzx : ∀ i < n, ¬ bad i → z i = x i := by
    intro i hi hb
    simp only [hz]
    rw [hdec i hi hb]
    rfl
  have hmemL : ∀ i < n, ¬ bad i → ∃ b, (i, b) ∈ L := by
    intro i hi hb
    by_cases h0 : i = 0
    · subst h0; exact ⟨_, (hL.2 _ _).2 (Or.inl ⟨rfl, rfl⟩)⟩
    · obtain ⟨b, hb'⟩ := Option.ne_none_iff_exists'.1 (hfull i (by omega) hi hb)
      exact ⟨b, (hL.2 _ _).2 (Or.inr ⟨by omega, hi, hb'⟩)⟩
  have hsub : (L.map Prod.fst).toFinset ⊆ Finset.range n := by
    intro i hi
    obtain ⟨e, he, rfl⟩ := List.mem_map.1 (List.mem_toFinset.1 hi)
    exact Finset.mem_range.2 (hLbs e he).1
  by_cases hlen : L.length = n
  · have hall : (L.map Prod.fst).toFinset = Finset.range n := by
      apply Finset.eq_of_subset_of_card_le hsub
      rw [Finset.card_range, List.toFinset_card_of_nodup hL.1, List.length_map, hlen]
    have hfull' : ∀ i, 1 ≤ i → i < n → got i ≠ none := by
      intro i h1 h2
      have : i ∈ L.map Prod.fst := by rw [← List.mem_toFinset, hall]; exact Finset.mem_range.2 h2
      obtain ⟨⟨j, b⟩, he, rfl⟩ := List.mem_map.1 this
      rcases (hL.2 j b).1 he with ⟨h0, -⟩ | ⟨-, -, h⟩
      · simp only at h1; omega
      · simp only; rw [h]; simp
    rw [kingFinish_full hL hfull' hn]
    show (∃ e, decodeReceived (T := T) n threshold (some (.full ((List.range n).map bs))) = .error e) ∨
      ∃ z : Nat → T, (∀ i < n, ¬ bad i → z i = x i) ∧ ∃ parties, Responders n threshold parties ∧ (∀ i < n, ¬ bad i → i ∈ parties) ∧
      decodeReceived (T := T) n threshold (some (.full ((List.range n).map bs))) = .ok (some ⟨parties.map z, parties⟩)
    simp only [decodeReceived]
    cases hm : ((List.range n).map bs).mapM (decodeOrError (T := T)) with
    | error e => exact Or.inl ⟨e, rfl⟩
    | ok ys =>
      have hm' : ((List.range n).map bs).mapM (decodeOrError (T := T)) = .ok ((List.range n).map z) := by
        rw [List.mapM_map]
        apply mapM_ok
        intro i hi
        obtain ⟨y, hy⟩ := mapM_mem_ok hm (x := bs i) (List.mem_map.2 ⟨i, hi, rfl⟩)
        simp only [Function.comp, decodeOrError, hz] at hy ⊢
        cases hd : Wire.dec (T := T) (bs i) with
        | none => rw [hd] at hy; cases hy
        | some y' => rfl
      rw [hm'] at hm
      cases hm
      refine Or.inr ⟨z, hzx, List.range n, ⟨List.nodup_range, fun p hp => List.mem_range.1 hp, List.mem_range.2 hn, fun _ => rfl, fun h => ?_⟩,
        fun i hi _ => List.mem_range.2 hi, rfl⟩
      rw [List.length_range] at h; omega
  · have hf : kingFinish n L = .ok (.partly L) := by unfold kingFinish; rw [if_neg hlen]; rfl
    rw [hf]
    show (∃ e, decodeReceived (T := T) n threshold (some (.partly L)) = .error e) ∨
      ∃ z : Nat → T, (∀ i < n, ¬ bad i → z i = x i) ∧ ∃ parties, Responders n threshold parties ∧ (∀ i < n, ¬ bad i → i ∈ parties) ∧
      decodeReceived (T := T) n threshold (some (.partly L)) = .ok (some ⟨parties.map z, parties⟩)
    simp only [decodeReceived]
    set L' := L.filter fun e => (Wire.dec (T := T) e.2).isSome with hL'
    have hfm : (L.filterMap fun e => (Wire.dec (T := T) e.2).map fun y => (e.1, y)) = L'.map fun e => (e.1, z e.1) := by
      have : ∀ M : List (Nat × Bytes), (∀ e ∈ M, e ∈ L) → (M.filterMap fun e => (Wire.dec (T := T) e.2).map fun y => (e.1, y)) =
          (M.filter fun e => (Wire.dec (T := T) e.2).isSome).map fun e => (e.1, z e.1) := by
        intro M hM
        induction M with
        | nil => rfl
        | cons e M ih =>
          have ih := ih fun e he => hM e (by simp [he])
          have hb := (hLbs e (hM e (by simp))).2
          cases hd : Wire.dec (T := T) e.2 with
          | none => rw [List.filterMap_cons, List.filter_cons]; simp only [hd, Option.map_none, Option.isSome_none]; exact ih
          | some y =>
            have hzy : z e.1 = y := by simp only [hz]; rw [← hb, hd]; rfl
            rw [List.filterMap_cons, List.filter_cons]
            simp only [hd, Option.map_some, Option.isSome_some, if_true, List.map_cons, hzy, ih]
      exact this L fun _ h => h
    rw [hfm]
    have hsl : (L'.map Prod.fst).Sublist (L.map Prod.fst) := (List.filter_sublist (l := L)).map _
    have hcard : L.length ≤ n := by
      have := Finset.card_le_card hsub
      rwa [Finset.card_range, List.toFinset_card_of_nodup hL.1, List.length_map] at this
    have hmem : ∀ i < n, ¬ bad i → i ∈ L'.map Prod.fst := by
      intro i hi hb
      obtain ⟨b, he⟩ := hmemL i hi hb
      have hb' : b = bs i := (hLbs _ he).2
      refine List.mem_map.2 ⟨(i, b), List.mem_filter.2 ⟨he, ?_⟩, rfl⟩
      simp only [hb', hdec i hi hb, Option.isSome_some]
    split
    · exact Or.inl ⟨_, rfl⟩
    · next hth =>
      refine Or.inr ⟨z, hzx, L'.map Prod.fst, ⟨hsl.nodup hL.1, fun p hp => ?_, hmem 0 hn hbad, fun h => ?_, fun _ => ?_⟩, hmem, ?_⟩
      · exact Finset.mem_range.1 (hsub (List.mem_toFinset.2 (hsl.subset hp)))
      · have := hsl.length_le
        rw [h, List.length_map] at this
        omega
      · simpa using hth
      · simp only [List.map_map, Function.comp_def]

/-- A star round in which the king does not accept anything but the honest messages: with whatever the parties `bad` send, its
computation fails or gives the honest answers. -/
theorem session_round {T U : Type} [Wire T] [Wire U] (hbad : ¬ bad 0) (sid : Sid) (threshold : Nat) (x : Nat → T)
    (hx : ∀ i < n, ¬ bad i → Wire.Ok (x i)) (K : Fin n → ReceivedShares T → Res (List U)) (ans : Nat → U)
    (hK : ∀ z : Nat → T, (∀ i < n, ¬ bad i → z i = x i) → ∀ parties, Responders n threshold parties →
      (∀ i < n, ¬ bad i → i ∈ parties) → ∀ answers,
      K ⟨0, hn⟩ ⟨parties.map z, parties⟩ = .ok answers → ∀ i < n, ¬ bad i → answers[i]? = some (ans i))
    (hans : ∀ i < n, ¬ bad i → Wire.Ok (ans i)) (f : Fin n → U → Proc α) {out : Fin n → α}
    (hf : Session hn bad (only sid) (fun i => f i (ans i)) out) :
    Session hn bad (only sid) (fun i : Fin n => (clientSendOrKingReceiveSer n i (x i) sid threshold).bind fun r =>
      (Proc.done (kingDo (K i) r)).bind fun a => (clientReceiveOrKingSendSer n i a sid).bind (f i)) out := by
  classical
  have hassoc : (fun i : Fin n => (clientSendOrKingReceiveSer n i (x i) sid threshold).bind fun r =>
      (Proc.done (kingDo (K i) r)).bind fun a => (clientReceiveOrKingSendSer n i a sid).bind (f i)) =
      fun i : Fin n => ((clientSendOrKingReceiveSer n i (x i) sid threshold).bind fun r =>
      (Proc.done (kingDo (K i) r)).bind fun a => clientReceiveOrKingSendSer n i a sid).bind (f i) := by
    funext i
    rw [Proc.bind_assoc]
    congr 1
    funext r
    rw [Proc.bind_assoc]
  rw [hassoc]
  refine Session.bind (rs := fun i => ans i) ?_ hf
  refine ⟨fun y => if y.2 = sid ∧ 1 ≤ y.1 ∧ y.1 < n ∧ ¬ bad y.1 then [Wire.enc (x y.1)] else [],
    fun y => if y.2 = sid ∧ 1 ≤ y.1 ∧ y.1 < n ∧ ¬ bad y.1 then [Wire.enc (ans y.1)] else [], ?_, ?_, ?_⟩
  · intro i s hs
    have : ¬ s = sid := hs
    simp [this]
  · show Kg bad n (.gather sid n (Wire.enc (x 0)) (fun _ => none) fun L =>
      ((Proc.done ((kingFinish n L).map some)).bind fun r => .done (decodeReceived (T := T) n threshold r)).bind fun r =>
        (Proc.done (kingDo (K ⟨0, hn⟩) r)).bind fun a => clientReceiveOrKingSendSer n 0 a sid) _ _ _
    refine .gather _ _ _ _ (fun i => Wire.enc (x i)) (R := fun _ => []) (by intro i b _ h; cases h) ?_ ?_ ?_
    · intro i h1 h2 h3 _
      simp only
      rw [if_pos ⟨trivial, h1, h2, h3⟩]
    · intro i s hs
      simp only
      rw [if_neg fun h => hs ⟨h.1, h.2.1, h.2.2.1, h.2.2.2, rfl⟩]
    · intro got L hgot hfull hL
      -- what the king computes with
      have hwhat : (∃ e, (((Proc.done ((kingFinish n L).map some)).bind fun r =>
            .done (decodeReceived (T := T) n threshold r)) : Proc (Option (ReceivedShares T))) = .done (.error e)) ∨
          ∃ z : Nat → T, (∀ i < n, ¬ bad i → z i = x i) ∧ ∃ parties, Responders n threshold parties ∧
            (∀ i < n, ¬ bad i → i ∈ parties) ∧ (((Proc.done ((kingFinish n L).map some)).bind fun r =>
              .done (decodeReceived (T := T) n threshold r)) : Proc (Option (ReceivedShares T))) =
              .done (.ok (some ⟨parties.map z, parties⟩)) := by
        rw [show ((Proc.done ((kingFinish n L).map some)).bind fun r => .done (decodeReceived (T := T) n threshold r)) =
          .done ((kingFinish n L).map some >>= decodeReceived (T := T) n threshold) by
            cases kingFinish n L <;> rfl]
        rcases received_robust hn threshold x hx hbad hgot hfull hL with ⟨e, h⟩ | ⟨z, h1, parties, h2, h3, h4⟩
        · exact Or.inl ⟨e, by rw [h]⟩
        · exact Or.inr ⟨z, h1, parties, h2, h3, by rw [h4]⟩
      rcases hwhat with ⟨e, h⟩ | ⟨z, hzx, parties, hresp, hmem, h⟩
      · rw [h]; exact .dead _ _ _ _
      rw [h]
      show Kg bad n (Proc.bind (.done (kingDo (K ⟨0, hn⟩) (some ⟨parties.map z, parties⟩))) fun a => clientReceiveOrKingSendSer n 0 a sid) _ _ _
      simp only [kingDo]
      cases hKz : K ⟨0, hn⟩ ⟨parties.map z, parties⟩ with
      | error e => exact .dead _ _ _ _
      | ok answers =>
        have ha := hK z hzx parties hresp hmem answers hKz
        show Kg bad n (clientReceiveOrKingSendSer n 0 (some answers) sid) _ _ _
        unfold clientReceiveOrKingSendSer clientReceiveOrKingSend
        simp only [Option.map_some, ne_eq, not_true_eq_false, if_false]
        show Kg bad n (Proc.bind (Proc.bind (.done (rd (answers.map Wire.enc) 0)) _) _) _ _ _
        have h0 : (answers.map Wire.enc)[0]? = some (Wire.enc (ans 0)) := by
          rw [List.getElem?_map, ha 0 hn hbad]; rfl
        have hrd : rd (answers.map Wire.enc) 0 = .ok (Wire.enc (ans 0)) := by unfold rd; rw [h0]
        rw [hrd]
        simp only [Proc.bind]
        rw [Proc.bind_eq, Proc.bind_assoc]
        refine kg_loop _ _ _ (fun i => Wire.enc (ans i)) _ (R := fun _ => []) (S := fun _ => []) ?_ _ (List.nodup_range.filter _) ?_ ?_ ?_
        · show Kg bad n (.done (decodeOrError (T := U) (Wire.enc (ans 0)))) _ _ _
          unfold decodeOrError
          rw [show Wire.dec (T := U) (Wire.enc (ans 0)) = some (ans 0) from hans 0 hn hbad]
          exact .done _ rfl rfl
        · intro i hi hb c hc
          have hi := (List.mem_range.1 (List.mem_filter.1 hi).1)
          rw [List.getElem?_map, ha i hi hb] at hc
          cases hc; rfl
        · intro i hi hb
          have hi1 := (List.mem_range.1 (List.mem_filter.1 hi).1)
          have hi2 : i ≠ 0 := by simpa using (List.mem_filter.1 hi).2
          simp only
          rw [if_pos ⟨trivial, by omega, hi1, hb⟩]
        · intro i s hs
          simp only
          rw [if_neg fun h => hs ⟨h.1, List.mem_filter.2 ⟨List.mem_range.2 h.2.2.1, by simp; omega⟩, h.2.2.2⟩]
  · intro i hi hb
    unfold clientSendOrKingReceiveSer clientSendOrKingReceive
    simp only [if_neg hi]
    show Cl (Proc.send 0 sid (Wire.enc (x i)) (clientReceiveOrKingSendSer n i none sid)) _ _ _
    unfold clientReceiveOrKingSendSer clientReceiveOrKingSend
    simp only [Option.map_none, if_neg hi]
    refine .send _ _ _ (O := fun _ => []) (.recv sid _ (Wire.enc (ans i)) (I := fun _ => []) ?_ ?_) ?_
    · show Cl (.done (decodeOrError (T := U) (Wire.enc (ans i)))) _ _ _
      unfold decodeOrError
      rw [show Wire.dec (T := U) (Wire.enc (ans i)) = some (ans i) from hans i i.isLt hb]
      exact .done _ rfl rfl
    · funext s
      by_cases hs : s = sid
      · subst hs
        rw [Function.update_self, if_pos ⟨rfl, by omega, i.isLt, hb⟩]
      · rw [Function.update_of_ne hs, if_neg fun h => hs h.1]
    · funext s
      by_cases hs : s = sid
      · subst hs
        rw [Function.update_self, if_pos ⟨rfl, by omega, i.isLt, hb⟩]
      · rw [Function.update_of_ne hs, if_neg fun h => hs h.1]

end comb

end ZkSaas
