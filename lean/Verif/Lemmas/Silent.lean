import Verif.Lemmas.Session
import Verif.Spec.Silent
import Mathlib.Algebra.Group.Even
import Mathlib.Algebra.Group.Nat.Even
import Mathlib.Algebra.Order.BigOperators.Group.Finset

/-! Protocols in which some clients fall silent.

`Ds` describes what a party that follows a protocol will still send and receive, and in which order: every message has a time,
even for the messages to the king, odd for those from the king. The parties' descriptions fit together, which excludes deadlocks;
their weights bound the number of steps. -/

set_option linter.unusedSectionVars false

namespace ZkSaas

open Spec

variable {n : Nat} {α β γ : Type}

/-- Messages with their times. -/
abbrev Ev := List (Nat × Bytes)

/-- What a party sends (`true`) to and receives (`false`) from a party on a stream. -/
abbrev Chan := Bool × Nat × Sid

/-- The number of messages a gather is waiting for. -/
def missing (n : Nat) (got : Nat → Option Bytes) : Nat := ((Finset.range n).filter fun i => (got i).isNone).card

theorem missing_update {got : Nat → Option Bytes} {i : Nat} (hi : i < n) (h : got i = none) (b : Bytes) :
    missing n (Function.update got i (some b)) < missing n got := by
  apply Finset.card_lt_card
  refine ⟨?_, ?_⟩
  · intro j hj
    simp only [Finset.mem_filter, Finset.mem_range] at hj ⊢
    refine ⟨hj.1, ?_⟩
    by_cases hji : j = i
    · subst hji; rw [h]; rfl
    · rw [Function.update_of_ne hji] at hj; exact hj.2
  · intro hsub
    have := hsub (x := i) (by simp [hi, h])
    simp at this

/-- A party that will send and receive `D`, in at most `w` steps, and end with `v`. If it is the king, it may do without the
messages of the parties in `S`. -/
inductive Ds (S : Nat → Prop) (n : Nat) : {α : Type} → Proc α → (Chan → Ev) → Nat → α → Prop where
  | done {α : Type} (v : α) {D : Chan → Ev} (hD : D = fun _ => []) : Ds S n (.done (.ok v)) D 0 v
  | send {α : Type} (d : Nat) (s : Sid) (b : Bytes) (k : Proc α) (τ w : Nat) {D D' : Chan → Ev} {v : α} (hτ : Even τ ↔ d = 0)
      (h : Ds S n k D w v) (hlt : ∀ x, ∀ e ∈ D x, τ < e.1)
      (hD : D' = Function.update D (true, d, s) ((τ, b) :: D (true, d, s))) : Ds S n (.send d s b k) D' (w + 1) v
  | recv {α : Type} (s : Sid) (k : Bytes → Proc α) (b : Bytes) (τ w : Nat) {D D' : Chan → Ev} {v : α} (hτ : ¬ Even τ)
      (h : Ds S n (k b) D w v) (hlt : ∀ x, ∀ e ∈ D x, τ < e.1)
      (hD : D' = Function.update D (false, 0, s) ((τ, b) :: D (false, 0, s))) : Ds S n (.recv 0 s k) D' (w + 1) v
  | gather {α : Type} (s : Sid) (own : Bytes) (got : Nat → Option Bytes) (k : List (Nat × Bytes) → Proc α) (msg : Nat → Bytes)
      (τ w w' : Nat) {D D' : Chan → Ev} {v : α} (hτ : Even τ) (hgot : ∀ i b, got i = some b → b = msg i)
      (h1 : ∀ i, 1 ≤ i → i < n → got i = none → D' (false, i, s) = (τ, msg i) :: D (false, i, s))
      (h2 : ∀ c : Chan, ¬ (∃ i, c = (false, i, s) ∧ 1 ≤ i ∧ i < n ∧ got i = none) → D' c = D c)
      (hlt : ∀ i, 1 ≤ i → i < n → got i = none → ∀ x, ∀ e ∈ D x, τ < e.1) (hw : w + missing n got + 1 ≤ w')
      (hk : ∀ got' L, (∀ i b, got' i = some b → b = msg i) → (∀ i, 1 ≤ i → i < n → ¬ S i → got' i ≠ none) →
        Enumerates n own got' L → Ds S n (k L) D w v) : Ds S n (.gather s n own got k) D' w' v
  | par {α β γ : Type} (x : Proc β) (y : Proc γ) (k : β → γ → Proc α) (w1 w2 w3 : Nat) {D D1 D2 D3 : Chan → Ev} {r : β} {s : γ} {v : α}
      (hp : Ds S n x D1 w1 r) (hq : Ds S n y D2 w2 s) (hk : Ds S n (k r s) D3 w3 v)
      (hdis : ∀ c, D1 c = [] ∨ D2 c = [])
      (hlt1 : ∀ c c', ∀ e ∈ D1 c, ∀ e' ∈ D3 c', e.1 < e'.1) (hlt2 : ∀ c c', ∀ e ∈ D2 c, ∀ e' ∈ D3 c', e.1 < e'.1)
      (hD : D = fun c => D1 c ++ (D2 c ++ D3 c)) : Ds S n (.par x y k) D (w1 + w2 + w3 + 1) v

/-- What a step of a party does to its description. -/
def DsStep (S : Nat → Prop) (n : Nat) (P' : Proc α) (D : Chan → Ev) (w : Nat) (v : α) : Act → Prop
  | .tau => ∃ w', w' < w ∧ Ds S n P' D w' v
  | .send d s b => ∃ τ rest w', w' < w ∧ D (true, d, s) = (τ, b) :: rest ∧ Ds S n P' (Function.update D (true, d, s) rest) w' v
  | .recv f s b => ∃ τ b' rest w', w' < w ∧ D (false, f, s) = (τ, b') :: rest ∧
      (b = b' → Ds S n P' (Function.update D (false, f, s) rest) w' v)
  | .abort => False
  | .fault => True

theorem mem_of_update {D : Chan → Ev} {c : Chan} {e0 : Nat × Bytes} {rest : Ev} (h : D c = e0 :: rest) {c' : Chan} {e : Nat × Bytes}
    (he : e ∈ Function.update D c rest c') : e ∈ D c' := by
  by_cases hc : c' = c
  · subst hc
    rw [Function.update_self] at he
    rw [h]
    exact List.mem_cons_of_mem _ he
  · rwa [Function.update_of_ne hc] at he

theorem nil_of_update {D : Chan → Ev} {c : Chan} {e0 : Nat × Bytes} {rest : Ev} (h : D c = e0 :: rest) {c' : Chan} (h' : D c' = []) :
    Function.update D c rest c' = [] := by
  rw [Function.update_of_ne]
  · exact h'
  · rintro rfl
    rw [h] at h'; cases h'

theorem update_head (D : Chan → Ev) (c : Chan) (e : Nat × Bytes) :
    Function.update (Function.update D c (e :: D c)) c (D c) = D := by
  rw [Function.update_idem, Function.update_eq_self]

theorem Ds.step {S : Nat → Prop} {P P' : Proc α} {a : Act} (hs : LStep P a P') {D : Chan → Ev} {w : Nat} {v : α}
    (h : Ds S n P D w v) : DsStep S n P' D w v a := by
  induction hs generalizing D w with
  | send dst sid b k =>
    cases h with
    | send _ _ _ _ τ w hτ h hlt hD =>
      subst hD
      exact ⟨τ, _, w, by omega, Function.update_self .., by rw [update_head]; exact h⟩
  | recv frm sid b k =>
    cases h with
    | recv _ _ b' τ w hτ h hlt hD =>
      subst hD
      refine ⟨τ, b', _, w, by omega, Function.update_self .., ?_⟩
      rintro rfl
      rw [update_head]; exact h
  | gatherRecv sid n' own got k i b g1 g2 g3 =>
    cases h with
    | gather _ _ _ _ msg τ w0 _ hτ hgot h1 h2 hlt hw hk =>
      rename_i D0
      have hm := missing_update g2 g3 b
      refine ⟨τ, msg i, D0 (false, i, sid), w - 1, by omega, h1 i g1 g2 g3, ?_⟩
      rintro rfl
      refine .gather _ _ _ _ msg τ w0 (w - 1) (D := D0) hτ ?_ ?_ ?_ (fun _ _ _ _ => hlt i g1 g2 g3) (by omega) hk
      · intro j b hj
        by_cases hji : j = i
        · subst hji
          rw [Function.update_self] at hj
          cases hj; rfl
        · rw [Function.update_of_ne hji] at hj; exact hgot j b hj
      · intro j j1 j2 j3
        have hji : j ≠ i := by rintro rfl; rw [Function.update_self] at j3; cases j3
        rw [Function.update_of_ne hji] at j3
        rw [Function.update_of_ne (by intro h; exact hji (by cases h; rfl))]
        exact h1 j j1 j2 j3
      · intro c hc
        by_cases hci : c = (false, i, sid)
        · subst hci; rw [Function.update_self]
        · rw [Function.update_of_ne hci]
          refine h2 c ?_
          rintro ⟨j, rfl, j1, j2, j3⟩
          refine hc ⟨j, rfl, j1, j2, ?_⟩
          rw [Function.update_of_ne (by rintro rfl; exact hci rfl)]
          exact j3
  | gatherDone sid n' own got k L hfull hL =>
    cases h with
    | gather _ _ _ _ msg τ w0 _ hτ hgot h1 h2 hlt hw hk =>
      rename_i D0
      refine ⟨w0, by omega, ?_⟩
      obtain rfl : D = D0 := by
        funext c
        refine h2 c ?_
        rintro ⟨i, -, i1, i2, i3⟩
        exact hfull i i1 i2 i3
      exact hk got L hgot (fun i i1 i2 _ => hfull i i1 i2) hL
  | gatherExpire => trivial
  | sendFail => trivial
  | recvFail => trivial
  | parL x x' y k a h' ih =>
    cases h with
    | par _ _ _ w1 w2 w3 hp hq hk hdis hlt1 hlt2 hD =>
      rename_i D1 D2 D3 r s
      subst hD
      have := ih hp
      cases a with
      | tau =>
        obtain ⟨w', hw, h⟩ := this
        exact ⟨w' + w2 + w3 + 1, by omega, .par _ _ _ _ _ _ h hq hk hdis hlt1 hlt2 rfl⟩
      | send d sd b =>
        obtain ⟨τ, rest, w', hw, e, h⟩ := this
        refine ⟨τ, rest ++ (D2 (true, d, sd) ++ D3 (true, d, sd)), w' + w2 + w3 + 1, by omega, by simp only [e]; rfl, .par _ _ _ _ _ _ h hq hk ?_ ?_ hlt2 ?_⟩
        · intro c
          rcases hdis c with h | h
          · exact Or.inl (nil_of_update e h)
          · exact Or.inr h
        · intro c c' e1 he1 e2 he2
          exact hlt1 c c' e1 (mem_of_update e he1) e2 he2
        · funext c
          by_cases hc : c = (true, d, sd)
          · subst hc; simp only [Function.update_self]
          · simp only [Function.update_of_ne hc]
      | recv d sd b =>
        obtain ⟨τ, b', rest, w', hw, e, h⟩ := this
        refine ⟨τ, b', rest ++ (D2 (false, d, sd) ++ D3 (false, d, sd)), w' + w2 + w3 + 1, by omega, by simp only [e]; rfl,
          fun hb => .par _ _ _ _ _ _ (h hb) hq hk ?_ ?_ hlt2 ?_⟩
        · intro c
          rcases hdis c with h | h
          · exact Or.inl (nil_of_update e h)
          · exact Or.inr h
        · intro c c' e1 he1 e2 he2
          exact hlt1 c c' e1 (mem_of_update e he1) e2 he2
        · funext c
          by_cases hc : c = (false, d, sd)
          · subst hc; simp only [Function.update_self]
          · simp only [Function.update_of_ne hc]
      | abort => exact this.elim
      | fault => trivial
  | parR x y y' k a h' ih =>
    cases h with
    | par _ _ _ w1 w2 w3 hp hq hk hdis hlt1 hlt2 hD =>
      rename_i D1 D2 D3 r s
      subst hD
      have := ih hq
      cases a with
      | tau =>
        obtain ⟨w', hw, h⟩ := this
        exact ⟨w1 + w' + w3 + 1, by omega, .par _ _ _ _ _ _ hp h hk hdis hlt1 hlt2 rfl⟩
      | send d sd b =>
        obtain ⟨τ, rest, w', hw, e, h⟩ := this
        have e1 : D1 (true, d, sd) = [] := by
          rcases hdis (true, d, sd) with h | h
          · exact h
          · rw [e] at h; cases h
        refine ⟨τ, rest ++ D3 (true, d, sd), w1 + w' + w3 + 1, by omega, by simp only [e, e1]; rfl, .par _ _ _ _ _ _ hp h hk ?_ hlt1 ?_ ?_⟩
        · intro c
          rcases hdis c with h | h
          · exact Or.inl h
          · exact Or.inr (nil_of_update e h)
        · intro c c' e1 he1 e2 he2
          exact hlt2 c c' e1 (mem_of_update e he1) e2 he2
        · funext c
          by_cases hc : c = (true, d, sd)
          · subst hc; simp only [Function.update_self, e1, List.nil_append]
          · simp only [Function.update_of_ne hc]
      | recv d sd b =>
        obtain ⟨τ, b', rest, w', hw, e, h⟩ := this
        have e1 : D1 (false, d, sd) = [] := by
          rcases hdis (false, d, sd) with h | h
          · exact h
          · rw [e] at h; cases h
        refine ⟨τ, b', rest ++ D3 (false, d, sd), w1 + w' + w3 + 1, by omega, by simp only [e, e1]; rfl,
          fun hb => .par _ _ _ _ _ _ hp (h hb) hk ?_ hlt1 ?_ ?_⟩
        · intro c
          rcases hdis c with h | h
          · exact Or.inl h
          · exact Or.inr (nil_of_update e h)
        · intro c c' e1 he1 e2 he2
          exact hlt2 c c' e1 (mem_of_update e he1) e2 he2
        · funext c
          by_cases hc : c = (false, d, sd)
          · subst hc; simp only [Function.update_self, e1, List.nil_append]
          · simp only [Function.update_of_ne hc]
      | abort => exact this.elim
      | fault => trivial
  | join r s k =>
    cases h with
    | par _ _ _ w1 w2 w3 hp hq hk hdis hlt1 hlt2 hD =>
      cases hp with
      | done _ h1 =>
        cases hq with
        | done _ h2 =>
          subst h1 h2 hD
          exact ⟨w3, by omega, by simpa using hk⟩
  | abortL =>
    cases h with
    | par _ _ _ w1 w2 w3 hp hq hk hdis hlt1 hlt2 hD => cases hp
  | abortR =>
    cases h with
    | par _ _ _ w1 w2 w3 hp hq hk hdis hlt1 hlt2 hD => cases hq

/-- When the king stops waiting. -/
theorem Ds.givesUp {S gone : Nat → Prop} (hgone : ∀ i, 1 ≤ i → gone i → S i) {sid : Sid} {P P' : Proc α} (hs : GivesUp gone sid P P')
    {D : Chan → Ev} {w : Nat} {v : α}
    (h : Ds S n P D w v) : ∃ w' D', w' < w ∧ Ds S n P' D' w' v ∧
      ∀ c, D' c = D c ∨ ∃ i, 1 ≤ i ∧ i < n ∧ gone i ∧ c = (false, i, sid) ∧ ∃ e, D c = e :: D' c := by
  have hmem : ∀ {D D' : Chan → Ev}, (∀ c, D' c = D c ∨ ∃ i, 1 ≤ i ∧ i < n ∧ gone i ∧ c = (false, i, sid) ∧ ∃ e, D c = e :: D' c) →
      ∀ c, ∀ e ∈ D' c, e ∈ D c := by
    intro D D' h c e he
    rcases h c with h | ⟨i, -, -, -, -, e0, h⟩
    · rwa [h] at he
    · rw [h]; exact List.mem_cons_of_mem _ he
  induction hs generalizing D w with
  | expire n' own got k L hfull hL =>
    cases h with
    | gather _ _ _ _ msg τ w0 _ hτ hgot h1 h2 hlt hw hk =>
      rename_i D0
      refine ⟨w0, D0, by omega, hk got L hgot (fun i i1 i2 i3 => hfull i i1 i2 fun h => i3 (hgone i i1 h)) hL, fun c => ?_⟩
      by_cases hc : ∃ i, c = (false, i, sid) ∧ 1 ≤ i ∧ i < n ∧ got i = none
      · obtain ⟨i, rfl, i1, i2, i3⟩ := hc
        refine Or.inr ⟨i, i1, i2, ?_, rfl, _, h1 i i1 i2 i3⟩
        by_contra hng
        exact hfull i i1 i2 hng i3
      · exact Or.inl (h2 c hc).symm
  | parL x x' y k h' ih =>
    cases h with
    | par _ _ _ w1 w2 w3 hp hq hk hdis hlt1 hlt2 hD =>
      rename_i D1 D2 D3 r s
      subst hD
      obtain ⟨w', D', hw, h, hc⟩ := ih hp
      refine ⟨w' + w2 + w3 + 1, fun c => D' c ++ (D2 c ++ D3 c), by omega, .par _ _ _ _ _ _ h hq hk ?_ ?_ hlt2 rfl, ?_⟩
      · intro c
        rcases hdis c with h | h
        · refine Or.inl (List.eq_nil_iff_forall_not_mem.2 fun e he => ?_)
          have := hmem hc c e he
          rw [h] at this; cases this
        · exact Or.inr h
      · intro c c' e1 he1 e2 he2
        exact hlt1 c c' e1 (hmem hc _ _ he1) e2 he2
      · intro c
        rcases hc c with h | ⟨i, i1, i2, i3, i4, e0, h⟩
        · exact Or.inl (by simp only [h])
        · exact Or.inr ⟨i, i1, i2, i3, i4, e0, by simp only [h]; rfl⟩
  | parR x y y' k h' ih =>
    cases h with
    | par _ _ _ w1 w2 w3 hp hq hk hdis hlt1 hlt2 hD =>
      rename_i D1 D2 D3 r s
      subst hD
      obtain ⟨w', D', hw, h, hc⟩ := ih hq
      refine ⟨w1 + w' + w3 + 1, fun c => D1 c ++ (D' c ++ D3 c), by omega, .par _ _ _ _ _ _ hp h hk ?_ hlt1 ?_ rfl, ?_⟩
      · intro c
        rcases hdis c with h | h
        · exact Or.inl h
        · refine Or.inr (List.eq_nil_iff_forall_not_mem.2 fun e he => ?_)
          have := hmem hc c e he
          rw [h] at this; cases this
      · intro c c' e1 he1 e2 he2
        exact hlt2 c c' e1 (hmem hc _ _ he1) e2 he2
      · intro c
        rcases hc c with h | ⟨i, i1, i2, i3, i4, e0, h⟩
        · exact Or.inl (by simp only [h])
        · refine Or.inr ⟨i, i1, i2, i3, i4, e0, ?_⟩
          have e1 : D1 c = [] := by
            rcases hdis c with h' | h'
            · exact h'
            · rw [h] at h'; cases h'
          simp only [h, e1]; rfl

theorem Ds.bind {S : Nat → Prop} {P : Proc α} {D : Chan → Ev} {w : Nat} {r : α} (h : Ds S n P D w r) {f : α → Proc β} {D' : Chan → Ev} {w' : Nat}
    {v : β} (hf : Ds S n (f r) D' w' v) (hlt : ∀ c c', ∀ e ∈ D c, ∀ e' ∈ D' c', e.1 < e'.1) :
    Ds S n (P.bind f) (fun c => D c ++ D' c) (w + w') v := by
  induction h with
  | done v hD => subst hD; simpa [Proc.bind] using hf
  | send d s b k τ w hτ h hlt' hD ih =>
    rename_i D0 D1 v0
    subst hD
    have hm : ∀ c, ∀ e ∈ D0 c, e ∈ Function.update D0 (true, d, s) ((τ, b) :: D0 (true, d, s)) c := by
      intro c e he
      by_cases hc : c = (true, d, s)
      · subst hc; rw [Function.update_self]; exact List.mem_cons_of_mem _ he
      · rwa [Function.update_of_ne hc]
    rw [show w + 1 + w' = w + w' + 1 by omega]
    refine .send _ _ _ _ τ _ hτ (ih hf fun c c' e he e' he' => hlt c c' e (hm c e he) e' he') ?_ ?_
    · intro c e he
      rcases List.mem_append.1 he with he | he
      · exact hlt' c e he
      · exact hlt (true, d, s) c (τ, b) (by simp) e he
    · funext c
      by_cases hc : c = (true, d, s)
      · subst hc; simp only [Function.update_self]; rfl
      · simp only [Function.update_of_ne hc]
  | recv s k b τ w hτ h hlt' hD ih =>
    rename_i D0 D1 v0
    subst hD
    have hm : ∀ c, ∀ e ∈ D0 c, e ∈ Function.update D0 (false, 0, s) ((τ, b) :: D0 (false, 0, s)) c := by
      intro c e he
      by_cases hc : c = (false, 0, s)
      · subst hc; rw [Function.update_self]; exact List.mem_cons_of_mem _ he
      · rwa [Function.update_of_ne hc]
    rw [show w + 1 + w' = w + w' + 1 by omega]
    refine .recv _ _ b τ _ hτ (ih hf fun c c' e he e' he' => hlt c c' e (hm c e he) e' he') ?_ ?_
    · intro c e he
      rcases List.mem_append.1 he with he | he
      · exact hlt' c e he
      · exact hlt (false, 0, s) c (τ, b) (by simp) e he
    · funext c
      by_cases hc : c = (false, 0, s)
      · subst hc; simp only [Function.update_self]; rfl
      · simp only [Function.update_of_ne hc]
  | gather s own got k msg τ w w'' hτ hgot h1 h2 hlt' hw hk ih =>
    rename_i D0 D1 v0
    have hm : ∀ c, ∀ e ∈ D0 c, e ∈ D1 c := by
      intro c e he
      by_cases hc : ∃ i, c = (false, i, s) ∧ 1 ≤ i ∧ i < n ∧ got i = none
      · obtain ⟨i, rfl, i1, i2, i3⟩ := hc
        rw [h1 i i1 i2 i3]; exact List.mem_cons_of_mem _ he
      · rwa [h2 c hc]
    refine .gather _ _ _ _ msg τ (w + w') _ (D := fun c => D0 c ++ D' c) hτ hgot ?_ ?_ ?_ (by omega) ?_
    · intro i i1 i2 i3
      simp only [h1 i i1 i2 i3]; rfl
    · intro c hc
      simp only [h2 c hc]
    · intro i i1 i2 i3 c e he
      rcases List.mem_append.1 he with he | he
      · exact hlt' i i1 i2 i3 c e he
      · exact hlt (false, i, s) c (τ, msg i) (by rw [h1 i i1 i2 i3]; simp) e he
    · intro got' L g1 g2 g3
      exact ih got' L g1 g2 g3 hf fun c c' e he e' he' => hlt c c' e (hm c e he) e' he'
  | par x y k w1 w2 w3 hp hq hk hdis hlt1 hlt2 hD ihp ihq ihk =>
    rename_i D0 D1 D2 D3 r0 s0 v0
    subst hD
    rw [show w1 + w2 + w3 + 1 + w' = w1 + w2 + (w3 + w') + 1 by omega]
    refine .par _ _ _ _ _ _ hp hq (ihk hf fun c c' e he e' he' => hlt c c' e (by simp [he]) e' he') hdis ?_ ?_ ?_
    · intro c c' e he e' he'
      rcases List.mem_append.1 he' with he' | he'
      · exact hlt1 c c' e he e' he'
      · exact hlt c c' e (by simp [he]) e' he'
    · intro c c' e he e' he'
      rcases List.mem_append.1 he' with he' | he'
      · exact hlt2 c c' e he e' he'
      · exact hlt c c' e (by simp [he]) e' he'
    · funext c
      simp only [List.append_assoc]

/-! ### Progress -/

theorem enumerates_exists (n : Nat) (own : Bytes) (got : Nat → Option Bytes) : ∃ L, Enumerates n own got L := by
  refine ⟨(0, own) :: (((List.range n).filter fun i => decide (1 ≤ i) && (got i).isSome).map fun i => (i, (got i).getD [])), ?_, ?_⟩
  · rw [List.map_cons, List.map_map]
    have : (Prod.fst ∘ fun i => (i, (got i).getD [])) = id := rfl
    rw [this, List.map_id]
    refine List.nodup_cons.2 ⟨?_, List.nodup_range.filter _⟩
    simp
  · intro i b
    simp only [List.mem_cons, Prod.mk.injEq, List.mem_map, List.mem_filter, List.mem_range, Bool.and_eq_true, decide_eq_true_eq]
    constructor
    · rintro (h | ⟨j, ⟨h1, h2, h3⟩, rfl, rfl⟩)
      · exact Or.inl h
      · obtain ⟨c, hc⟩ := Option.isSome_iff_exists.1 h3
        exact Or.inr ⟨h2, h1, by rw [hc]; rfl⟩
    · rintro (h | ⟨h1, h2, h3⟩)
      · exact Or.inl h
      · exact Or.inr ⟨i, ⟨h2, h1, by rw [h3]; rfl⟩, rfl, by rw [h3]; rfl⟩

/-- What a party can do next if the first message of its description is at time `τ`. -/
def Can (n : Nat) (P : Proc α) (D : Chan → Ev) (τ : Nat) : Prop :=
  (∃ d s b rest P', (Even τ ↔ d = 0) ∧ D (true, d, s) = (τ, b) :: rest ∧ LStep P (.send d s b) P') ∨
  (∃ s b rest, ¬ Even τ ∧ D (false, 0, s) = (τ, b) :: rest ∧ ∀ b, ∃ P', LStep P (.recv 0 s b) P') ∨
  ∃ s, ∃ W : Nat → Prop, Even τ ∧ (∃ i, W i) ∧ (∀ i, W i → 1 ≤ i ∧ i < n ∧ (∃ b rest, D (false, i, s) = (τ, b) :: rest) ∧
    ∀ b, ∃ P', LStep P (.recv i s b) P') ∧ ∀ gone : Nat → Prop, (∀ i, W i → gone i) → ∃ P', GivesUp gone s P P'

theorem Can.mem {P : Proc α} {D : Chan → Ev} {τ : Nat} (h : Can n P D τ) : ∃ c b, (τ, b) ∈ D c := by
  rcases h with ⟨d, s, b, rest, P', -, h, -⟩ | ⟨s, b, rest, -, h, -⟩ | ⟨s, W, -, ⟨i, hi⟩, h, -⟩
  · exact ⟨_, b, by rw [h]; simp⟩
  · exact ⟨_, b, by rw [h]; simp⟩
  · obtain ⟨-, -, ⟨b, rest, h⟩, -⟩ := h i hi
    exact ⟨_, b, by rw [h]; simp⟩

theorem Ds.ready {S : Nat → Prop} {P : Proc α} {D : Chan → Ev} {w : Nat} {v : α} (h : Ds S n P D w v) :
    (P = .done (.ok v) ∧ D = fun _ => []) ∨ (∃ P', LStep P .tau P') ∨
    ∃ τ, (∀ c, ∀ e ∈ D c, τ ≤ e.1) ∧ Can n P D τ := by
  induction h with
  | done v hD => exact Or.inl ⟨rfl, hD⟩
  | send d s b k τ w hτ h hlt hD ih =>
    subst hD
    refine Or.inr (Or.inr ⟨τ, ?_, Or.inl ⟨d, s, b, _, k, hτ, Function.update_self .., .send _ _ _ _⟩⟩)
    intro c e he
    by_cases hc : c = (true, d, s)
    · subst hc
      rw [Function.update_self] at he
      rcases List.mem_cons.1 he with rfl | he
      · exact le_rfl
      · exact (hlt _ _ he).le
    · rw [Function.update_of_ne hc] at he; exact (hlt _ _ he).le
  | recv s k b τ w hτ h hlt hD ih =>
    subst hD
    refine Or.inr (Or.inr ⟨τ, ?_, Or.inr (Or.inl ⟨s, b, _, hτ, Function.update_self .., fun b => ⟨_, .recv _ _ _ _⟩⟩)⟩)
    intro c e he
    by_cases hc : c = (false, 0, s)
    · subst hc
      rw [Function.update_self] at he
      rcases List.mem_cons.1 he with rfl | he
      · exact le_rfl
      · exact (hlt _ _ he).le
    · rw [Function.update_of_ne hc] at he; exact (hlt _ _ he).le
  | gather s own got k msg τ w w' hτ hgot h1 h2 hlt hw hk ih =>
    rename_i D0 D1 v0
    by_cases hW : ∃ i, 1 ≤ i ∧ i < n ∧ got i = none
    · obtain ⟨j, j1, j2, j3⟩ := hW
      refine Or.inr (Or.inr ⟨τ, ?_, Or.inr (Or.inr ⟨s, fun i => 1 ≤ i ∧ i < n ∧ got i = none, hτ, ⟨j, j1, j2, j3⟩, ?_, ?_⟩)⟩)
      · intro c e he
        by_cases hc : ∃ i, c = (false, i, s) ∧ 1 ≤ i ∧ i < n ∧ got i = none
        · obtain ⟨i, rfl, i1, i2, i3⟩ := hc
          rw [h1 i i1 i2 i3] at he
          rcases List.mem_cons.1 he with rfl | he
          · exact le_rfl
          · exact (hlt j j1 j2 j3 _ _ he).le
        · rw [h2 c hc] at he; exact (hlt j j1 j2 j3 _ _ he).le
      · rintro i ⟨i1, i2, i3⟩
        exact ⟨i1, i2, ⟨_, _, h1 i i1 i2 i3⟩, fun b => ⟨_, .gatherRecv _ _ _ _ _ _ _ i1 i2 i3⟩⟩
      · intro gone hall
        obtain ⟨L, hL⟩ := enumerates_exists n own got
        exact ⟨_, .expire _ _ _ _ L (fun i i1 i2 i3 i4 => i3 (hall i ⟨i1, i2, i4⟩)) hL⟩
    · obtain ⟨L, hL⟩ := enumerates_exists n own got
      exact Or.inr (Or.inl ⟨_, .gatherDone _ _ _ _ _ L (fun i i1 i2 i3 => hW ⟨i, i1, i2, i3⟩) hL⟩)
  | par x y k w1 w2 w3 hp hq hk hdis hlt1 hlt2 hD ihp ihq ihk =>
    rename_i D0 D1 D2 D3 r0 s0 v0
    subst hD
    -- lifting what a branch can do
    have hL : ∀ τ, Can n x D1 τ → Can n (.par x y k) (fun c => D1 c ++ (D2 c ++ D3 c)) τ := by
      intro τ h
      rcases h with ⟨d, s, b, rest, P', he, h, hs⟩ | ⟨s, b, rest, he, h, hs⟩ | ⟨s, W, he, hne, h, hs⟩
      · exact Or.inl ⟨d, s, b, rest ++ (D2 (true, d, s) ++ D3 (true, d, s)), _, he, by simp only [h]; rfl, .parL _ _ _ _ _ hs⟩
      · refine Or.inr (Or.inl ⟨s, b, rest ++ (D2 (false, 0, s) ++ D3 (false, 0, s)), he, by simp only [h]; rfl, fun b => ?_⟩)
        obtain ⟨P', h'⟩ := hs b
        exact ⟨_, .parL _ _ _ _ _ h'⟩
      · refine Or.inr (Or.inr ⟨s, W, he, hne, fun i hi => ?_, fun gone hall => ?_⟩)
        · obtain ⟨i1, i2, ⟨b, rest, i3⟩, i4⟩ := h i hi
          refine ⟨i1, i2, ⟨b, rest ++ (D2 (false, i, s) ++ D3 (false, i, s)), by simp only [i3]; rfl⟩, fun b => ?_⟩
          obtain ⟨P', h'⟩ := i4 b
          exact ⟨_, .parL _ _ _ _ _ h'⟩
        · obtain ⟨P', h'⟩ := hs gone hall
          exact ⟨_, .parL _ _ _ _ h'⟩
    have hR : ∀ τ, Can n y D2 τ → Can n (.par x y k) (fun c => D1 c ++ (D2 c ++ D3 c)) τ := by
      intro τ h
      have hnil : ∀ c e rest, D2 c = e :: rest → D1 c = [] := by
        intro c e rest h
        rcases hdis c with h' | h'
        · exact h'
        · rw [h] at h'; cases h'
      rcases h with ⟨d, s, b, rest, P', he, h, hs⟩ | ⟨s, b, rest, he, h, hs⟩ | ⟨s, W, he, hne, h, hs⟩
      · exact Or.inl ⟨d, s, b, rest ++ D3 (true, d, s), _, he, by simp only [hnil _ _ _ h, h]; rfl, .parR _ _ _ _ _ hs⟩
      · refine Or.inr (Or.inl ⟨s, b, rest ++ D3 (false, 0, s), he, by simp only [hnil _ _ _ h, h]; rfl, fun b => ?_⟩)
        obtain ⟨P', h'⟩ := hs b
        exact ⟨_, .parR _ _ _ _ _ h'⟩
      · refine Or.inr (Or.inr ⟨s, W, he, hne, fun i hi => ?_, fun gone hall => ?_⟩)
        · obtain ⟨i1, i2, ⟨b, rest, i3⟩, i4⟩ := h i hi
          refine ⟨i1, i2, ⟨b, rest ++ D3 (false, i, s), by simp only [hnil _ _ _ i3, i3]; rfl⟩, fun b => ?_⟩
          obtain ⟨P', h'⟩ := i4 b
          exact ⟨_, .parR _ _ _ _ _ h'⟩
        · obtain ⟨P', h'⟩ := hs gone hall
          exact ⟨_, .parR _ _ _ _ h'⟩
    rcases ihp with ⟨rfl, rfl⟩ | ⟨P', h⟩ | ⟨τ1, hmin1, hc1⟩
    · rcases ihq with ⟨rfl, rfl⟩ | ⟨P', h⟩ | ⟨τ2, hmin2, hc2⟩
      · exact Or.inr (Or.inl ⟨_, .join _ _ _⟩)
      · exact Or.inr (Or.inl ⟨_, .parR _ _ _ _ _ h⟩)
      · refine Or.inr (Or.inr ⟨τ2, ?_, hR τ2 hc2⟩)
        intro c e he
        simp only [List.nil_append, List.mem_append] at he
        rcases he with he | he
        · exact hmin2 c e he
        · obtain ⟨c', b, hm⟩ := hc2.mem
          exact (hlt2 _ _ _ hm _ he).le
    · exact Or.inr (Or.inl ⟨_, .parL _ _ _ _ _ h⟩)
    · obtain ⟨c1, b1, hm1⟩ := hc1.mem
      rcases ihq with ⟨rfl, rfl⟩ | ⟨P', h⟩ | ⟨τ2, hmin2, hc2⟩
      · refine Or.inr (Or.inr ⟨τ1, ?_, hL τ1 hc1⟩)
        intro c e he
        simp only [List.nil_append, List.mem_append] at he
        rcases he with he | he
        · exact hmin1 c e he
        · exact (hlt1 _ _ _ hm1 _ he).le
      · exact Or.inr (Or.inl ⟨_, .parR _ _ _ _ _ h⟩)
      · obtain ⟨c2, b2, hm2⟩ := hc2.mem
        rcases le_total τ1 τ2 with hle | hle
        · refine Or.inr (Or.inr ⟨τ1, ?_, hL τ1 hc1⟩)
          intro c e he
          simp only [List.mem_append] at he
          rcases he with he | he | he
          · exact hmin1 c e he
          · exact hle.trans (hmin2 c e he)
          · exact (hlt1 _ _ _ hm1 _ he).le
        · refine Or.inr (Or.inr ⟨τ2, ?_, hR τ2 hc2⟩)
          intro c e he
          simp only [List.mem_append] at he
          rcases he with he | he | he
          · exact hle.trans (hmin1 c e he)
          · exact hmin2 c e he
          · exact (hlt2 _ _ _ hm2 _ he).le

theorem Ds.pos {S : Nat → Prop} {P : Proc α} {D : Chan → Ev} {w : Nat} {v : α} (h : Ds S n P D w v) (hd : ∀ r, P ≠ .done r) : 0 < w := by
  cases h with
  | done => exact absurd rfl (hd _)
  | send => omega
  | recv => omega
  | gather => omega
  | par => omega

/-! ### The network -/

/-- The queue and the sender's description are what the receiver's description says. -/
def Fits (R S : Ev) (q : List Bytes) : Prop := ∃ A, R = A ++ S ∧ A.map Prod.snd = q

/-- The invariant. -/
def SilentInv (hn : 0 < n) (S : Nat → Prop) (rs : Fin n → α) (D : Fin n → Chan → Ev) (w : Fin n → Nat) (c : Net n α) : Prop :=
  Ds S n (c.procs ⟨0, hn⟩) (D ⟨0, hn⟩) (w ⟨0, hn⟩) (rs ⟨0, hn⟩) ∧ (∀ f s, (f = 0 ∨ n ≤ f) → D ⟨0, hn⟩ (false, f, s) = []) ∧
  ∀ i : Fin n, i.val ≠ 0 →
    (Ds S n (c.procs i) (D i) (w i) (rs i) ∧ (∀ f s, f ≠ 0 → D i (false, f, s) = []) ∧
      (∀ s, Fits (D ⟨0, hn⟩ (false, i, s)) (D i (true, 0, s)) (c.queues (i, 0, s))) ∧
      ∀ s, Fits (D i (false, 0, s)) (D ⟨0, hn⟩ (true, i, s)) (c.queues (0, i, s))) ∨
    (S i ∧ (∃ e, c.procs i = .done (.error e)) ∧
      ∀ s, ∃ X, Fits (D ⟨0, hn⟩ (false, i, s)) X (c.queues (i, 0, s)))

theorem Fits.send {R S rest : Ev} {q : List Bytes} {τ : Nat} {b : Bytes} (h : Fits R S q) (hS : S = (τ, b) :: rest) : Fits R rest (q ++ [b]) := by
  obtain ⟨A, hA, hq⟩ := h
  subst hS
  exact ⟨A ++ [(τ, b)], by rw [hA]; simp, by rw [List.map_append, hq]; rfl⟩

theorem Fits.recv {R S rest : Ev} {q q' : List Bytes} {τ : Nat} {b b' : Bytes} (h : Fits R S q) (hq : q = b :: q') (hR : R = (τ, b') :: rest) :
    b = b' ∧ Fits rest S q' := by
  obtain ⟨A, hA, hA'⟩ := h
  subst hq hR
  cases A with
  | nil => cases hA'
  | cons a A =>
    rw [List.cons_append] at hA
    obtain ⟨rfl, rfl⟩ := List.cons.inj hA
    rw [List.map_cons] at hA'
    obtain ⟨rfl, rfl⟩ := List.cons.inj hA'
    exact ⟨rfl, A, rfl, rfl⟩

theorem sum_update_lt {w : Fin n → Nat} {i : Fin n} {m : Nat} (h : m < w i) : ∑ j, Function.update w i m j < ∑ j, w j := by
  refine Finset.sum_lt_sum (fun j _ => ?_) ⟨i, Finset.mem_univ _, by rwa [Function.update_self]⟩
  by_cases hj : j = i
  · subst hj; rw [Function.update_self]; exact h.le
  · rw [Function.update_of_ne hj]

theorem silentInv_step (hn : 0 < n) {S : Nat → Prop} (hS : ¬ S 0) {rs : Fin n → α} {D : Fin n → Chan → Ev} {w : Fin n → Nat} {c c' : Net n α}
    (hinv : SilentInv hn S rs D w c) (h : SilentStep S c c') :
    ∃ D' w', SilentInv hn S rs D' w' c' ∧ ∑ i, w' i < ∑ i, w i := by
  obtain ⟨hking, hk0, hcl⟩ := hinv
  cases h with
  | stop p hSp e hnd =>
    have hp : p.val ≠ 0 := by intro h; rw [h] at hSp; exact hS hSp
    have hpw : 0 < w p := by
      rcases hcl p hp with ⟨h, -⟩ | ⟨-, ⟨e, h⟩, -⟩
      · exact h.pos hnd
      · exact absurd h (hnd _)
    have h0p : (⟨0, hn⟩ : Fin n) ≠ p := by intro h; exact hp (by rw [← h])
    refine ⟨D, Function.update w p 0, ⟨?_, hk0, ?_⟩, sum_update_lt hpw⟩
    · simp only [Function.update_of_ne h0p]
      exact hking
    · intro i hi
      by_cases hip : i = p
      · subst hip
        refine Or.inr ⟨hSp, ⟨e, by simp only [Function.update_self]⟩, fun s => ?_⟩
        rcases hcl i hi with ⟨-, -, h, -⟩ | ⟨-, -, h⟩
        · exact ⟨_, h s⟩
        · exact h s
      · simp only [Function.update_of_ne hip]
        exact hcl i hi
  | move h =>
    cases h with
    | giveUp sid king hkv x' hgu =>
      obtain rfl : king = ⟨0, hn⟩ := Fin.ext hkv
      have hgone : ∀ i, 1 ≤ i → Gone c sid i → S i := by
        rintro i hi ⟨h, ⟨e, he⟩, -⟩
        rcases hcl ⟨i, h⟩ (by simp only; omega) with ⟨h1, -⟩ | ⟨h1, -⟩
        · rw [he] at h1; cases h1
        · exact h1
      obtain ⟨w', D', hw, hD, hch⟩ := Ds.givesUp hgone hgu hking
      refine ⟨Function.update D ⟨0, hn⟩ D', Function.update w ⟨0, hn⟩ w', ⟨?_, ?_, ?_⟩, sum_update_lt hw⟩
      · simp only [Function.update_self]; exact hD
      · intro f s hf
        rw [Function.update_self]
        rcases hch (false, f, s) with h | ⟨i, i1, i2, -, h, -⟩
        · rw [h]; exact hk0 f s hf
        · cases h; omega
      · intro i hi
        have hi0 : i ≠ ⟨0, hn⟩ := by rintro rfl; exact hi rfl
        simp only [Function.update_self, Function.update_of_ne hi0]
        rcases hcl i hi with ⟨h1, h2, h3, h4⟩ | ⟨hSi, h2, h3⟩
        · refine Or.inl ⟨h1, h2, fun s => ?_, fun s => ?_⟩
          · rcases hch (false, i, s) with h | ⟨j, -, -, ⟨hj, ⟨e, he⟩, -⟩, h, -⟩
            · rw [h]; exact h3 s
            · cases h
              rw [he] at h1; cases h1
          · rcases hch (true, i, s) with h | ⟨j, -, -, -, h, -⟩
            · rw [h]; exact h4 s
            · cases h
        · refine Or.inr ⟨hSi, h2, fun s => ?_⟩
          rcases hch (false, i, s) with h | ⟨j, -, -, ⟨hj, -, hq⟩, h, -⟩
          · rw [h]; exact h3 s
          · cases h
            exact ⟨_, [], rfl, hq.symm⟩
    | run h =>
      cases h with
      | mk procs Q Q' i a p' ha hstep hq =>
        by_cases hi : i.val = 0
        · obtain rfl : i = ⟨0, hn⟩ := Fin.ext hi
          have hs := hking.step hstep
          cases a with
          | tau =>
            cases hq
            obtain ⟨w', hw, h⟩ := hs
            refine ⟨D, Function.update w ⟨0, hn⟩ w', ⟨by simpa only [Function.update_self] using h, hk0, ?_⟩, sum_update_lt hw⟩
            intro j hj
            have hj0 : j ≠ ⟨0, hn⟩ := by rintro rfl; exact hj rfl
            simp only [Function.update_of_ne hj0]
            exact hcl j hj
          | abort => exact hs.elim
          | fault => exact absurd rfl ha
          | send d s b =>
            obtain ⟨τ, rest, w', hw, e, h⟩ := hs
            cases hq
            refine ⟨Function.update D ⟨0, hn⟩ (Function.update (D ⟨0, hn⟩) (true, d, s) rest), Function.update w ⟨0, hn⟩ w',
              ⟨by simpa only [Function.update_self] using h, ?_, ?_⟩, sum_update_lt hw⟩
            · intro f s' hf
              rw [Function.update_self, Function.update_of_ne (by intro h; cases h)]
              exact hk0 f s' hf
            · intro j hj
              have hj0 : j ≠ ⟨0, hn⟩ := by rintro rfl; exact hj rfl
              simp only [Function.update_self, Function.update_of_ne hj0]
              have hq1 : ∀ s', Function.update Q (0, d, s) (Q (0, d, s) ++ [b]) (j.val, 0, s') = Q (j, 0, s') := by
                intro s'
                rw [Function.update_of_ne (by intro h; exact hj (congrArg Prod.fst h))]
              rcases hcl j hj with ⟨h1, h2, h3, h4⟩ | ⟨h1, h2, h3⟩
              · refine Or.inl ⟨h1, h2, fun s' => ?_, fun s' => ?_⟩
                · rw [hq1, Function.update_of_ne (by intro h; cases h)]; exact h3 s'
                · by_cases hds : (d, s) = (j.val, s')
                  · cases hds
                    rw [Function.update_self, Function.update_self]
                    exact (h4 s).send e
                  · rw [Function.update_of_ne (by intro h; cases h; exact hds rfl), Function.update_of_ne (by intro h; cases h; exact hds rfl)]
                    exact h4 s'
              · refine Or.inr ⟨h1, h2, fun s' => ?_⟩
                rw [hq1, Function.update_of_ne (by intro h; cases h)]; exact h3 s'
          | recv f s b =>
            obtain ⟨τ, b', rest, w', hw, e, h⟩ := hs
            obtain ⟨q', hQ, rfl⟩ := qstep_recv hq
            have hf : f ≠ 0 ∧ f < n := by
              by_contra hcon
              rw [hk0 f s (by omega)] at e
              cases e
            have hb : b = b' := by
              rcases hcl ⟨f, hf.2⟩ hf.1 with ⟨-, -, h3, -⟩ | ⟨-, -, h3⟩
              · exact ((h3 s).recv hQ e).1
              · obtain ⟨X, h3⟩ := h3 s
                exact (h3.recv hQ e).1
            refine ⟨Function.update D ⟨0, hn⟩ (Function.update (D ⟨0, hn⟩) (false, f, s) rest), Function.update w ⟨0, hn⟩ w',
              ⟨by simpa only [Function.update_self] using h hb, ?_, ?_⟩, sum_update_lt hw⟩
            · intro f' s' hf'
              rw [Function.update_self, Function.update_of_ne (by intro h; cases h; omega)]
              exact hk0 f' s' hf'
            · intro j hj
              have hj0 : j ≠ ⟨0, hn⟩ := by rintro rfl; exact hj rfl
              simp only [Function.update_self, Function.update_of_ne hj0]
              rcases hcl j hj with ⟨h1, h2, h3, h4⟩ | ⟨h1, h2, h3⟩
              · refine Or.inl ⟨h1, h2, fun s' => ?_, fun s' => ?_⟩
                · by_cases hds : (f, s) = (j.val, s')
                  · cases hds
                    rw [Function.update_self, Function.update_self]
                    exact ((h3 s).recv hQ e).2
                  · rw [Function.update_of_ne (by intro h; cases h; exact hds rfl), Function.update_of_ne (by intro h; cases h; exact hds rfl)]
                    exact h3 s'
                · rw [Function.update_of_ne (by intro h; cases h), Function.update_of_ne (by intro h; exact hf.1 (congrArg Prod.fst h).symm)]
                  exact h4 s'
              · refine Or.inr ⟨h1, h2, fun s' => ?_⟩
                by_cases hds : (f, s) = (j.val, s')
                · cases hds
                  rw [Function.update_self, Function.update_self]
                  obtain ⟨X, h3⟩ := h3 s
                  exact ⟨X, (h3.recv hQ e).2⟩
                · rw [Function.update_of_ne (by intro h; cases h; exact hds rfl), Function.update_of_ne (by intro h; cases h; exact hds rfl)]
                  exact h3 s'
        · have hi0 : (⟨0, hn⟩ : Fin n) ≠ i := by rintro rfl; exact hi rfl
          rcases hcl i hi with ⟨h1, h2, h3, h4⟩ | ⟨-, ⟨e, h2⟩, -⟩
          swap
          · simp only at h2
            rw [h2] at hstep
            cases hstep
          have hs := h1.step hstep
          have hoth : ∀ j : Fin n, j ≠ i → ∀ s, Q' (j, 0, s) = Q (j, 0, s) ∧ Q' (0, j, s) = Q (0, j, s) := by
            intro j hj s
            exact qstep_others hq hi (fun h => hj (Fin.ext h)) s
          -- the other parties and the king are not concerned
          have hrest : ∀ (Di : Chan → Ev) (w' : Nat), w' < w i → Ds S n p' Di w' (rs i) → (∀ f s, f ≠ 0 → Di (false, f, s) = []) →
              (∀ s, Fits (D ⟨0, hn⟩ (false, i, s)) (Di (true, 0, s)) (Q' (i, 0, s))) →
              (∀ s, Fits (Di (false, 0, s)) (D ⟨0, hn⟩ (true, i, s)) (Q' (0, i, s))) →
              ∃ D' w', SilentInv hn S rs D' w' ⟨Function.update procs i p', Q'⟩ ∧ ∑ i, w' i < ∑ i, w i := by
            intro Di w' hw g1 g2 g3 g4
            refine ⟨Function.update D i Di, Function.update w i w', ⟨?_, ?_, ?_⟩, sum_update_lt hw⟩
            · simp only [Function.update_of_ne hi0]; exact hking
            · simp only [Function.update_of_ne hi0]; exact hk0
            · intro j hj
              simp only [Function.update_of_ne hi0]
              by_cases hji : j = i
              · subst hji
                simp only [Function.update_self]
                exact Or.inl ⟨g1, g2, g3, g4⟩
              · simp only [Function.update_of_ne hji, (hoth j hji _).1, (hoth j hji _).2]
                exact hcl j hj
          cases a with
          | tau =>
            cases hq
            obtain ⟨w', hw, h⟩ := hs
            exact hrest _ _ hw h h2 h3 h4
          | abort => exact hs.elim
          | fault => exact absurd rfl ha
          | send d s b =>
            obtain ⟨τ, rest, w', hw, e, h⟩ := hs
            cases hq
            refine hrest _ _ hw h ?_ ?_ ?_
            · intro f s' hf
              rw [Function.update_of_ne (by intro h; cases h)]
              exact h2 f s' hf
            · intro s'
              by_cases hds : (d, s) = (0, s')
              · cases hds
                rw [Function.update_self, Function.update_self]
                exact (h3 s).send e
              · rw [Function.update_of_ne (by intro h; cases h; exact hds rfl), Function.update_of_ne (by intro h; cases h; exact hds rfl)]
                exact h3 s'
            · intro s'
              rw [Function.update_of_ne (by intro h; cases h), Function.update_of_ne (by intro h; exact hi (congrArg Prod.fst h).symm)]
              exact h4 s'
          | recv f s b =>
            obtain ⟨τ, b', rest, w', hw, e, h⟩ := hs
            obtain ⟨q', hQ, rfl⟩ := qstep_recv hq
            have hf : f = 0 := by
              by_contra hcon
              rw [h2 f s hcon] at e
              cases e
            subst hf
            have hr := (h4 s).recv hQ e
            refine hrest _ _ hw (h hr.1) ?_ ?_ ?_
            · intro f s' hf
              rw [Function.update_of_ne (by intro h; cases h; exact hf rfl)]
              exact h2 f s' hf
            · intro s'
              rw [Function.update_of_ne (by intro h; cases h), Function.update_of_ne (by intro h; exact hi (congrArg Prod.fst h))]
              exact h3 s'
            · intro s'
              by_cases hss : s' = s
              · subst hss
                rw [Function.update_self, Function.update_self]
                exact hr.2
              · rw [Function.update_of_ne (by intro h; cases h; exact hss rfl), Function.update_of_ne (by intro h; cases h; exact hss rfl)]
                exact h4 s'

/-- When nothing moves, the parties outside `S` have finished. -/
theorem silentInv_stuck (hn : 0 < n) {S : Nat → Prop} {rs : Fin n → α} {D : Fin n → Chan → Ev} {w : Fin n → Nat} {c : Net n α}
    (hinv : SilentInv hn S rs D w c) (hstuck : ¬ ∃ c', Move c c') (i : Fin n) (hip : ¬ S i) :
    c.procs i = .done (.ok (rs i)) := by
  obtain ⟨hking, hk0, hcl⟩ := hinv
  obtain ⟨procs, Q⟩ := c
  have hrun : ∀ (j : Fin n) a p', Reliable a → LStep (procs j) a p' → qstep j a Q = none := by
    intro j a p' ha hl
    cases hq : qstep j a Q with
    | none => rfl
    | some Q' => exact absurd ⟨_, .run (.mk procs Q Q' j a p' ha hl hq)⟩ hstuck
  -- a client that has not finished waits for a message that is still to be sent by the king
  have hcli : ∀ j : Fin n, j.val ≠ 0 → Ds S n (procs j) (D j) (w j) (rs j) → (∀ f s, f ≠ 0 → D j (false, f, s) = []) →
      (∀ s, Fits (D j (false, 0, s)) (D ⟨0, hn⟩ (true, j, s)) (Q (0, j, s))) →
      (procs j = .done (.ok (rs j)) ∧ D j = fun _ => []) ∨
      ∃ τ, ¬ Even τ ∧ (∀ c, ∀ e ∈ D j c, τ ≤ e.1) ∧ ∃ s b, (τ, b) ∈ D ⟨0, hn⟩ (true, j, s) := by
    intro j hj hD h2 h4
    rcases hD.ready with h | ⟨P', h⟩ | ⟨τ, hmin, ⟨d, s, b, rest, P', -, -, h⟩ | ⟨s, b, rest, hodd, he, h⟩ | ⟨s, W, -, ⟨k, hk⟩, h, -⟩⟩
    · exact Or.inl h
    · have := hrun j .tau P' (by intro h; cases h) h
      cases this
    · have := hrun j _ P' (by intro h; cases h) h
      cases this
    · right
      refine ⟨τ, hodd, hmin, s, b, ?_⟩
      obtain ⟨A, hA, hA'⟩ := h4 s
      cases A with
      | nil => rw [List.nil_append] at hA; rw [← hA, he]; simp
      | cons a A =>
        exfalso
        rw [List.map_cons] at hA'
        obtain ⟨P', h⟩ := h a.2
        have := hrun j _ P' (by intro h; cases h) h
        simp only [qstep] at this
        rw [← hA'] at this
        simp at this
    · obtain ⟨h1, -, ⟨b, rest, h⟩, -⟩ := h k hk
      rw [h2 k s (by omega)] at h
      cases h
  rcases hking.ready with ⟨hd, hD⟩ | ⟨P', h⟩ | ⟨τ, hmin, ⟨d, s, b, rest, P', -, -, h⟩ | ⟨s, b, rest, hodd, he, h⟩ | ⟨s, W, heven, hne, h, hgu⟩⟩
  · by_cases hi : i.val = 0
    · obtain rfl : i = ⟨0, hn⟩ := Fin.ext hi
      exact hd
    · rcases hcl i hi with ⟨h1, h2, h3, h4⟩ | ⟨h1, -⟩
      · rcases hcli i hi h1 h2 h4 with h | ⟨τ, -, -, s, b, h⟩
        · exact h.1
        · rw [hD] at h; cases h
      · exact absurd h1 hip
  · have := hrun _ .tau P' (by intro h; cases h) h
    cases this
  · have := hrun _ _ P' (by intro h; cases h) h
    cases this
  · rw [hk0 0 s (Or.inl rfl)] at he
    cases he
  · exfalso
    have hall : ∀ j, W j → Gone ⟨procs, Q⟩ s j := by
      intro j hj
      obtain ⟨j1, j2, ⟨b, rest, j3⟩, j4⟩ := h j hj
      have hQ : Q (j, 0, s) = [] := by
        cases hQ : Q (j, 0, s) with
        | nil => rfl
        | cons b' q =>
          obtain ⟨P', h⟩ := j4 b'
          have := hrun ⟨0, hn⟩ _ P' (by intro h; cases h) h
          simp [qstep, hQ] at this
      rcases hcl ⟨j, j2⟩ (by simp only; omega) with ⟨h1, h2, h3, h4⟩ | ⟨h1, h2, -⟩
      · exfalso
        obtain ⟨A, hA, hA'⟩ := h3 s
        simp only at hA hA'
        rw [hQ, List.map_eq_nil_iff] at hA'
        subst hA'
        rw [List.nil_append, j3] at hA
        rcases hcli ⟨j, j2⟩ (by simp only; omega) h1 h2 h4 with ⟨-, h⟩ | ⟨τ', hodd, hmin', s', b', hm⟩
        · rw [h] at hA; cases hA
        · have e1 := hmin _ _ hm
          have e2 := hmin' (true, 0, s) (τ, b) (by rw [← hA]; simp)
          simp only at e1 e2
          have : τ = τ' := by omega
          exact hodd (this ▸ heven)
      · exact ⟨j2, h2, hQ⟩
    obtain ⟨P', hP'⟩ := hgu _ hall
    exact hstuck ⟨_, .giveUp ⟨procs, Q⟩ s ⟨0, hn⟩ rfl P' hP'⟩

theorem silentInv_survives (hn : 0 < n) {S : Nat → Prop} (hS : ¬ S 0) {rs : Fin n → α} {D : Fin n → Chan → Ev} {w : Fin n → Nat} {c : Net n α}
    (hinv : SilentInv hn S rs D w c) : SurvivesSilence S c rs := by
  have key : ∀ k (c c' : Net n α), SilentSteps S k c c' → ∀ D w, SilentInv hn S rs D w c → ∃ D' w', SilentInv hn S rs D' w' c' ∧
      ∑ i, w' i + k ≤ ∑ i, w i := by
    clear hinv
    intro k c c' h
    induction h with
    | refl => intro D w h; exact ⟨D, w, h, le_rfl⟩
    | step h _ ih =>
      intro D w hinv
      obtain ⟨D1, w1, h1, hlt⟩ := silentInv_step hn hS hinv h
      obtain ⟨D2, w2, h2, hle⟩ := ih D1 w1 h1
      exact ⟨D2, w2, h2, by omega⟩
  refine ⟨⟨∑ i, w i, fun k c' h => ?_⟩, fun k c' h hs i hi => ?_⟩
  · obtain ⟨_, _, -, hle⟩ := key k c c' h D w hinv
    omega
  · obtain ⟨D', w', h', -⟩ := key k c c' h D w hinv
    exact silentInv_stuck hn h' hs i hi

end ZkSaas
