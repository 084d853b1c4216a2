import Verif.Lemmas.Lossy

/-! Star rounds with arbitrary bytes, left-over messages, unequal lengths; concurrent programs. -/

set_option linter.unusedSectionVars false

namespace ZkSaas

open Spec

variable {n : Nat} {α β γ : Type}

/-- What is removed by a receive. -/
theorem qstep_recv {i f : Nat} {s : Sid} {b : Bytes} {Q Q' : Queues} (h : qstep i (.recv f s b) Q = some Q') :
    ∃ rest, Q (f, i, s) = b :: rest ∧ Q' = Function.update Q (f, i, s) rest := by
  simp only [qstep] at h
  cases hq : Q (f, i, s) with
  | nil => rw [hq] at h; cases h
  | cons x rest =>
    rw [hq] at h
    simp only at h
    split at h
    · rename_i hx; subst hx; cases h; exact ⟨rest, rfl, rfl⟩
    · cases h

/-! ### One gather with arbitrary failures -/

/-- A round in which party `i` puts the bytes `msg i` on the wire and the king makes `f` of its hash map. -/
def gatherProg (n : Nat) (sid : Sid) (msg : Nat → Bytes) (f : List (Nat × Bytes) → Res (Option β)) (i : Nat) : Proc (Option β) :=
  if i = 0 then .gather sid n (msg 0) (fun _ => none) fun L => .done (f L) else .send 0 sid (msg i) (.done (.ok none))

section gather
variable (hn : 0 < n) (sid : Sid) (msg : Nat → Bytes) (f : List (Nat × Bytes) → Res (Option β))

/-- The states of client `i`. -/
def ClientSt (c : Net n (Option β)) (got : Nat → Option Bytes) (i : Fin n) : Prop :=
  (c.procs i = .send 0 sid (msg i) (.done (.ok none)) ∧ c.queues (i, 0, sid) = [] ∧ got i = none) ∨
  (c.procs i = .done (.ok none) ∧ ((c.queues (i, 0, sid) = [msg i] ∧ got i = none) ∨
    (c.queues (i, 0, sid) = [] ∧ got i = some (msg i)))) ∨
  ((∃ e, c.procs i = .done (.error e)) ∧ c.queues (i, 0, sid) = [] ∧ got i = none)

def GatherInv (c : Net n (Option β)) : Prop :=
  ∃ got, (∀ i : Fin n, i.val ≠ 0 → ClientSt sid msg c got i) ∧
    (c.procs ⟨0, hn⟩ = .gather sid n (msg 0) got (fun L => .done (f L)) ∨
      ∃ L, Enumerates n (msg 0) got L ∧ c.procs ⟨0, hn⟩ = .done (f L))

theorem gatherInv_step {c c' : Net n (Option β)} (h : GatherInv hn sid msg f c) (hs : GStep Any c c') :
    GatherInv hn sid msg f c' := by
  obtain ⟨got, hc, hk⟩ := h
  cases hs with
  | mk procs Q Q' i a p' _ hstep hq =>
  by_cases hi : i.val = 0
  · obtain rfl : i = ⟨0, hn⟩ := Fin.ext hi
    have hne : ∀ j : Fin n, j.val ≠ 0 → j ≠ ⟨0, hn⟩ := fun j hj h => hj (by rw [h])
    rcases hk with hk | ⟨L, hL, hk⟩
    · simp only at hk
      rw [hk] at hstep
      cases hstep with
      | gatherRecv _ _ _ _ _ j b h1 h2 h3 =>
        obtain ⟨rest, hQ, rfl⟩ := qstep_recv hq
        refine ⟨Function.update got j (some b), ?_, .inl (by simp only [Function.update_self])⟩
        intro i' hi'
        have := hc i' hi'
        simp only [ClientSt] at this ⊢
        rw [Function.update_of_ne (hne i' hi')]
        by_cases hij : i'.val = j
        · subst hij
          rw [Function.update_self, Function.update_self]
          simp only at hQ
          rcases this with ⟨-, hq', -⟩ | ⟨hp, ⟨hq', -⟩ | ⟨hq', -⟩⟩ | ⟨-, hq', -⟩
          · rw [hq'] at hQ; cases hQ
          · rw [hq'] at hQ; cases hQ
            exact .inr (.inl ⟨hp, .inr ⟨rfl, rfl⟩⟩)
          · rw [hq'] at hQ; cases hQ
          · rw [hq'] at hQ; cases hQ
        · rw [Function.update_of_ne hij, Function.update_of_ne (by simp [hij])]
          exact this
      | gatherDone _ _ _ _ _ L hfull hL =>
        cases hq
        refine ⟨got, ?_, .inr ⟨L, hL, by simp only [Function.update_self]⟩⟩
        intro i' hi'
        have := hc i' hi'
        simp only [ClientSt] at this ⊢
        rw [Function.update_of_ne (hne i' hi')]
        exact this
      | gatherExpire _ _ _ _ _ L hL =>
        cases hq
        refine ⟨got, ?_, .inr ⟨L, hL, by simp only [Function.update_self]⟩⟩
        intro i' hi'
        have := hc i' hi'
        simp only [ClientSt] at this ⊢
        rw [Function.update_of_ne (hne i' hi')]
        exact this
    · simp only at hk
      rw [hk] at hstep
      cases hstep
  · refine ⟨got, ?_, ?_⟩
    · intro i' hi'
      have hold := hc i' hi'
      by_cases hii : i' = i
      · subst hii
        simp only [ClientSt] at hold ⊢
        rw [Function.update_self]
        rcases hold with ⟨hp, hq', hg⟩ | ⟨hp, -⟩ | ⟨⟨e, hp⟩, -⟩
        · rw [hp] at hstep
          cases hstep with
          | send =>
            cases hq
            refine .inr (.inl ⟨rfl, .inl ⟨?_, hg⟩⟩)
            rw [Function.update_self, hq']; rfl
          | sendFail =>
            cases hq
            exact .inr (.inr ⟨⟨_, rfl⟩, hq', hg⟩)
        · rw [hp] at hstep; cases hstep
        · rw [hp] at hstep; cases hstep
      · have hQ' : Q' (i', 0, sid) = Q (i', 0, sid) := by
          rcases hc i hi with ⟨hp, -⟩ | ⟨hp, -⟩ | ⟨⟨e, hp⟩, -⟩
          · simp only at hp
            rw [hp] at hstep
            cases hstep with
            | send =>
              cases hq
              rw [Function.update_of_ne]
              intro h
              apply hii
              exact Fin.ext (by simpa using congrArg Prod.fst h)
            | sendFail => cases hq; rfl
          · simp only at hp; rw [hp] at hstep; cases hstep
          · simp only at hp; rw [hp] at hstep; cases hstep
        simp only [ClientSt] at hold ⊢
        rw [Function.update_of_ne hii, hQ']
        exact hold
    · simp only
      rw [Function.update_of_ne (by intro h; exact hi (by rw [← h]))]
      exact hk

theorem gatherInv_steps {k : Nat} {c c' : Net n (Option β)} (h : GatherInv hn sid msg f c) (hs : GSteps Any k c c') :
    GatherInv hn sid msg f c' := by
  induction hs with
  | refl => exact h
  | step h1 _ ih => exact ih (gatherInv_step hn sid msg f h h1)

theorem gatherInv_init : GatherInv hn sid msg f (Net.init fun i : Fin n => gatherProg n sid msg f i) :=
  ⟨fun _ => none, fun _ hi => .inl ⟨if_neg hi, rfl, rfl⟩, .inl rfl⟩

/-- Whatever happened, a finished king has used exactly the messages it has taken. -/
theorem gather_finished {k : Nat} {c : Net n (Option β)} (hs : GSteps Any k (Net.init fun i : Fin n => gatherProg n sid msg f i) c)
    {r : Res (Option β)} (hr : c.procs ⟨0, hn⟩ = .done r) :
    ∃ L, r = f L ∧ (L.map Prod.fst).Nodup ∧
      ∀ i b, (i, b) ∈ L ↔ b = msg i ∧ (i = 0 ∨ Delivered c sid i) := by
  obtain ⟨got, hc, hk⟩ := gatherInv_steps hn sid msg f (gatherInv_init hn sid msg f) hs
  rcases hk with hk | ⟨L, hL, hk⟩
  · rw [hr] at hk; cases hk
  · rw [hr] at hk
    have hd : ∀ i, Delivered c sid i ↔ 1 ≤ i ∧ i < n ∧ got i = some (msg i) := by
      intro i
      constructor
      · rintro ⟨hi, h0, hp, hq⟩
        refine ⟨by omega, hi, ?_⟩
        rcases hc ⟨i, hi⟩ h0 with ⟨hp', -⟩ | ⟨-, ⟨hq', -⟩ | ⟨-, hg⟩⟩ | ⟨⟨e, hp'⟩, -⟩
        · rw [hp] at hp'; cases hp'
        · simp only at hq'; rw [hq] at hq'; cases hq'
        · exact hg
        · rw [hp] at hp'; cases hp'
      · rintro ⟨h0, hi, hg⟩
        refine ⟨hi, by omega, ?_⟩
        rcases hc ⟨i, hi⟩ (by simp only; omega) with ⟨-, -, hg'⟩ | ⟨hp, ⟨-, hg'⟩ | ⟨hq, -⟩⟩ | ⟨-, -, hg'⟩
        · simp only at hg'; rw [hg] at hg'; cases hg'
        · simp only at hg'; rw [hg] at hg'; cases hg'
        · exact ⟨hp, hq⟩
        · simp only at hg'; rw [hg] at hg'; cases hg'
    have hgot : ∀ i b, 1 ≤ i → i < n → got i = some b → b = msg i := by
      intro i b h0 hi hg
      rcases hc ⟨i, hi⟩ (by simp only; omega) with ⟨-, -, hg'⟩ | ⟨hp, ⟨-, hg'⟩ | ⟨hq, hg'⟩⟩ | ⟨-, -, hg'⟩ <;>
        simp only at hg' <;> rw [hg] at hg' <;> cases hg'
      rfl
    refine ⟨L, by cases hk; rfl, hL.1, fun i b => ?_⟩
    rw [hL.2 i b, hd i]
    constructor
    · rintro (⟨rfl, rfl⟩ | ⟨h0, hi, hg⟩)
      · exact ⟨rfl, .inl rfl⟩
      · have := hgot i b h0 hi hg
        subst this
        exact ⟨rfl, .inr ⟨h0, hi, hg⟩⟩
    · rintro ⟨rfl, rfl | h⟩
      · exact .inl ⟨rfl, rfl⟩
      · exact .inr h

end gather

/-! ### A gather when messages are already queued -/

theorem reach_drain (hn : 0 < n) (sid : Sid) (own : Bytes) (head : Nat → Bytes) (tail : Nat → List Bytes)
    (k0 : List (Nat × Bytes) → Proc α) (kc : Fin n → Proc α) (Q : Queues)
    (hQ : ∀ i, 1 ≤ i → i < n → Q (i, 0, sid) = head i :: tail i) (m : Nat) (hm : 1 ≤ m) (hmn : m ≤ n) :
    Reach All (⟨fun i => if i.val = 0 then .gather sid n own (fun _ => none) k0 else kc i, Q⟩ : Net n α)
      ⟨fun i => if i.val = 0 then .gather sid n own (fun j => if 1 ≤ j ∧ j < m then some (head j) else none) k0 else kc i,
        fun x => if x.2 = (0, sid) ∧ 1 ≤ x.1 ∧ x.1 < m then tail x.1 else Q x⟩ := by
  revert hmn
  induction m, hm using Nat.le_induction with
  | base =>
    intro _
    have e1 : (fun j : Nat => if 1 ≤ j ∧ j < 1 then some (head j) else none) = fun _ => none := by
      funext j; rw [if_neg (by omega)]
    have e2 : (fun x : Nat × Nat × Sid => if x.2 = (0, sid) ∧ 1 ≤ x.1 ∧ x.1 < 1 then tail x.1 else Q x) = Q := by
      funext x; rw [if_neg (by omega)]
    rw [e1, e2]
    exact .refl _
  | succ m hm ih =>
    intro hmn
    refine (ih (by omega)).trans ?_
    have h := Reach.step (P := All) (ps := fun i : Fin n => if i.val = 0 then .gather sid n own
        (fun j => if 1 ≤ j ∧ j < m then some (head j) else none) k0 else kc i)
      (Q := fun x => if x.2 = (0, sid) ∧ 1 ≤ x.1 ∧ x.1 < m then tail x.1 else Q x)
      (Q' := fun x => if x.2 = (0, sid) ∧ 1 ≤ x.1 ∧ x.1 < m + 1 then tail x.1 else Q x)
      ⟨0, hn⟩ (.recv m sid (head m))
      (.gather sid n own (Function.update (fun j => if 1 ≤ j ∧ j < m then some (head j) else none) m (some (head m))) k0)
      (core_recv _ _ _)
      (by simp only [if_true]; exact .gatherRecv _ _ _ _ _ _ _ hm (by omega) (by rw [if_neg (by omega)]))
      (by
        simp only [qstep]
        rw [if_neg (by omega), hQ m hm (by omega)]
        simp only [if_true]
        congr 1
        funext x
        obtain ⟨x1, x2, x3⟩ := x
        by_cases hx : (x1, x2, x3) = (m, 0, sid)
        · cases hx
          rw [Function.update_self, if_pos ⟨rfl, hm, by omega⟩]
        · rw [Function.update_of_ne hx]
          have : ((x2, x3) = (0, sid) ∧ 1 ≤ x1 ∧ x1 < m) ↔ ((x2, x3) = (0, sid) ∧ 1 ≤ x1 ∧ x1 < m + 1) := by
            constructor
            · rintro ⟨a, b, c⟩; exact ⟨a, b, by omega⟩
            · rintro ⟨a, b, c⟩
              refine ⟨a, b, ?_⟩
              have : x1 ≠ m := by rintro rfl; exact hx (by rw [a])
              omega
          simp only [this])
    have e1 : Function.update (fun j : Nat => if 1 ≤ j ∧ j < m then some (head j) else none) m (some (head m)) =
        fun j => if 1 ≤ j ∧ j < m + 1 then some (head j) else none := by
      funext j
      by_cases hj : j = m
      · subst hj; rw [Function.update_self, if_pos ⟨hm, by omega⟩]
      · rw [Function.update_of_ne hj]
        have : (1 ≤ j ∧ j < m) ↔ (1 ≤ j ∧ j < m + 1) := by omega
        simp only [this]
    have e2 : ∀ p : Proc α, Function.update (fun i : Fin n => if i.val = 0 then .gather sid n own
        (fun j => if 1 ≤ j ∧ j < m then some (head j) else none) k0 else kc i) ⟨0, hn⟩ p =
        fun i => if i.val = 0 then p else kc i := by
      intro p
      funext i
      by_cases hi : i.val = 0
      · obtain rfl : i = ⟨0, hn⟩ := Fin.ext hi
        rw [Function.update_self, if_pos rfl]
      · rw [Function.update_of_ne (by intro h; exact hi (by rw [h])), if_neg hi, if_neg hi]
    rw [e2, e1] at h
    exact h

/-- The king's gather when the queues have older messages: it takes the oldest. -/
theorem reach_gather_old (hn : 0 < n) (sid : Sid) (msg : Nat → Bytes) (k0 : List (Nat × Bytes) → Proc α) (kc : Fin n → Proc α)
    (Q : Queues) : ∃ Q',
    Reach All (⟨fun i => if i.val = 0 then .gather sid n (msg 0) (fun _ => none) k0 else .send 0 sid (msg i) (kc i), Q⟩ : Net n α)
      ⟨fun i => if i.val = 0 then k0 ((List.range n).map fun i => (i, if i = 0 then msg 0 else (Q (i, 0, sid)).headD (msg i)))
        else kc i, Q'⟩ := by
  let head : Nat → Bytes := fun i => (Q (i, 0, sid)).headD (msg i)
  have r1 := reach_late_sends sid msg (.gather sid n (msg 0) (fun _ => none) k0) kc [] n le_rfl Q
  simp only [List.not_mem_nil, false_or, if_false, not_false_eq_true, true_and] at r1
  set Q1 : Queues := fun x => if x.2 = (0, sid) ∧ x.1 ≠ 0 ∧ x.1 < n then Q x ++ [msg x.1] else Q x with hQ1
  have e1 : (fun i : Fin n => if i.val = 0 then Proc.gather sid n (msg 0) (fun _ => none) k0
      else if i.val < n then kc i else .send 0 sid (msg i) (kc i)) =
      fun i => if i.val = 0 then Proc.gather sid n (msg 0) (fun _ => none) k0 else kc i := by
    funext i; rw [if_pos i.isLt]
  rw [e1] at r1
  have hhead : ∀ i, 1 ≤ i → i < n → Q1 (i, 0, sid) = head i :: (Q1 (i, 0, sid)).tail := by
    intro i h0 hi
    rw [hQ1]
    simp only
    rw [if_pos ⟨trivial, by omega, hi⟩]
    simp only [head]
    cases Q (i, 0, sid) with
    | nil => rfl
    | cons b rest => rfl
  have r2 := reach_drain hn sid (msg 0) head (fun i => (Q1 (i, 0, sid)).tail) k0 kc Q1 hhead n hn le_rfl
  set Q2 : Queues := fun x => if x.2 = (0, sid) ∧ 1 ≤ x.1 ∧ x.1 < n then (Q1 (x.1, 0, sid)).tail else Q1 x
  refine ⟨Q2, (r1.trans r2).trans ?_⟩
  let fullMsg : Nat → Bytes := fun i => if i = 0 then msg 0 else head i
  have hE : Enumerates n (msg 0) (fun j => if 1 ≤ j ∧ j < n then some (head j) else none)
      ((List.range n).map fun i => (i, fullMsg i)) := by
    have := Enumerates.range (own := msg 0) fullMsg hn rfl
    have e : (fun j => if 1 ≤ j ∧ j < n then some (fullMsg j) else none) =
        fun j => if 1 ≤ j ∧ j < n then some (head j) else none := by
      funext j
      by_cases h : 1 ≤ j ∧ j < n
      · rw [if_pos h, if_pos h]
        simp only [fullMsg]
        rw [if_neg (by omega)]
      · rw [if_neg h, if_neg h]
    rw [e] at this
    exact this
  have h := Reach.step (P := All) (ps := fun i : Fin n => if i.val = 0 then .gather sid n (msg 0)
      (fun j => if 1 ≤ j ∧ j < n then some (head j) else none) k0 else kc i) (Q := Q2) (Q' := Q2) ⟨0, hn⟩ .tau
    (k0 ((List.range n).map fun i => (i, fullMsg i))) core_tau
    (by simp only [if_true]
        refine .gatherDone _ _ _ _ _ _ (fun i h1 h2 => ?_) hE
        rw [if_pos ⟨h1, h2⟩]; simp) rfl
  have e2 : Function.update (fun i : Fin n => if i.val = 0 then .gather sid n (msg 0)
      (fun j => if 1 ≤ j ∧ j < n then some (head j) else none) k0 else kc i) ⟨0, hn⟩
      (k0 ((List.range n).map fun i => (i, fullMsg i))) =
      fun i => if i.val = 0 then k0 ((List.range n).map fun i => (i, fullMsg i)) else kc i := by
    funext i
    by_cases hi : i.val = 0
    · obtain rfl : i = ⟨0, hn⟩ := Fin.ext hi
      rw [Function.update_self, if_pos rfl]
    · rw [Function.update_of_ne (by intro h; exact hi (by rw [h])), if_neg hi, if_neg hi]
  rw [e2] at h
  exact h

/-! ### The king's sends up to the first message of a wrong length -/

theorem range_filter_ne_zero (n : Nat) : (List.range n).filter (· ≠ 0) = List.range' 1 (n - 1) := by
  cases n with
  | zero => rfl
  | succ n =>
    rw [List.range_eq_range', List.range'_succ, List.filter_cons]
    simp only [ne_eq, not_true_eq_false, decide_false, Bool.false_eq_true, if_false, Nat.add_sub_cancel, Nat.zero_add]
    rw [List.filter_eq_self]
    intro a ha
    have := List.mem_range'_1.1 ha
    simp; omega

theorem reach_scatter_prefix (hn : 0 < n) (sid : Sid) (out : List Bytes) (m : Nat) (k0 : Unit → Proc α)
    (k : Fin n → Bytes → Proc α) (Q : Queues) (hQ : ∀ i, Q (0, i, sid) = []) (s : Nat) (hs : 1 ≤ s) (hsn : s ≤ n)
    (hout : ∀ i, 1 ≤ i → i < s → ∃ b, out[i]? = some b ∧ b.length = m) :
    Reach All (⟨fun i => if i.val = 0 then (kingSendLoop out m sid ((List.range n).filter (· ≠ 0))).bind k0
        else .recv 0 sid (k i), Q⟩ : Net n α)
      ⟨fun i => if i.val = 0 then (kingSendLoop out m sid (List.range' s (n - s))).bind k0
        else if i.val < s then k i (out.getD i []) else .recv 0 sid (k i), Q⟩ := by
  revert hsn hout
  induction s, hs using Nat.le_induction with
  | base =>
    intro _ _
    rw [range_filter_ne_zero]
    have e : (fun i : Fin n => if i.val = 0 then (kingSendLoop out m sid (List.range' 1 (n - 1))).bind k0
        else if i.val < 1 then k i (out.getD i []) else .recv 0 sid (k i)) =
        fun i => if i.val = 0 then (kingSendLoop out m sid (List.range' 1 (n - 1))).bind k0 else .recv 0 sid (k i) := by
      funext i
      by_cases hi : i.val = 0
      · rw [if_pos hi, if_pos hi]
      · rw [if_neg hi, if_neg hi, if_neg (by omega)]
    rw [e]
    exact .refl _
  | succ s hs ih =>
    intro hsn hout
    refine (ih (by omega) (fun i h1 h2 => hout i h1 (by omega))).trans ?_
    obtain ⟨b, hb, hbm⟩ := hout s hs (by omega)
    have hs0 : ¬ s = 0 := by omega
    have hsn : s < n := by omega
    have h0s : (⟨s, hsn⟩ : Fin n) ≠ ⟨0, hn⟩ := by
      intro h; apply hs0; simpa using (Fin.ext_iff.1 h)
    obtain ⟨c, hc⟩ : ∃ c, n - s = c + 1 := ⟨n - s - 1, by omega⟩
    have hc' : n - (s + 1) = c := by omega
    rw [hc, hc', List.range'_succ]
    refine Reach.trans (Reach.step ⟨0, hn⟩ (.send s sid b)
      ((kingSendLoop out m sid (List.range' (s + 1) c)).bind k0) (core_send _ _ _) ?_ rfl) ?_
    · simp only [if_true]
      rw [kingSendLoop_bind _ _ _ _ _ _ b hb hbm]
      exact .send _ _ _ _
    refine Reach.trans (Reach.step (Q' := Q) ⟨s, hsn⟩ (.recv 0 sid b) (k ⟨s, hsn⟩ b)
      (core_recv _ _ _) ?_ ?_) ?_
    · rw [Function.update_of_ne h0s]
      simp only [if_neg hs0, lt_irrefl, if_false]
      exact .recv _ _ _ _
    · simp only [qstep]
      rw [Function.update_self, hQ s]
      simp only [List.nil_append, if_true]
      rw [Function.update_idem]
      congr 1
      have := Function.update_eq_self (0, s, sid) Q
      rwa [hQ s] at this
    · have e : ∀ (X Y : Fin n → Proc α), X = Y → Reach All (⟨X, Q⟩ : Net n α) ⟨Y, Q⟩ := by
        rintro X _ rfl; exact .refl _
      apply e
      funext i
      by_cases hi : i.val = 0
      · have : i = ⟨0, hn⟩ := Fin.ext hi
        subst this
        rw [Function.update_of_ne (Ne.symm h0s), Function.update_self]
        simp
      · by_cases his : i.val = s
        · have : i = ⟨s, hsn⟩ := Fin.ext his
          subst this
          rw [Function.update_self]
          simp only [if_neg hs0]
          rw [if_pos (by omega), List.getD_eq_getElem?_getD, hb]
          rfl
        · rw [Function.update_of_ne (by intro h; exact his (by rw [h])),
            Function.update_of_ne (by intro h; exact hi (by rw [h]))]
          simp only [if_neg hi]
          have : i.val < s ↔ i.val < s + 1 := by omega
          simp only [this]

/-! ### Frames and concurrency -/

/-- Programs on the streams `S` do not see what is in the other streams. -/
theorem GStep.frame {ok : Act → Prop} {S : Sid → Prop} [DecidablePred S] {c c' : Net n α} (h : GStep ok c c') (hwf : ∀ i, (c.procs i).WF S)
    (R : Queues) (hR : ∀ i j s, S s → R (i, j, s) = c.queues (i, j, s)) :
    GStep ok ⟨c.procs, R⟩ ⟨c'.procs, fun x => if S x.2.2 then c'.queues x else R x⟩ := by
  cases h with
  | mk procs Q Q' i a p' ha hstep hq =>
    refine .mk _ _ _ i a p' ha hstep ?_
    have hs := hstep.sid (hwf i)
    simp only at hR
    have hrest : ∀ Q' : Queues, (∀ i j s, S s → Q' (i, j, s) = R (i, j, s)) → (fun x => if S x.2.2 then Q' x else R x) = R := by
      intro Q' h
      funext ⟨i, j, s⟩
      simp only
      split
      · exact h i j s ‹_›
      · rfl
    cases a with
    | tau => cases hq; rw [hrest _ fun i j s h => (hR i j s h).symm]; rfl
    | abort => cases hq; rw [hrest _ fun i j s h => (hR i j s h).symm]; rfl
    | fault => cases hq; rw [hrest _ fun i j s h => (hR i j s h).symm]; rfl
    | send dst s b =>
      cases hq
      have hS : S s := hs s rfl
      simp only [qstep]
      congr 1
      funext ⟨x, y, z⟩
      by_cases hx : (x, y, z) = (i.val, dst, s)
      · cases hx
        rw [Function.update_self]
        simp only [Function.update_self]
        rw [if_pos hS, hR _ _ _ hS]
      · rw [Function.update_of_ne hx]
        simp only [Function.update_of_ne hx]
        split
        · exact hR _ _ _ ‹_›
        · rfl
    | recv frm s b =>
      have hS : S s := hs s rfl
      obtain ⟨rest, hQ, rfl⟩ := qstep_recv hq
      simp only [qstep]
      rw [hR _ _ _ hS, hQ]
      simp only [if_true]
      congr 1
      funext ⟨x, y, z⟩
      by_cases hx : (x, y, z) = (frm, i.val, s)
      · cases hx
        rw [Function.update_self]
        simp only [Function.update_self]
        rw [if_pos hS]
      · rw [Function.update_of_ne hx]
        simp only [Function.update_of_ne hx]
        split
        · exact hR _ _ _ ‹_›
        · rfl

theorem GSteps.frame {ok : Act → Prop} {S : Sid → Prop} [DecidablePred S] {k : Nat} {c c' : Net n α} (h : GSteps ok k c c')
    (hwf : ∀ i, (c.procs i).WF S) (R : Queues) (hR : ∀ i j s, S s → R (i, j, s) = c.queues (i, j, s)) :
    GSteps ok k ⟨c.procs, R⟩ ⟨c'.procs, fun x => if S x.2.2 then c'.queues x else R x⟩ := by
  induction h generalizing R with
  | refl c =>
    have : (fun x : Nat × Nat × Sid => if S x.2.2 then c.queues x else R x) = R := by
      funext ⟨i, j, s⟩
      simp only
      split
      · exact (hR i j s ‹_›).symm
      · rfl
    rw [this]
    exact .refl _
  | @step k c c1 c2 h1 _ ih =>
    refine .step (h1.frame hwf R hR) ?_
    have hwf' : ∀ i, (c1.procs i).WF S := by
      cases h1 with
      | mk procs Q Q' i a p' ha hstep hq =>
        intro j
        simp only
        by_cases hij : j = i
        · subst hij; rw [Function.update_self]; exact hstep.wf (hwf j)
        · rw [Function.update_of_ne hij]; exact hwf j
    have := ih hwf' (fun x => if S x.2.2 then c1.queues x else R x) (fun i j s hs => by simp only; rw [if_pos hs])
    have e : (fun x : Nat × Nat × Sid => if S x.2.2 then c2.queues x else (if S x.2.2 then c1.queues x else R x)) =
        fun x => if S x.2.2 then c2.queues x else R x := by
      funext x
      split <;> rfl
    rw [e] at this
    exact this

/-- A program that has failed or is going to be cancelled. -/
def Bad (p : Proc α) : Prop := HasErr p ∨ ∃ e, p = .done (.error e)

theorem LStep.bad {p p' : Proc α} {a : Act} (h : LStep p a p') (ha : Reliable a) (hb : Bad p) : Bad p' := by
  rcases hb with he | ⟨e, rfl⟩
  · by_cases hab : a = .abort
    · subst hab
      generalize hx : Act.abort = a at h
      clear he
      induction h with
      | parL p p' q k a hst ih =>
        subst hx
        rcases ih rfl with h | ⟨e, rfl⟩
        · exact .inl (.inL _ _ _ h)
        · exact .inl (.l _ _ _)
      | parR p q q' k a hst ih =>
        subst hx
        rcases ih rfl with h | ⟨e, rfl⟩
        · exact .inl (.inR _ _ _ h)
        · exact .inl (.r _ _ _)
      | abortL e => exact .inr ⟨e, rfl⟩
      | abortR e => exact .inr ⟨e, rfl⟩
      | _ => cases hx
    · exact .inl (h.hasErr ⟨ha, hab⟩ he)
  · cases h

theorem GSteps.bad {k : Nat} {c c' : Net n α} (h : GSteps Reliable k c c') {i : Fin n} (hb : Bad (c.procs i)) :
    Bad (c'.procs i) := by
  induction h with
  | refl => exact hb
  | step h1 _ ih =>
    apply ih
    cases h1 with
    | mk procs Q Q' j a p' ha hstep hq =>
      simp only
      by_cases hij : i = j
      · subst hij; rw [Function.update_self]; exact hstep.bad ha hb
      · rw [Function.update_of_ne hij]; exact hb

/-- When executions are bounded, one of them ends where nothing can move. -/
theorem exists_stuck {ok : Act → Prop} {c : Net n α} {m : Nat} (hm : ∀ k c', GSteps ok k c c' → k ≤ m) :
    ∃ k t, GSteps ok k c t ∧ ¬ ∃ t', GStep ok t t' := by
  by_contra hcon
  push Not at hcon
  have : ∀ k, ∃ t, GSteps ok k c t := by
    intro k
    induction k with
    | zero => exact ⟨c, .refl _⟩
    | succ k ih =>
      obtain ⟨t, ht⟩ := ih
      obtain ⟨t', ht'⟩ := hcon k t ht
      exact ⟨t', ht.trans (.step ht' (.refl _))⟩
  obtain ⟨t, ht⟩ := this (m + 1)
  have := hm _ _ ht
  omega

/-- A program that always succeeds has a successful core execution. -/
theorem core_run_of_alwaysYields {c : Net n α} {rs : Fin n → α} (h : Spec.AlwaysYields c rs) :
    ∃ Q, Reach All c ⟨fun i => .done (.ok (rs i)), Q⟩ := by
  obtain ⟨⟨m, hm⟩, hend⟩ := h
  have hcr : ∀ a, Core a → Reliable a := fun a ha => ha.1
  obtain ⟨k, t, ht, hst⟩ := exists_stuck (ok := Core) fun k c' h => hm k c' (h.mono hcr)
  have htr := ht.mono hcr
  have hstuck : ¬ ∃ t', GStep Reliable t t' := by
    rintro ⟨t', h⟩
    have hbad : ∃ i, Bad (t.procs i) := by
      cases h with
      | mk procs Q Q' i a p' ha hstep hq =>
        by_cases hab : a = .abort
        · exact ⟨i, .inl (hstep.hasErr_of_abort hab)⟩
        · exact absurd ⟨_, .mk procs Q Q' i a p' ⟨ha, hab⟩ hstep hq⟩ hst
    obtain ⟨i, hbad⟩ := hbad
    obtain ⟨k2, t2, ht2, hst2⟩ := exists_stuck (ok := Reliable) (c := t) (m := m) fun k' c' h' => by
      have := hm _ _ (htr.trans h'); omega
    have hb2 := ht2.bad hbad
    rw [hend _ _ (htr.trans ht2) hst2 i] at hb2
    rcases hb2 with h | ⟨e, h⟩ <;> cases h
  refine ⟨t.queues, k, ?_⟩
  have : t = ⟨fun i => .done (.ok (rs i)), t.queues⟩ := by
    obtain ⟨procs, Q⟩ := t
    congr 1
    funext i
    exact hend k _ htr hstuck i
  rw [← this]
  exact ht.mono fun _ h => ⟨h, fun _ _ _ _ => trivial⟩

/-- Two programs on disjoint streams: a run of the first then of the second, from any state of the other streams. -/
theorem reach_both {S1 S2 : Sid → Prop} (hdis : ∀ s, S1 s → S2 s → False) {ps : Fin n → Proc β} {qs : Fin n → Proc γ}
    {rs : Fin n → β} {ss : Fin n → γ} (w1 : ∀ i, (ps i).WF S1) (w2 : ∀ i, (qs i).WF S2)
    (h1 : Spec.AlwaysYields (Net.init ps) rs) (h2 : Spec.AlwaysYields (Net.init qs) ss) :
    ∃ Q1 Q2, Reach All (Net.init ps) ⟨fun i => .done (.ok (rs i)), Q1⟩ ∧ Reach All ⟨qs, Q1⟩ ⟨fun i => .done (.ok (ss i)), Q2⟩ := by
  classical
  obtain ⟨Q1, k1, r1⟩ := core_run_of_alwaysYields h1
  obtain ⟨Q2, k2, r2⟩ := core_run_of_alwaysYields h2
  have r1' := r1.frame w1 (fun _ => []) (fun _ _ _ _ => rfl)
  have r2' := r2.frame w2 (fun x => if S1 x.2.2 then Q1 x else []) (fun i j s hs => by
    simp only
    rw [if_neg (fun h => hdis s h hs)]
    rfl)
  exact ⟨_, _, ⟨k1, r1'⟩, ⟨k2, r2'⟩⟩

theorem alwaysYields_par {S1 S2 : Sid → Prop} (hdis : ∀ s, S1 s → S2 s → False) {ps : Fin n → Proc β} {qs : Fin n → Proc γ}
    {rs : Fin n → β} {ss : Fin n → γ} (w1 : ∀ i, (ps i).WF S1) (w2 : ∀ i, (qs i).WF S2)
    (h1 : Spec.AlwaysYields (Net.init ps) rs) (h2 : Spec.AlwaysYields (Net.init qs) ss) :
    Spec.AlwaysYields (Net.init fun i => Proc.par (ps i) (qs i) fun r s => .done (.ok (r, s))) fun i => (rs i, ss i) := by
  obtain ⟨Q1, Q2, r1, r2⟩ := reach_both hdis w1 w2 h1 h2
  have a1 := r1.lift (fun i p => Proc.par p (qs i) fun r s => .done (.ok (r, s))) fun i p a p' h => .parL _ _ _ _ _ h
  have a2 := r2.lift (fun i q => Proc.par (.done (.ok (rs i))) q fun r s => .done (.ok (r, s))) fun i p a p' h => .parR _ _ _ _ _ h
  have a3 := reach_join_aux (P := All) (fun _ r s => Proc.done (.ok (r, s))) rs ss Q2 n le_rfl
  simp only [Fin.isLt, if_true] at a3
  obtain ⟨m, hm⟩ := (a1.trans a2).trans a3
  exact alwaysYields_of_run (fun i => ⟨fun _ => True, .par hdis (fun _ _ => trivial) (fun _ _ => trivial) (w1 i) (w2 i)
    fun _ _ => .done _ _⟩) hm

theorem alwaysYields_seq {S1 S2 : Sid → Prop} (hdis : ∀ s, S1 s → S2 s → False) {ps : Fin n → Proc β} {qs : Fin n → Proc γ}
    {rs : Fin n → β} {ss : Fin n → γ} (w1 : ∀ i, (ps i).WF S1) (w2 : ∀ i, (qs i).WF S2)
    (h1 : Spec.AlwaysYields (Net.init ps) rs) (h2 : Spec.AlwaysYields (Net.init qs) ss) :
    Spec.AlwaysYields (Net.init fun i => (ps i).bind fun r => (qs i).bind fun s => .done (.ok (r, s))) fun i => (rs i, ss i) := by
  obtain ⟨Q1, Q2, r1, r2⟩ := reach_both hdis w1 w2 h1 h2
  have a1 := r1.bind (fun i r => (qs i).bind fun s => Proc.done (.ok (r, s)))
  have a2 := r2.bind (fun i s => Proc.done (.ok (rs i, s)))
  obtain ⟨m, hm⟩ := a1.trans a2
  exact alwaysYields_of_run (fun i => ⟨fun _ => True, ((w1 i).mono fun _ _ => trivial).bind fun r =>
    ((w2 i).mono fun _ _ => trivial).bind fun s => .done _ _⟩) hm

end ZkSaas
