import Verif.Model.Prelude
import Mathlib.Algebra.BigOperators.Group.List.Basic
import Mathlib.Algebra.BigOperators.Group.Finset.Basic
import Mathlib.Algebra.BigOperators.Intervals

/-! Helper lemmas about `Res`, loops and lists. -/

namespace ZkSaas

variable {α β σ : Type _}

@[simp] theorem ok_bind (a : α) (f : α → Res β) : ((Except.ok a : Res α) >>= f) = f a := rfl
@[simp] theorem error_bind (e : Fault) (f : α → Res β) :
    ((Except.error e : Res α) >>= f) = .error e := rfl
@[simp] theorem pure_ok (a : α) : (pure a : Res α) = .ok a := rfl
@[simp] theorem map_ok (a : α) (f : α → β) : (f <$> (Except.ok a : Res α)) = .ok (f a) := rfl
@[simp] theorem bind_ok' (x : Res α) : (x >>= fun a => (Except.ok a : Res α)) = x := by
  cases x <;> rfl
@[simp] theorem panic_bind (f : α → Res β) : ((panic' : Res α) >>= f) = panic' := rfl
@[simp] theorem assert_true : assert true = .ok () := rfl
@[simp] theorem assert_false : assert false = panic' := rfl
@[simp] theorem debugAssert_true (dbg : Bool) : debugAssert dbg true = .ok () := by
  simp [debugAssert]
@[simp] theorem debugAssert_release (b : Bool) : debugAssert false b = .ok () := by
  simp [debugAssert]
@[simp] theorem debugAssert_fail : debugAssert true false = panic' := by
  simp [debugAssert]
@[simp] theorem unwrap_some (a : α) : unwrap (some a) = .ok a := rfl
@[simp] theorem unwrap_none : unwrap (none : Option α) = panic' := rfl
@[simp] theorem ok_ne_panic (a : α) : (Except.ok a : Res α) ≠ panic' := by simp [panic']
@[simp] theorem panic_ne_ok (a : α) : (panic' : Res α) ≠ Except.ok a := by simp [panic']

theorem debugAssert_of {dbg b : Bool} (h : b = true) : debugAssert dbg b = .ok () := by simp [h]

theorem assert_of {b : Bool} (h : b = true) : assert b = .ok () := by simp [h]

theorem assert_panic_of {b : Bool} (h : b = false) : assert b = panic' := by simp [h]

theorem rd_ok {v : List α} {i : Nat} (h : i < v.length) (d : α) : rd v i = .ok (v.getD i d) := by
  simp [rd, List.getElem?_eq_getElem h, List.getD]

theorem rd_ok' {v : List α} {i : Nat} (h : i < v.length) : rd v i = .ok v[i] := by
  simp [rd, List.getElem?_eq_getElem h]

theorem rd_panic {v : List α} {i : Nat} (h : v.length ≤ i) : rd v i = panic' := by
  simp [rd, List.getElem?_eq_none h]

theorem wr_ok {v : List α} {i : Nat} (h : i < v.length) (x : α) : wr v i x = .ok (v.set i x) := by
  simp [wr, h]

@[simp] theorem forUp_zero (body : Nat → σ → Res σ) (s : σ) : forUp 0 body s = .ok s := rfl

theorem forUp_succ (n : Nat) (body : Nat → σ → Res σ) (s : σ) :
    forUp (n + 1) body s = (forUp n body s >>= body n) := by
  simp [forUp, List.range_succ, List.foldlM_append]

@[simp] theorem forDown_zero (body : Nat → σ → Res σ) (s : σ) : forDown 0 body s = .ok s := rfl

theorem forDown_succ (n : Nat) (body : Nat → σ → Res σ) (s : σ) :
    forDown (n + 1) body s = (body n s >>= forDown n body) := by
  simp [forDown, List.range_succ]
  rfl

/-- Loop invariant rule for `for i in 0..n`. -/
theorem forUp_inv (P : Nat → σ → Prop) {n : Nat} {body : Nat → σ → Res σ} {s : σ}
    (h0 : P 0 s) (hs : ∀ i < n, ∀ s, P i s → ∃ s', body i s = .ok s' ∧ P (i + 1) s') :
    ∃ s', forUp n body s = .ok s' ∧ P n s' := by
  induction n with
  | zero => exact ⟨s, rfl, h0⟩
  | succ n ih =>
    obtain ⟨s1, e1, p1⟩ := ih (fun i hi => hs i (Nat.lt_succ_of_lt hi))
    obtain ⟨s2, e2, p2⟩ := hs n (Nat.lt_succ_self n) s1 p1
    exact ⟨s2, by rw [forUp_succ, e1]; simpa using e2, p2⟩

/-- Loop invariant rule for `for i in (0..n).rev()`. -/
theorem forDown_inv (P : Nat → σ → Prop) {n : Nat} {body : Nat → σ → Res σ} {s : σ}
    (h0 : P n s) (hs : ∀ i < n, ∀ s, P (i + 1) s → ∃ s', body i s = .ok s' ∧ P i s') :
    ∃ s', forDown n body s = .ok s' ∧ P 0 s' := by
  induction n generalizing s with
  | zero => exact ⟨s, rfl, h0⟩
  | succ n ih =>
    obtain ⟨s1, e1, p1⟩ := hs n (Nat.lt_succ_self n) s h0
    obtain ⟨s2, e2, p2⟩ := ih p1 (fun i hi => hs i (Nat.lt_succ_of_lt hi))
    exact ⟨s2, by rw [forDown_succ, e1]; simpa using e2, p2⟩

theorem mapM_ok {f : α → Res β} {g : α → β} {xs : List α} (h : ∀ x ∈ xs, f x = .ok (g x)) :
    xs.mapM f = .ok (xs.map g) := by
  induction xs with
  | nil => rfl
  | cons x xs ih =>
    rw [List.mapM_cons, h x (by simp), ih (fun y hy => h y (by simp [hy]))]
    rfl

theorem mapM_ok_length {f : α → Res β} {xs : List α} {ys : List β} (h : xs.mapM f = .ok ys) :
    ys.length = xs.length := by
  induction xs generalizing ys with
  | nil => cases h; rfl
  | cons x xs ih =>
    rw [List.mapM_cons] at h
    cases hx : f x with
    | error e => rw [hx] at h; cases h
    | ok y =>
      cases hxs : xs.mapM f with
      | error e => rw [hx, hxs] at h; cases h
      | ok ys' => rw [hx, hxs] at h; cases h; simp [ih hxs]

theorem mapM_panic {f : α → Res β} {xs : List α} {x : α} (hx : x ∈ xs) (h : f x = panic')
    (hall : ∀ y ∈ xs, f y = panic' ∨ ∃ z, f y = .ok z) : xs.mapM f = panic' := by
  induction xs with
  | nil => cases hx
  | cons y ys ih =>
    rw [List.mapM_cons]
    rcases hall y (by simp) with hy | ⟨z, hz⟩
    · rw [hy]; rfl
    · rw [hz]
      rcases List.mem_cons.1 hx with rfl | hx
      · rw [h] at hz; cases hz
      · rw [ih hx (fun y hy => hall y (by simp [hy]))]; rfl

/-- A list is determined by its length and its entries. -/
theorem list_ext_getD {v w : List α} (d : α) (hl : v.length = w.length)
    (h : ∀ i < v.length, v.getD i d = w.getD i d) : v = w := by
  apply List.ext_getElem hl
  intro i h1 h2
  have := h i h1
  simpa [List.getD, List.getElem?_eq_getElem h1, List.getElem?_eq_getElem h2] using this

@[simp] theorem getD_map_range (f : Nat → α) (n i : Nat) (d : α) :
    ((List.range n).map f).getD i d = if i < n then f i else d := by
  split <;> rename_i h <;> simp [List.getD, h]

theorem getD_of_ge {v : List α} {i : Nat} (d : α) (h : v.length ≤ i) : v.getD i d = d := by
  simp [List.getD, List.getElem?_eq_none h]

theorem getD_set (v : List α) (i j : Nat) (x d : α) :
    (v.set i x).getD j d = if i = j ∧ i < v.length then x else v.getD j d := by
  simp only [List.getD, List.getElem?_set]
  by_cases h : i = j
  · subst h
    by_cases h2 : i < v.length
    · simp [h2]
    · simp [h2]
  · simp [h]

theorem list_eq_map_range (v : List α) (d : α) : v = (List.range v.length).map (fun i => v.getD i d) := by
  apply list_ext_getD d (by simp)
  intro i hi
  rw [getD_map_range, if_pos hi]

theorem getD_append' (v w : List α) (i : Nat) (d : α) :
    (v ++ w).getD i d = if i < v.length then v.getD i d else w.getD (i - v.length) d := by
  split <;> rename_i h
  · simp [List.getD, List.getElem?_append_left h]
  · simp [List.getD, List.getElem?_append_right (Nat.le_of_not_lt h)]

theorem getD_replicate' (n i : Nat) (x d : α) :
    (List.replicate n x).getD i d = if i < n then x else d := by
  split <;> rename_i h <;> simp [List.getD, h]

@[simp] theorem getD_replicate_self (n i : Nat) (d : α) : (List.replicate n d).getD i d = d := by
  rw [getD_replicate']; split <;> rfl

theorem getD_take (v : List α) (n i : Nat) (d : α) :
    (v.take n).getD i d = if i < n then v.getD i d else d := by
  split <;> rename_i h
  · simp [List.getD, h]
  · simp [List.getD, h]

theorem getD_drop (v : List α) (n i : Nat) (d : α) : (v.drop n).getD i d = v.getD (n + i) d := by
  simp [List.getD]

theorem getD_map_of_lt {γ : Type _} (f : α → γ) (v : List α) (i : Nat) (a : α) (d : γ) (h : i < v.length) :
    (v.map f).getD i d = f (v.getD i a) := by
  simp [List.getD, List.getElem?_eq_getElem h]

theorem getD_zipWith {γ δ : Type _} (f : α → γ → δ) (v : List α) (w : List γ) (i : Nat) (a : α) (b : γ) (d : δ)
    (h1 : i < v.length) (h2 : i < w.length) :
    (List.zipWith f v w).getD i d = f (v.getD i a) (w.getD i b) := by
  simp [List.getD, List.getElem?_eq_getElem, h1, h2]

@[simp] theorem resize_length (v : List α) (n : Nat) (z : α) : (resize v n z).length = n := by
  simp [resize]; omega

theorem getD_resize (v : List α) (n i : Nat) (z : α) :
    (resize v n z).getD i z = if i < n then v.getD i z else z := by
  unfold resize
  rw [getD_append', getD_take, getD_replicate_self]
  by_cases h : i < n
  · by_cases h2 : i < v.length
    · have : i < min n v.length := by omega
      simp [h]
      intro h3
      omega
    · rw [getD_of_ge z (Nat.le_of_not_lt h2)]; simp
  · have : ¬ i < (v.take n).length := by simp; omega
    simp [h]

theorem resize_self (v : List α) (z : α) : resize v v.length z = v := by
  simp [resize]

theorem resize_eq_of_length {v : List α} {n : Nat} (z : α) (h : v.length = n) : resize v n z = v := by
  subst h; exact resize_self v z

/-- Entries of `skip(i).step_by(s)`. -/
theorem skipStep_eq (v : List α) (i s : Nat) (d : α) (hs : 0 < s) :
    skipStep v i s = (List.range ((v.length - i + s - 1) / s)).map fun k => v.getD (i + k * s) d := by
  unfold skipStep
  rw [← List.filterMap_eq_map]
  apply List.filterMap_congr
  intro k hk
  rw [List.mem_range, Nat.lt_div_iff_mul_lt hs] at hk
  have : i + k * s < v.length := by omega
  simp [List.getElem?_eq_getElem this, List.getD]

theorem skipStep_exact (v : List α) (c s n : Nat) (d : α) (hs : 0 < s) (hc : c < s)
    (hv : v.length = n * s) :
    skipStep v c s = (List.range n).map fun k => v.getD (c + k * s) d := by
  rw [skipStep_eq v c s d hs]
  have : (v.length - c + s - 1) / s = n := by
    rw [hv]
    cases n with
    | zero =>
      simp
      omega
    | succ n =>
      have : (n + 1) * s - c + s - 1 = (s - 1 - c) + s * (n + 1) := by
        have : c ≤ (n + 1) * s := by
          have : s ≤ (n + 1) * s := Nat.le_mul_of_pos_left s (Nat.succ_pos n)
          omega
        rw [Nat.mul_comm s]
        omega
      rw [this, Nat.add_mul_div_left _ _ hs, Nat.div_eq_of_lt (by omega), Nat.zero_add]
  rw [this]

theorem length_eq_of_ok {a b : List α} (h : (Except.ok a : Res (List α)) = .ok b) : a = b := by
  cases h; rfl

end ZkSaas
