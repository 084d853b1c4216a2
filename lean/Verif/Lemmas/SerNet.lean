import Verif.Model.SerNet
import Verif.Lemmas.Net
import Mathlib.Data.List.Nodup
import Mathlib.Data.List.Perm.Basic
import Mathlib.Data.List.Range
import Mathlib.Tactic.Ring
import Mathlib.Tactic.NormNum

/-! Canonical runs of star rounds. -/

set_option linter.unusedSectionVars false

namespace ZkSaas

variable {n : Nat} {α β γ : Type}

@[simp] theorem Proc.bind_ok (a : α) (f : α → Proc β) : (Proc.done (.ok a)) >>= f = f a := rfl
@[simp] theorem Proc.bind_error (e : Fault) (f : α → Proc β) :
    (Proc.done (.error e)) >>= f = .done (.error e) := rfl
@[simp] theorem Proc.pure_eq (a : α) : (pure a : Proc α) = .done (.ok a) := rfl
@[simp] theorem Proc.lift_eq (r : Res α) : (liftM r : Proc α) = .done r := rfl
theorem Proc.bind_eq (p : Proc α) (f : α → Proc β) : p >>= f = p.bind f := rfl

theorem Proc.bind_assoc (p : Proc α) (f : α → Proc β) (g : β → Proc γ) :
    (p.bind f).bind g = p.bind fun a => (f a).bind g := by
  induction p with
  | done r => cases r <;> rfl
  | send _ _ _ _ ih => simp only [Proc.bind]; rw [ih]
  | recv _ _ _ ih => simp only [Proc.bind]; congr; funext b; rw [ih]
  | gather _ _ _ _ _ ih => simp only [Proc.bind]; congr; funext b; rw [ih]
  | par _ _ _ _ _ ih => simp only [Proc.bind]; congr; funext r s; rw [ih]

theorem Proc.bind_assoc' (p : Proc α) (f : α → Proc β) (g : β → Proc γ) :
    (p >>= f) >>= g = p >>= fun a => f a >>= g := Proc.bind_assoc p f g

/-! ### Reachability by core steps -/

/-- Every message. -/
abbrev All : Bytes → Prop := fun _ => True

/-- Reachability by core steps that send only messages satisfying `P`. -/
def Reach (P : Bytes → Prop) (c c' : Net n α) : Prop := ∃ k, GSteps (CoreP P) k c c'

variable {P : Bytes → Prop}

theorem Reach.refl (c : Net n α) : Reach P c c := ⟨0, .refl _⟩
theorem Reach.trans {c c' c'' : Net n α} (h : Reach P c c') (h' : Reach P c' c'') : Reach P c c'' :=
  let ⟨_, h⟩ := h; let ⟨_, h'⟩ := h'; ⟨_, h.trans h'⟩
theorem Reach.of_step {c c' : Net n α} (h : GStep (CoreP P) c c') : Reach P c c' := ⟨1, .step h (.refl _)⟩

theorem core_tau : Core .tau := ⟨by simp, by simp⟩
theorem core_send (d s b) : Core (.send d s b) := ⟨by simp, by simp⟩
theorem core_recv (d s b) : Core (.recv d s b) := ⟨by simp, by simp⟩

theorem Reach.step {ps : Fin n → Proc α} {Q Q' : Queues} (i : Fin n) (a : Act) (p' : Proc α) (ha : Core a)
    (h : LStep (ps i) a p') (hq : qstep i a Q = some Q')
    (hP : ∀ d s b, a = .send d s b → P b := by first | (intro _ _ _ h; cases h; done) | (intros; exact True.intro)) :
    Reach P ⟨ps, Q⟩ ⟨Function.update ps i p', Q'⟩ :=
  .of_step (.mk ps Q Q' i a p' ⟨ha, hP⟩ h hq)

/-- Executions inside an evaluation context. -/
theorem Reach.lift {c c' : Net n α} (h : Reach P c c') (E : Fin n → Proc α → Proc β)
    (hE : ∀ i p a p', LStep p a p' → LStep (E i p) a (E i p')) :
    Reach P ⟨fun i => E i (c.procs i), c.queues⟩ ⟨fun i => E i (c'.procs i), c'.queues⟩ := by
  obtain ⟨k, h⟩ := h
  refine ⟨k, ?_⟩
  induction h with
  | refl => exact .refl _
  | step h1 _ ih =>
    refine .step ?_ ih
    cases h1 with
    | mk procs Q Q' i a p' ha hstep hq =>
      have := GStep.mk (ok := CoreP P) (fun i => E i (procs i)) Q Q' i a (E i p') ha (hE i _ _ _ hstep) hq
      have e : (fun j => E j (Function.update procs i p' j)) = Function.update (fun i => E i (procs i)) i (E i p') := by
        funext j
        by_cases hj : j = i
        · subst hj; simp
        · simp [Function.update_of_ne hj]
      simp only at *
      rw [e]
      exact this

theorem LStep.bind {p p' : Proc α} {a : Act} (h : LStep p a p') (f : α → Proc β)  :
    LStep (p.bind f) a (p'.bind f) := by
  induction h with
  | send => exact .send _ _ _ _
  | recv _ _ b k => exact .recv _ _ b fun b => (k b).bind f
  | gatherRecv sid n own got k i b h1 h2 h3 => exact .gatherRecv _ _ _ _ _ _ _ h1 h2 h3
  | gatherDone sid n own got k L h1 h2 => exact .gatherDone _ _ _ _ (fun L => (k L).bind f) L h1 h2
  | gatherExpire sid n own got k L h2 => exact .gatherExpire _ _ _ _ (fun L => (k L).bind f) L h2
  | sendFail => exact .sendFail _ _ _ _ _
  | recvFail => exact .recvFail _ _ _ _
  | parL p p' q k a h _ => exact .parL _ _ _ _ _ h
  | parR p q q' k a h _ => exact .parR _ _ _ _ _ h
  | join r s k => exact .join r s fun r s => (k r s).bind f
  | abortL => exact .abortL _ _ _
  | abortR => exact .abortR _ _ _

theorem Reach.bind {c c' : Net n α} (h : Reach P c c') (f : Fin n → α → Proc β) :
    Reach P ⟨fun i => (c.procs i).bind (f i), c.queues⟩ ⟨fun i => (c'.procs i).bind (f i), c'.queues⟩ :=
  h.lift (fun i p => p.bind (f i)) fun _ _ _ _ h => h.bind _

/-! ### The gather phase -/

theorem Enumerates.range {own : Bytes} (msg : Nat → Bytes) (hn : 0 < n) (h0 : own = msg 0) :
    Enumerates n own (fun j => if 1 ≤ j ∧ j < n then some (msg j) else none)
      ((List.range n).map fun i => (i, msg i)) := by
  constructor
  · rw [List.map_map]
    have : (Prod.fst ∘ fun i => (i, msg i)) = id := rfl
    rw [this, List.map_id]
    exact List.nodup_range
  · intro i b
    simp only [List.mem_map, List.mem_range, Prod.mk.injEq]
    constructor
    · rintro ⟨j, hj, rfl, rfl⟩
      by_cases h : j = 0
      · subst h; exact .inl ⟨rfl, h0.symm⟩
      · exact .inr ⟨by omega, hj, by rw [if_pos ⟨by omega, hj⟩]⟩
    · rintro (⟨rfl, rfl⟩ | ⟨h1, h2, h3⟩)
      · exact ⟨0, hn, rfl, h0.symm⟩
      · rw [if_pos ⟨h1, h2⟩] at h3
        cases h3
        exact ⟨i, h2, rfl, rfl⟩

/-- The first parties send and the king receives. -/
theorem reach_gather_prefix (hn : 0 < n) (sid : Sid) (msg : Nat → Bytes) (k0 : List (Nat × Bytes) → Proc α)
    (k : Fin n → Proc α) (Q : Queues) (hQ : ∀ i, Q (i, 0, sid) = []) (m : Nat) (hm : 1 ≤ m) (hmn : m ≤ n)
    (hP : ∀ i < n, i ≠ 0 → P (msg i) := by intros; exact True.intro) :
    Reach P (⟨fun i => if i.val = 0 then .gather sid n (msg 0) (fun _ => none) k0 else .send 0 sid (msg i) (k i), Q⟩ : Net n α)
      ⟨fun i => if i.val = 0 then .gather sid n (msg 0) (fun j => if 1 ≤ j ∧ j < m then some (msg j) else none) k0
        else if i.val < m then k i else .send 0 sid (msg i) (k i), Q⟩ := by
  revert hmn
  induction m, hm using Nat.le_induction with
  | base =>
    intro _
    have e1 : (fun j : Nat => if 1 ≤ j ∧ j < 1 then some (msg j) else none) = fun _ => none := by
      funext j; rw [if_neg (by omega)]
    rw [e1]
    have e2 : (fun i : Fin n => if i.val = 0 then Proc.gather sid n (msg 0) (fun _ => none) k0
        else if i.val < 1 then k i else .send 0 sid (msg i) (k i)) =
        fun i => if i.val = 0 then .gather sid n (msg 0) (fun _ => none) k0 else .send 0 sid (msg i) (k i) := by
      funext i
      by_cases h : i.val = 0
      · rw [if_pos h, if_pos h]
      · rw [if_neg h, if_neg h, if_neg (by omega)]
    rw [e2]
    exact .refl _
  | succ m hm ih =>
    intro hmn
    refine (ih (by omega)).trans ?_
    have hm0 : ¬ m = 0 := by omega
    have hmn' : m < n := hmn
    refine Reach.trans (Reach.step ⟨m, hmn'⟩ (.send 0 sid (msg m)) (k ⟨m, hmn'⟩) (core_send _ _ _)
      (by simp only [if_neg hm0, lt_irrefl, if_false]; exact .send _ _ _ _) rfl
      (fun _ _ _ h => by cases h; exact hP m hmn' hm0)) ?_
    have h0m : (⟨0, hn⟩ : Fin n) ≠ ⟨m, hmn'⟩ := by
      intro h; apply hm0; simpa using (Fin.ext_iff.1 h).symm
    refine Reach.trans (Reach.step (Q' := Q) ⟨0, hn⟩ (.recv m sid (msg m))
      (.gather sid n (msg 0) (Function.update (fun j => if 1 ≤ j ∧ j < m then some (msg j) else none) m (some (msg m))) k0)
      (core_recv _ _ _) ?_ ?_) ?_
    · rw [Function.update_of_ne h0m]
      simp only [if_true]
      exact .gatherRecv _ _ _ _ _ _ _ (by omega) (by omega) (by rw [if_neg (by omega)])
    · simp only [qstep]
      rw [Function.update_self, hQ m]
      simp only [List.nil_append, if_true]
      rw [Function.update_idem]
      congr 1
      have := Function.update_eq_self (m, 0, sid) Q
      rwa [hQ m] at this
    · have e : ∀ (X Y : Fin n → Proc α), X = Y → Reach P (⟨X, Q⟩ : Net n α) ⟨Y, Q⟩ := by
        rintro X _ rfl; exact .refl _
      apply e
      funext i
      by_cases hi : i.val = 0
      · have : i = ⟨0, hn⟩ := Fin.ext hi
        subst this
        rw [Function.update_self]
        simp only [if_true]
        congr 1
        funext j
        by_cases hj : j = m
        · subst hj; rw [Function.update_self, if_pos (by omega)]
        · rw [Function.update_of_ne hj]
          have : (1 ≤ j ∧ j < m) ↔ (1 ≤ j ∧ j < m + 1) := by omega
          simp only [this]
      · rw [Function.update_of_ne (by intro h; exact hi (by rw [h]))]
        by_cases him : i.val = m
        · have : i = ⟨m, hmn'⟩ := Fin.ext him
          subst this
          rw [Function.update_self]
          simp only [if_neg hm0]
          rw [if_pos (by omega)]
        · rw [Function.update_of_ne (by intro h; exact him (by rw [h]))]
          simp only [if_neg hi]
          have : i.val < m ↔ i.val < m + 1 := by omega
          simp only [this]

theorem reach_gather (hn : 0 < n) (sid : Sid) (msg : Nat → Bytes) (k0 : List (Nat × Bytes) → Proc α)
    (k : Fin n → Proc α) (Q : Queues) (hQ : ∀ i, Q (i, 0, sid) = [])
    (hP : ∀ i < n, i ≠ 0 → P (msg i) := by intros; exact True.intro) :
    Reach P (⟨fun i => if i.val = 0 then .gather sid n (msg 0) (fun _ => none) k0 else .send 0 sid (msg i) (k i), Q⟩ : Net n α)
      ⟨fun i => if i.val = 0 then k0 ((List.range n).map fun i => (i, msg i)) else k i, Q⟩ := by
  refine (reach_gather_prefix hn sid msg k0 k Q hQ n hn le_rfl hP).trans ?_
  have h := Reach.step (P := P) (ps := fun i : Fin n => if i.val = 0 then
        .gather sid n (msg 0) (fun j => if 1 ≤ j ∧ j < n then some (msg j) else none) k0
        else if i.val < n then k i else .send 0 sid (msg i) (k i)) (Q := Q) (Q' := Q) ⟨0, hn⟩ .tau
      (k0 ((List.range n).map fun i => (i, msg i))) core_tau
      (by simp only [if_true]
          refine .gatherDone _ _ _ _ _ _ (fun i h1 h2 => ?_) (Enumerates.range msg hn rfl)
          rw [if_pos ⟨h1, h2⟩]; simp) rfl
  have e : (Function.update (fun i : Fin n => if i.val = 0 then
        .gather sid n (msg 0) (fun j => if 1 ≤ j ∧ j < n then some (msg j) else none) k0
        else if i.val < n then k i else .send 0 sid (msg i) (k i)) ⟨0, hn⟩
        (k0 ((List.range n).map fun i => (i, msg i)))) =
      fun i => if i.val = 0 then k0 ((List.range n).map fun i => (i, msg i)) else k i := by
    funext i
    by_cases hi : i.val = 0
    · have : i = ⟨0, hn⟩ := Fin.ext hi
      subst this
      rw [Function.update_self]; simp
    · rw [Function.update_of_ne (by intro h; exact hi (by rw [h]))]
      simp only [if_neg hi, i.isLt, if_true]
  rw [e] at h
  exact h

theorem lookup_range (msg : Nat → Bytes) (n x : Nat) (hx : x < n) :
    ((List.range n).map fun i => (i, msg i)).lookup x = some (msg x) := by
  induction n with
  | zero => omega
  | succ n ih =>
    rw [List.range_succ, List.map_append, List.lookup_append]
    by_cases h : x < n
    · rw [ih h]; rfl
    · have hxn : x = n := by omega
      subst hxn
      have : ((List.range x).map fun i => (i, msg i)).lookup x = none := by
        rw [List.lookup_eq_none_iff]
        intro p hp
        simp only [List.mem_map, List.mem_range] at hp
        obtain ⟨i, hi, rfl⟩ := hp
        simp; omega
      rw [this]
      simp [List.lookup]

theorem kingFinish_range (msg : Nat → Bytes) (n : Nat) :
    kingFinish n ((List.range n).map fun i => (i, msg i)) = .ok (.full ((List.range n).map msg)) := by
  unfold kingFinish
  rw [if_pos (by simp)]
  have : (List.range n).mapM (fun x => unwrap (((List.range n).map fun i => (i, msg i)).lookup x)) =
      .ok ((List.range n).map msg) := by
    apply mapM_ok
    intro x hx
    rw [lookup_range msg n x (List.mem_range.1 hx)]
    rfl
  rw [this]
  rfl

/-! ### Encodings -/

/-- `x` survives encoding and decoding. -/
def Wire.Ok {T : Type} [Wire T] (x : T) : Prop := Wire.dec (Wire.enc x) = some x

theorem ofLeBytes_leBytes (k x : Nat) (h : x < 256 ^ k) : ofLeBytes (leBytes k x) = x := by
  induction k generalizing x with
  | zero => simp at h; simp [leBytes, ofLeBytes, h]
  | succ k ih =>
    rw [leBytes, ofLeBytes, ih (x / 256) (by rw [pow_succ] at h; omega)]
    have : (UInt8.ofNat (x % 256)).toNat = x % 256 := by
      simp
    omega

theorem leBytes_length (k x : Nat) : (leBytes k x).length = k := by
  induction k generalizing x with
  | zero => rfl
  | succ k ih => simp [leBytes, ih]

section wire
variable {T : Type} [FixedWire T]

theorem readMany_enc (v : List T) (rest : Bytes) :
    readMany v.length (v.flatMap Wire.enc ++ rest) = some (v, rest) := by
  induction v with
  | nil => rfl
  | cons x v ih =>
    simp only [List.length_cons, readMany, List.flatMap_cons, List.append_assoc]
    rw [FixedWire.read_enc]
    simp only [Option.bind_eq_bind, Option.bind_some]
    rw [ih]
    rfl

theorem Wire.read_list (v : List T) (hv : v.length < 2 ^ 64) (rest : Bytes) :
    Wire.read (Wire.enc v ++ rest) = some (v, rest) := by
  show (if (leBytes 8 v.length ++ v.flatMap Wire.enc ++ rest).length < 8 then none else
    readMany (ofLeBytes ((leBytes 8 v.length ++ v.flatMap Wire.enc ++ rest).take 8))
      ((leBytes 8 v.length ++ v.flatMap Wire.enc ++ rest).drop 8)) = _
  have hl : (leBytes 8 v.length).length = 8 := leBytes_length _ _
  rw [if_neg (by simp [hl]), List.append_assoc, List.take_append_of_le_length (by omega),
    List.drop_append_of_le_length (by omega), List.take_of_length_le (by omega), List.drop_of_length_le (by omega),
    ofLeBytes_leBytes _ _ (by norm_num; omega), List.nil_append, readMany_enc]

theorem Wire.ok_list (v : List T) (hv : v.length < 2 ^ 64) : Wire.Ok v := by
  have := Wire.read_list v hv []
  rw [List.append_nil] at this
  show (Wire.read (Wire.enc v)).map Prod.fst = some v
  rw [this]; rfl

theorem Wire.ok_fixed (x : T) : Wire.Ok x := by
  have := FixedWire.read_enc x []
  rw [List.append_nil] at this
  show (Wire.read (Wire.enc x)).map Prod.fst = some x
  rw [this]; rfl

theorem Wire.enc_list_length (v : List T) : (Wire.enc v).length = 8 + v.length * FixedWire.width T := by
  show (leBytes 8 v.length ++ v.flatMap Wire.enc).length = _
  rw [List.length_append, leBytes_length]
  congr 1
  induction v with
  | nil => simp
  | cons x v ih =>
    rw [List.flatMap_cons, List.length_append, FixedWire.enc_length, List.length_cons, ih]
    ring

end wire

/-! ### The serialized rounds -/

section rounds
variable {T : Type} [Wire T]

theorem decodeReceived_full (threshold : Nat) (x : Nat → T) (hx : ∀ i < n, Wire.Ok (x i)) :
    decodeReceived (T := T) n threshold (some (.full ((List.range n).map fun i => Wire.enc (x i)))) =
      .ok (some ⟨(List.range n).map x, List.range n⟩) := by
  have : (((List.range n).map fun i => Wire.enc (x i)).mapM (decodeOrError (T := T))) = .ok ((List.range n).map x) := by
    rw [List.mapM_map]
    apply mapM_ok
    intro i hi
    simp only [Function.comp, decodeOrError]
    rw [hx i (List.mem_range.1 hi)]
  simp only [decodeReceived]
  rw [this]
  rfl

/-- All parties send, the king gets everything. -/
theorem reach_sendReceive (hn : 0 < n) (sid : Sid) (threshold : Nat) (x : Nat → T) (hx : ∀ i < n, Wire.Ok (x i))
    (Q : Queues) (hQ : ∀ i, Q (i, 0, sid) = []) (hP : ∀ i < n, i ≠ 0 → P (Wire.enc (x i)) := by intros; exact True.intro) :
    Reach P (⟨fun i => clientSendOrKingReceiveSer n i (x i) sid threshold, Q⟩ : Net n (Option (ReceivedShares T)))
      ⟨fun i => .done (.ok (if i.val = 0 then some ⟨(List.range n).map x, List.range n⟩ else none)), Q⟩ := by
  have h := reach_gather hn sid (fun i => Wire.enc (x i))
    (fun L => (Proc.done ((kingFinish n L).map some)).bind fun r => .done (decodeReceived (T := T) n threshold r))
    (fun _ => .done (.ok none)) Q hQ hP
  have e1 : (fun i : Fin n => clientSendOrKingReceiveSer n i (x i) sid threshold) =
      fun i => if i.val = 0 then .gather sid n (Wire.enc (x 0)) (fun _ => none)
        (fun L => (Proc.done ((kingFinish n L).map some)).bind fun r => .done (decodeReceived (T := T) n threshold r))
        else .send 0 sid (Wire.enc (x i)) (.done (.ok none)) := by
    funext i
    unfold clientSendOrKingReceiveSer clientSendOrKingReceive
    by_cases hi : i.val = 0
    · simp only [hi, if_true]
      rfl
    · simp only [hi, if_false]
      rfl
  rw [e1]
  refine h.trans ?_
  have e2 : (fun i : Fin n => if i.val = 0 then
        (Proc.done ((kingFinish n ((List.range n).map fun i => (i, Wire.enc (x i)))).map some)).bind
          fun r => .done (decodeReceived (T := T) n threshold r)
        else .done (.ok none)) =
      fun i => .done (.ok (if i.val = 0 then some ⟨(List.range n).map x, List.range n⟩ else none)) := by
    funext i
    by_cases hi : i.val = 0
    · simp only [hi, if_true]
      rw [kingFinish_range (fun i => Wire.enc (x i))]
      show Proc.done (decodeReceived n threshold (some (.full _))) = _
      rw [decodeReceived_full threshold x hx]
    · simp only [hi, if_false]
  rw [e2]
  exact .refl _

theorem kingSendLoop_bind (out : List Bytes) (m : Nat) (sid : Sid) (k : Unit → Proc α) (id : Nat) (ids : List Nat)
    (b : Bytes) (hb : out[id]? = some b) (hm : b.length = m) :
    (kingSendLoop out m sid (id :: ids)).bind k = .send id sid b ((kingSendLoop out m sid ids).bind k) := by
  show Proc.bind (Proc.bind (.done (rd out id)) _) _ = _
  unfold rd
  rw [hb]
  simp only [Proc.bind]
  rw [if_neg (by simpa using hm)]
  rfl

/-- The king sends to all, everybody has its message. -/
theorem reach_scatter (hn : 0 < n) (sid : Sid) (msg : Nat → Bytes) (m : Nat) (hm : ∀ i < n, (msg i).length = m)
    (k0 : Unit → Proc α) (k : Fin n → Bytes → Proc α) (Q : Queues) (hQ : ∀ i, Q (0, i, sid) = [])
    (hP : ∀ i < n, i ≠ 0 → P (msg i) := by intros; exact True.intro) :
    Reach P (⟨fun i => if i.val = 0 then (kingSendLoop ((List.range n).map msg) m sid ((List.range n).filter (· ≠ 0))).bind k0
        else .recv 0 sid (k i), Q⟩ : Net n α)
      ⟨fun i => if i.val = 0 then k0 () else k i (msg i), Q⟩ := by
  have hids : (List.range n).filter (· ≠ 0) = (List.range' 1 (n - 1)) := by
    obtain ⟨n, rfl⟩ : ∃ k, n = k + 1 := ⟨n - 1, by omega⟩
    rw [List.range_eq_range', List.range'_succ, List.filter_cons]
    simp only [ne_eq, not_true_eq_false, decide_false, Bool.false_eq_true, if_false, Nat.add_sub_cancel, Nat.zero_add]
    rw [List.filter_eq_self]
    intro a ha
    have := List.mem_range'_1.1 ha
    simp; omega
  rw [hids]
  -- from id `s` on
  have main : ∀ c s, 1 ≤ s → s + c = n →
      Reach P (⟨fun i => if i.val = 0 then (kingSendLoop ((List.range n).map msg) m sid (List.range' s c)).bind k0
        else if i.val < s then k i (msg i) else .recv 0 sid (k i), Q⟩ : Net n α)
      ⟨fun i => if i.val = 0 then k0 () else k i (msg i), Q⟩ := by
    intro c
    induction c with
    | zero =>
      intro s _ hs
      have e : ∀ (X Y : Fin n → Proc α), X = Y → Reach P (⟨X, Q⟩ : Net n α) ⟨Y, Q⟩ := by
        rintro X _ rfl; exact .refl _
      apply e
      funext i
      by_cases hi : i.val = 0
      · rw [if_pos hi, if_pos hi]; rfl
      · rw [if_neg hi, if_neg hi, if_pos (by omega)]
    | succ c ih =>
      intro s hs1 hs
      have hs0 : ¬ s = 0 := by omega
      have hsn : s < n := by omega
      have h0s : (⟨s, hsn⟩ : Fin n) ≠ ⟨0, hn⟩ := by
        intro h; apply hs0; simpa using (Fin.ext_iff.1 h)
      rw [List.range'_succ]
      refine Reach.trans (Reach.step ⟨0, hn⟩ (.send s sid (msg s))
        ((kingSendLoop ((List.range n).map msg) m sid (List.range' (s + 1) c)).bind k0) (core_send _ _ _) ?_ rfl
        (fun _ _ _ h => by cases h; exact hP s hsn hs0)) ?_
      · simp only [if_true]
        rw [kingSendLoop_bind _ _ _ _ _ _ (msg s) (by simp [hsn]) (hm s hsn)]
        exact .send _ _ _ _
      refine Reach.trans (Reach.step (Q' := Q) ⟨s, hsn⟩ (.recv 0 sid (msg s)) (k ⟨s, hsn⟩ (msg s))
        (core_recv _ _ _) ?_ ?_) ?_
      · rw [Function.update_of_ne h0s]
        simp only [if_neg hs0, lt_irrefl, if_false]
        exact .recv _ _ _ _
      · simp only [qstep]
        rw [Function.update_self, hQ s]
        simp only [List.nil_append, if_true]
        rw [Function.update_idem]
        congr 1
        have := Function.update_eq_self (0, s, sid) Q
        rwa [hQ s] at this
      · have e : ∀ (X Y : Fin n → Proc α), X = Y → Reach P (⟨Y, Q⟩ : Net n α)
            ⟨fun i => if i.val = 0 then k0 () else k i (msg i), Q⟩ → Reach P (⟨X, Q⟩ : Net n α)
            ⟨fun i => if i.val = 0 then k0 () else k i (msg i), Q⟩ := by
          rintro X _ rfl h; exact h
        refine e _ _ ?_ (ih (s + 1) (by omega) (by omega))
        funext i
        by_cases hi : i.val = 0
        · have : i = ⟨0, hn⟩ := Fin.ext hi
          subst this
          rw [Function.update_of_ne (Ne.symm h0s), Function.update_self]
          simp
        · by_cases his : i.val = s
          · have : i = ⟨s, hsn⟩ := Fin.ext his
            subst this
            rw [Function.update_self]
            simp only [if_neg hs0]
            rw [if_pos (by omega)]
          · rw [Function.update_of_ne (by intro h; exact his (by rw [h])),
              Function.update_of_ne (by intro h; exact hi (by rw [h]))]
            simp only [if_neg hi]
            have : i.val < s ↔ i.val < s + 1 := by omega
            simp only [this]
  have := main (n - 1) 1 le_rfl (by omega)
  refine Reach.trans ?_ this
  have e : ∀ (X Y : Fin n → Proc α), X = Y → Reach P (⟨X, Q⟩ : Net n α) ⟨Y, Q⟩ := by
    rintro X _ rfl; exact .refl _
  apply e
  funext i
  by_cases hi : i.val = 0
  · rw [if_pos hi, if_pos hi]
  · rw [if_neg hi, if_neg hi, if_neg (by omega)]

/-- The king distributes `ans`. -/
theorem reach_receiveSend (hn : 0 < n) (sid : Sid) (ans : Nat → T) (m : Nat)
    (hans : ∀ i < n, Wire.Ok (ans i) ∧ (Wire.enc (ans i)).length = m)
    (Q : Queues) (hQ : ∀ i, Q (0, i, sid) = []) (hP : ∀ i < n, i ≠ 0 → P (Wire.enc (ans i)) := by intros; exact True.intro) :
    Reach P (⟨fun i => clientReceiveOrKingSendSer n i (if i.val = 0 then some ((List.range n).map ans) else none) sid, Q⟩ :
        Net n T)
      ⟨fun i => .done (.ok (ans i)), Q⟩ := by
  let fin : Bytes → Proc T := fun b => .done (decodeOrError b)
  have hfin : ∀ i < n, fin (Wire.enc (ans i)) = .done (.ok (ans i)) := by
    intro i hi
    simp only [fin, decodeOrError]
    rw [(hans i hi).1]
  have h := reach_scatter hn sid (fun i => Wire.enc (ans i)) m (fun i hi => (hans i hi).2)
    (fun _ => fin (Wire.enc (ans 0))) (fun _ => fin) Q hQ hP
  have e1 : (fun i : Fin n => clientReceiveOrKingSendSer n i (if i.val = 0 then some ((List.range n).map ans) else none) sid) =
      fun i => if i.val = 0 then
        (kingSendLoop ((List.range n).map fun i => Wire.enc (ans i)) m sid ((List.range n).filter (· ≠ 0))).bind
          fun _ => fin (Wire.enc (ans 0))
        else .recv 0 sid fin := by
    funext i
    unfold clientReceiveOrKingSendSer clientReceiveOrKingSend
    by_cases hi : i.val = 0
    · simp only [hi, if_true, Option.map_some, List.map_map]
      have hrd : rd ((List.range n).map (Wire.enc ∘ ans)) 0 = .ok (Wire.enc (ans 0)) := by
        unfold rd
        have : ((List.range n).map (Wire.enc ∘ ans))[0]? = some (Wire.enc (ans 0)) := by simp [hn]
        rw [this]
      simp only [ne_eq, not_true_eq_false, if_false]
      rw [hrd]
      have h0 := (hans 0 hn).2
      show Proc.bind (Proc.bind (.done (.ok _)) _) _ = _
      simp only [Proc.bind]
      rw [h0]
      show Proc.bind (Proc.bind _ _) _ = _
      rw [Proc.bind_assoc]
      rfl
    · simp only [hi, if_false, Option.map_none]
      rfl
  rw [e1]
  refine h.trans ?_
  have e2 : (fun i : Fin n => if i.val = 0 then fin (Wire.enc (ans 0)) else fin (Wire.enc (ans i))) =
      fun i => .done (.ok (ans i)) := by
    funext i
    by_cases hi : i.val = 0
    · rw [if_pos hi, hfin 0 hn, hi]
    · rw [if_neg hi, hfin i i.isLt]
  rw [e2]
  exact .refl _

end rounds

/-! ### Well-formedness -/

theorem lookup_of_mem {L : List (Nat × Bytes)} (h : (L.map Prod.fst).Nodup) {i : Nat} {b : Bytes} (hm : (i, b) ∈ L) :
    L.lookup i = some b := by
  induction L with
  | nil => simp at hm
  | cons e L ih =>
    obtain ⟨j, c⟩ := e
    simp only [List.map_cons, List.nodup_cons] at h
    rcases List.mem_cons.1 hm with e | e
    · cases e; simp [List.lookup]
    · have hij : ¬ i = j := by
        rintro rfl
        exact h.1 (List.mem_map.2 ⟨_, e, rfl⟩)
      rw [List.lookup_cons]
      have : (i == j) = false := by simpa using hij
      rw [this]
      exact ih h.2 e

theorem Enumerates.keys_perm {own : Bytes} {got : Nat → Option Bytes} {L : List (Nat × Bytes)}
    (h : Enumerates n own got L) (hfull : ∀ i, 1 ≤ i → i < n → got i ≠ none) (hn : 0 < n) :
    (L.map Prod.fst).Perm (List.range n) := by
  rw [List.perm_ext_iff_of_nodup h.1 List.nodup_range]
  intro i
  simp only [List.mem_map, List.mem_range, Prod.exists]
  constructor
  · rintro ⟨j, b, hm, rfl⟩
    rcases (h.2 _ _).1 hm with ⟨rfl, _⟩ | ⟨_, h2, _⟩
    · exact hn
    · exact h2
  · intro hi
    by_cases h0 : i = 0
    · exact ⟨i, own, (h.2 _ _).2 (.inl ⟨h0, rfl⟩), rfl⟩
    · obtain ⟨b, hb⟩ := Option.ne_none_iff_exists'.1 (hfull i (by omega) hi)
      exact ⟨i, b, (h.2 _ _).2 (.inr ⟨by omega, hi, hb⟩), rfl⟩

theorem kingFinish_full {own : Bytes} {got : Nat → Option Bytes} {L : List (Nat × Bytes)}
    (h : Enumerates n own got L) (hfull : ∀ i, 1 ≤ i → i < n → got i ≠ none) (hn : 0 < n) :
    kingFinish n L = .ok (.full ((List.range n).map fun i => if i = 0 then own else (got i).getD [])) := by
  have hp := h.keys_perm hfull hn
  unfold kingFinish
  rw [if_pos (by simpa using hp.length_eq)]
  have : (List.range n).mapM (fun x => unwrap (L.lookup x)) =
      .ok ((List.range n).map fun i => if i = 0 then own else (got i).getD []) := by
    apply mapM_ok
    intro i hi
    rw [List.mem_range] at hi
    by_cases h0 : i = 0
    · rw [lookup_of_mem h.1 ((h.2 i own).2 (.inl ⟨h0, rfl⟩)), if_pos h0]; rfl
    · obtain ⟨b, hb⟩ := Option.ne_none_iff_exists'.1 (hfull i (by omega) hi)
      rw [lookup_of_mem h.1 ((h.2 i b).2 (.inr ⟨by omega, hi, hb⟩)), if_neg h0, hb]; rfl
  rw [this]
  rfl

/-- The singleton set of streams. -/
def only (s : Sid) : Sid → Prop := fun x => x = s

theorem clientSendOrKingReceive_wf (hn : 0 < n) (me : Nat) (bytes : Bytes) (sid : Sid) :
    (clientSendOrKingReceive n me bytes sid).WF (only sid) := by
  unfold clientSendOrKingReceive
  split
  · refine .gather rfl (fun L => .done _ _) ?_
    intro got L L' hf h h'
    rw [kingFinish_full h hf hn, kingFinish_full h' hf hn]
  · exact .send rfl (.done _ _)

theorem kingSendLoop_wf (out : List Bytes) (m : Nat) (sid : Sid) (ids : List Nat) :
    (kingSendLoop out m sid ids).WF (only sid) := by
  induction ids with
  | nil => exact .done _ _
  | cons id ids ih =>
    show Proc.WF _ (Proc.bind (.done (rd out id)) _)
    refine Proc.WF.bind (.done _ _) ?_
    intro b
    split
    · exact .done _ _
    · exact .send rfl ih

theorem clientReceiveOrKingSend_wf (me : Nat) (out : Option (List Bytes)) (sid : Sid) :
    (clientReceiveOrKingSend n me out sid).WF (only sid) := by
  unfold clientReceiveOrKingSend
  cases out with
  | none =>
    simp only
    split
    · exact .done _ _
    · exact .recv rfl (fun b => .done _ _)
  | some out =>
    simp only
    split
    · exact .done _ _
    · refine Proc.WF.bind (.done _ _) fun b => Proc.WF.bind (kingSendLoop_wf _ _ _ _) fun _ => .done _ _

theorem sendReceive_wf {T : Type} [Wire T] (hn : 0 < n) (me : Nat) (out : T) (sid : Sid) (threshold : Nat) :
    (clientSendOrKingReceiveSer n me out sid threshold).WF (only sid) :=
  Proc.WF.bind (clientSendOrKingReceive_wf hn _ _ _) fun _ => .done _ _

theorem receiveSend_wf {T : Type} [Wire T] (me : Nat) (out : Option (List T)) (sid : Sid) :
    (clientReceiveOrKingSendSer n me out sid).WF (only sid) := by
  refine Proc.WF.bind (clientReceiveOrKingSend_wf _ _ _) fun b => .done _ _

end ZkSaas
