import Verif.Lemmas.SerNet
import Verif.Model.Protocols

/-! Compositional runs of protocols. -/

set_option linter.unusedSectionVars false

namespace ZkSaas

variable {n : Nat} {α β γ : Type} {P : Bytes → Prop}

/-- From any state of the other streams, the programs can run to completion with results `rs`, leaving the queues as
they were. -/
def Runs (P : Bytes → Prop) (S : Sid → Prop) (ps : Fin n → Proc α) (rs : Fin n → α) : Prop :=
  ∀ Q : Queues, (∀ i j s, S s → Q (i, j, s) = []) → Reach P ⟨ps, Q⟩ ⟨fun i => .done (.ok (rs i)), Q⟩

/-- Messages of at most `B` bytes. -/
abbrev Upto (B : Nat) : Bytes → Prop := fun b => b.length ≤ B

/-- Messages of exactly `B` bytes. -/
abbrev Sized (B : Nat) : Bytes → Prop := fun b => b.length = B

theorem Runs.weaken {P' : Bytes → Prop} {S : Sid → Prop} {ps : Fin n → Proc α} {rs : Fin n → α} (h : Runs P S ps rs)
    (hP : ∀ b, P b → P' b) : Runs P' S ps rs := fun Q hQ =>
  let ⟨k, hk⟩ := h Q hQ
  ⟨k, hk.mono fun _ ha => ⟨ha.1, fun d s b e => hP b (ha.2 d s b e)⟩⟩

theorem Runs.upto {B B' : Nat} {S : Sid → Prop} {ps : Fin n → Proc α} {rs : Fin n → α} (h : Runs (Sized B) S ps rs)
    (hB : B ≤ B') : Runs (Upto B') S ps rs := h.weaken fun _ hb => le_trans (le_of_eq hb) hB

theorem Runs.done {S : Sid → Prop} (rs : Fin n → α) : Runs P S (fun i => .done (.ok (rs i))) rs := fun _ _ => .refl _

theorem Runs.mono {S S' : Sid → Prop} {ps : Fin n → Proc α} {rs : Fin n → α} (h : Runs P S ps rs)
    (hS : ∀ x, S x → S' x) : Runs P S' ps rs := fun Q hQ => h Q fun i j s hs => hQ i j s (hS s hs)

theorem Runs.bind {S : Sid → Prop} {ps : Fin n → Proc α} {rs : Fin n → α} (h : Runs P S ps rs)
    {f : Fin n → α → Proc β} {out : Fin n → β} (hf : Runs P S (fun i => f i (rs i)) out) :
    Runs P S (fun i => (ps i).bind (f i)) out := fun Q hQ => ((h Q hQ).bind f).trans (hf Q hQ)

theorem Runs.congr {S : Sid → Prop} {ps ps' : Fin n → Proc α} {rs rs' : Fin n → α} (h : Runs P S ps rs)
    (hp : ∀ i, ps' i = ps i) (hr : ∀ i, rs' i = rs i) : Runs P S ps' rs' := by
  obtain rfl : ps' = ps := funext hp
  obtain rfl : rs' = rs := funext hr
  exact h

theorem reach_join_aux (k : Fin n → β → γ → Proc α) (rs : Fin n → β) (ss : Fin n → γ) (Q : Queues) (m : Nat) (hm : m ≤ n) :
    Reach P (⟨fun i => .par (.done (.ok (rs i))) (.done (.ok (ss i))) (k i), Q⟩ : Net n α)
      ⟨fun i => if i.val < m then k i (rs i) (ss i) else .par (.done (.ok (rs i))) (.done (.ok (ss i))) (k i), Q⟩ := by
  induction m with
  | zero => simpa using Reach.refl _
  | succ m ih =>
    refine (ih (by omega)).trans ?_
    have hmn : m < n := hm
    have h := Reach.step (P := P) (ps := fun i : Fin n => if i.val < m then k i (rs i) (ss i)
      else .par (.done (.ok (rs i))) (.done (.ok (ss i))) (k i)) (Q := Q) (Q' := Q) ⟨m, hmn⟩ .tau
      (k ⟨m, hmn⟩ (rs ⟨m, hmn⟩) (ss ⟨m, hmn⟩)) core_tau
      (by simp only [lt_irrefl, if_false]; exact .join _ _ _) rfl
    have e : Function.update (fun i : Fin n => if i.val < m then k i (rs i) (ss i)
      else .par (.done (.ok (rs i))) (.done (.ok (ss i))) (k i)) ⟨m, hmn⟩ (k ⟨m, hmn⟩ (rs ⟨m, hmn⟩) (ss ⟨m, hmn⟩)) =
      fun i => if i.val < m + 1 then k i (rs i) (ss i) else .par (.done (.ok (rs i))) (.done (.ok (ss i))) (k i) := by
      funext i
      by_cases hi : i.val = m
      · have : i = ⟨m, hmn⟩ := Fin.ext hi
        subst this
        rw [Function.update_self]
        simp
      · rw [Function.update_of_ne (by intro h; exact hi (by rw [h]))]
        have : i.val < m ↔ i.val < m + 1 := by omega
        simp only [this]
    rw [e] at h
    exact h

theorem Runs.par {S S1 S2 : Sid → Prop} {ps : Fin n → Proc β} {rs : Fin n → β} {qs : Fin n → Proc γ} {ss : Fin n → γ}
    (hp : Runs P S1 ps rs) (hq : Runs P S2 qs ss) (h1 : ∀ x, S1 x → S x) (h2 : ∀ x, S2 x → S x)
    {k : Fin n → β → γ → Proc α} {out : Fin n → α} (hk : Runs P S (fun i => k i (rs i) (ss i)) out) :
    Runs P S (fun i => .par (ps i) (qs i) (k i)) out := by
  intro Q hQ
  have r1 := (hp Q fun i j s hs => hQ i j s (h1 s hs)).lift (fun i p => Proc.par p (qs i) (k i))
    fun i p a p' h => .parL _ _ _ _ _ h
  have r2 := (hq Q fun i j s hs => hQ i j s (h2 s hs)).lift (fun i q => Proc.par (.done (.ok (rs i))) q (k i))
    fun i p a p' h => .parR _ _ _ _ _ h
  refine (r1.trans r2).trans (Reach.trans ?_ (hk Q hQ))
  have := reach_join_aux (P := P) k rs ss Q n le_rfl
  simpa using this

/-- A run and well-formedness determine every reliable execution. -/
theorem Runs.alwaysYields {S : Sid → Prop} {ps : Fin n → Proc α} {rs : Fin n → α} (h : Runs P S ps rs)
    (hwf : ∀ i, (ps i).WF S) : Spec.AlwaysYields (Net.init ps) rs := by
  obtain ⟨m, hm⟩ := h (fun _ => []) (fun _ _ _ _ => rfl)
  exact alwaysYields_of_run (fun i => ⟨S, hwf i⟩) hm

theorem Runs.sendsOnly {S : Sid → Prop} {ps : Fin n → Proc α} {rs : Fin n → α} (h : Runs P S ps rs)
    (hwf : ∀ i, (ps i).WF S) : Spec.SendsOnly P (Net.init ps) := by
  obtain ⟨m, hm⟩ := h (fun _ => []) (fun _ _ _ _ => rfl)
  exact fun k c' hk i d s b p' hs => sends_of_run (fun i => ⟨S, hwf i⟩) hm hk hs

/-- A run with short messages is a run on a network that transports only short messages. -/
theorem Runs.alwaysYieldsWithin {B lim : Nat} {S : Sid → Prop} {ps : Fin n → Proc α} {rs : Fin n → α}
    (h : Runs (Upto B) S ps rs) (hwf : ∀ i, (ps i).WF S) (hB : B ≤ lim) : Spec.AlwaysYieldsWithin lim (Net.init ps) rs := by
  obtain ⟨⟨m, h1⟩, h2⟩ := h.alwaysYields hwf
  refine ⟨⟨m, fun k c' hk => h1 k c' (hk.mono fun _ ha => ha.1)⟩, fun k c' hk hs => h2 k c' (hk.mono fun _ ha => ha.1) ?_⟩
  rintro ⟨c'', hc⟩
  refine hs ⟨c'', ?_⟩
  cases hc with
  | mk procs Q Q' i a p' ha hstep hq =>
    refine .mk procs Q Q' i a p' ⟨ha, ?_⟩ hstep hq
    rintro d s b rfl
    exact le_trans (h.sendsOnly hwf k _ (hk.mono fun _ ha => ha.1) i d s b p' hstep) hB

/-- Programs that cannot finish without sending a message of more than `lim` bytes. -/
inductive Blocked (lim : Nat) : {α : Type} → Proc α → Prop where
  | error {α : Type} (e : Fault) : Blocked lim (.done (.error e) : Proc α)
  | send {α : Type} (dst : Nat) (sid : Sid) (b : Bytes) (k : Proc α) (h : lim < b.length) : Blocked lim (.send dst sid b k)
  | parL {α β γ : Type} (p : Proc β) (q : Proc γ) (k : β → γ → Proc α) (h : Blocked lim p) : Blocked lim (.par p q k)
  | parR {α β γ : Type} (p : Proc β) (q : Proc γ) (k : β → γ → Proc α) (h : Blocked lim q) : Blocked lim (.par p q k)

theorem Blocked.bind {lim : Nat} {p : Proc α} (h : Blocked lim p) (f : α → Proc β) : Blocked lim (p.bind f) := by
  cases h with
  | error e => exact .error e
  | send d s b k h => exact .send _ _ _ _ h
  | parL p q k h => exact .parL _ _ _ h
  | parR p q k h => exact .parR _ _ _ h

theorem Blocked.step {lim : Nat} {p p' : Proc α} {a : Act} (h : Blocked lim p) (hs : LStep p a p') (ha : Spec.Within lim a) :
    Blocked lim p' := by
  induction h generalizing a with
  | error e => cases hs
  | send d s b k h =>
    cases hs with
    | send => exact absurd (ha _ _ _ rfl) (by omega)
    | sendFail => exact .error _
  | parL p q k h ih =>
    cases hs with
    | parL _ _ _ _ _ hst => exact .parL _ _ _ (ih hst ha)
    | parR _ _ _ _ _ hst => exact .parL _ _ _ h
    | join => cases h
    | abortL => exact .error _
    | abortR => exact .error _
  | parR p q k h ih =>
    cases hs with
    | parL _ _ _ _ _ hst => exact .parR _ _ _ h
    | parR _ _ _ _ _ hst => exact .parR _ _ _ (ih hst ha)
    | join => cases h
    | abortL => exact .error _
    | abortR => exact .error _

theorem Blocked.neverFinishes {lim : Nat} {c : Net n α} {i : Fin n} (h : Blocked lim (c.procs i)) : Spec.NeverFinishes lim c i := by
  intro k c' hk v
  suffices Blocked lim (c'.procs i) by intro e; rw [e] at this; cases this
  induction hk with
  | refl => exact h
  | step h1 _ ih =>
    apply ih
    cases h1 with
    | mk procs Q Q' j a p' ha hstep hq =>
      by_cases hij : i = j
      · subst hij; simpa using h.step hstep ha
      · simpa [Function.update_of_ne hij] using h

theorem Blocked.neverFinishes_init {lim : Nat} (ps : Fin n → Proc α) (i : Fin n) (h : Blocked lim (ps i)) :
    Spec.NeverFinishes lim (Net.init ps) i := Blocked.neverFinishes h

/-- A client whose message to the king is too long. -/
theorem blocked_round {T : Type} [Wire T] {lim n me : Nat} (hme : me ≠ 0) (x : T) (sid : Sid) (threshold : Nat)
    (hx : lim < (Wire.enc x).length) (f : Option (ReceivedShares T) → Proc β) :
    Blocked lim ((clientSendOrKingReceiveSer n me x sid threshold).bind f) := by
  unfold clientSendOrKingReceiveSer clientSendOrKingReceive
  simp only [hme, if_false]
  exact Blocked.bind (.send _ _ _ _ hx) _

theorem Runs.lift_bind {S : Sid → Prop} {f : Fin n → α → Proc β} {r : Fin n → Res α} {rs : Fin n → α} {out : Fin n → β}
    (hr : ∀ i, r i = .ok (rs i)) (h : Runs P S (fun i => f i (rs i)) out) :
    Runs P S (fun i => (Proc.done (r i)).bind (f i)) out := by
  refine h.congr (fun i => ?_) fun _ => rfl
  rw [hr i]; rfl

/-- A complete star round: everybody sends, the king computes, everybody receives. -/
theorem runs_round {T U : Type} [Wire T] [Wire U] (hn : 0 < n) (sid : Sid) (threshold : Nat) (x : Nat → T)
    (hx : ∀ i < n, Wire.Ok (x i)) (K : Fin n → ReceivedShares T → Res (List U)) (ans : Nat → U) (m : Nat)
    (hK : K ⟨0, hn⟩ ⟨(List.range n).map x, List.range n⟩ = .ok ((List.range n).map ans))
    (hans : ∀ i < n, Wire.Ok (ans i) ∧ (Wire.enc (ans i)).length = m) (f : Fin n → U → Proc α) {out : Fin n → α}
    (hf : Runs P (only sid) (fun i => f i (ans i)) out)
    (hPx : ∀ i < n, i ≠ 0 → P (Wire.enc (x i)) := by intros; exact True.intro) (hPa : ∀ i < n, i ≠ 0 → P (Wire.enc (ans i)) := by intros; exact True.intro) :
    Runs P (only sid) (fun i : Fin n => (clientSendOrKingReceiveSer n i (x i) sid threshold).bind fun r =>
      (Proc.done (kingDo (K i) r)).bind fun a => (clientReceiveOrKingSendSer n i a sid).bind (f i)) out := by
  refine Runs.bind (S := only sid) (ps := fun i : Fin n => clientSendOrKingReceiveSer n i (x i) sid threshold)
    (rs := fun i => if i.val = 0 then some (ReceivedShares.mk ((List.range n).map x) (List.range n)) else none)
    (fun Q hQ => reach_sendReceive hn sid threshold x hx Q (fun i => hQ i 0 sid rfl) hPx) ?_
  refine Runs.lift_bind (rs := fun i => if i.val = 0 then some ((List.range n).map ans) else none) ?_ ?_
  · intro i
    by_cases hi : i.val = 0
    · have : i = ⟨0, hn⟩ := Fin.ext hi
      subst this
      simp only [if_true, kingDo, hK]
      rfl
    · simp only [hi, if_false, kingDo]
  · exact Runs.bind (S := only sid) (rs := fun i => ans i)
      (fun Q hQ => reach_receiveSend hn sid ans m hans Q (fun i => hQ 0 i sid rfl) hPa) hf

theorem kingSendLoop_congr {bs bs' : List Bytes} (m : Nat) (sid : Sid) {ids : List Nat} (h : ∀ id ∈ ids, bs[id]? = bs'[id]?) :
    kingSendLoop bs m sid ids = kingSendLoop bs' m sid ids := by
  induction ids with
  | nil => rfl
  | cons id ids ih =>
    unfold kingSendLoop
    rw [rd, rd, h id (by simp), ih fun j hj => h j (by simp [hj])]

/-- The king sends the first `n` answers; it does not look at the others. -/
theorem receiveSend_take {T : Type} [Wire T] (hn : 0 < n) (me : Nat) (ys : List T) (sid : Sid) :
    clientReceiveOrKingSendSer n me (some ys) sid = clientReceiveOrKingSendSer n me (some (ys.take n)) sid := by
  unfold clientReceiveOrKingSendSer clientReceiveOrKingSend
  by_cases hme : me = 0
  · subst hme
    have e : ∀ id < n, (ys.map Wire.enc)[id]? = ((ys.take n).map Wire.enc)[id]? := fun id hid => by
      rw [List.getElem?_map, List.getElem?_map, List.getElem?_take_of_lt hid]
    simp only [Option.map_some, ne_eq, not_true_eq_false, if_false, rd, e 0 hn]
    congr 3
    funext b
    rw [kingSendLoop_congr _ _ fun id hid => e id (List.mem_range.1 (List.mem_of_mem_filter hid))]
  · simp only [Option.map_some, ne_eq, hme, not_false_eq_true, if_true]

/-- A complete star round of `n` parties in which the king computes at least `n` answers. -/
theorem runs_round_more {T U : Type} [Wire T] [Wire U] (hn : 0 < n) (sid : Sid) (threshold : Nat) (x : Nat → T)
    (hx : ∀ i < n, Wire.Ok (x i)) (K : Fin n → ReceivedShares T → Res (List U)) (ans : Nat → U) (m N : Nat) (hN : n ≤ N)
    (hK : K ⟨0, hn⟩ ⟨(List.range n).map x, List.range n⟩ = .ok ((List.range N).map ans))
    (hans : ∀ i < n, Wire.Ok (ans i) ∧ (Wire.enc (ans i)).length = m) (f : Fin n → U → Proc α) {out : Fin n → α}
    (hf : Runs P (only sid) (fun i => f i (ans i)) out)
    (hPx : ∀ i < n, i ≠ 0 → P (Wire.enc (x i)) := by intros; exact True.intro) (hPa : ∀ i < n, i ≠ 0 → P (Wire.enc (ans i)) := by intros; exact True.intro) :
    Runs P (only sid) (fun i : Fin n => (clientSendOrKingReceiveSer n i (x i) sid threshold).bind fun r =>
      (Proc.done (kingDo (K i) r)).bind fun a => (clientReceiveOrKingSendSer n i a sid).bind (f i)) out := by
  refine (runs_round hn sid threshold x hx (fun i rs => (K i rs).map (List.take n)) ans m ?_ hans f hf hPx hPa).congr (fun i => ?_) fun _ => rfl
  · simp only [hK]
    show Except.ok (((List.range N).map ans).take n) = _
    rw [← List.map_take, List.take_range, Nat.min_eq_left hN]
  · congr 1
    funext r
    cases r with
    | none => rfl
    | some rs =>
      simp only [kingDo]
      cases K i rs with
      | error e => rfl
      | ok ys =>
        show (clientReceiveOrKingSendSer n i (some ys) sid).bind (f i) = (clientReceiveOrKingSendSer n i (some (ys.take n)) sid).bind (f i)
        rw [receiveSend_take hn]

/-- A star round in which the king's computation fails. -/
theorem round_king_fails {T U : Type} [Wire T] [Wire U] (hn : 0 < n) (sid : Sid) (threshold : Nat) (x : Nat → T)
    (hx : ∀ i < n, Wire.Ok (x i)) (K : Fin n → ReceivedShares T → Res (List U)) (e : Fault)
    (hK : K ⟨0, hn⟩ ⟨(List.range n).map x, List.range n⟩ = .error e) (f : Fin n → U → Proc α)
    (hf : ∀ i y, (f i y).WF (only sid)) :
    Spec.AlwaysKingFails (Net.init fun i : Fin n => (clientSendOrKingReceiveSer n i (x i) sid threshold).bind fun r =>
      (Proc.done (kingDo (K i) r)).bind fun a => (clientReceiveOrKingSendSer n i a sid).bind (f i)) e := by
  obtain ⟨m, hm⟩ := (reach_sendReceive (P := All) hn sid threshold x hx (fun _ => []) fun i => rfl).bind
    (fun i r => (Proc.done (kingDo (K i) r)).bind fun a => (clientReceiveOrKingSendSer n i a sid).bind (f i))
  have hprocs : ∀ i : Fin n, ((Proc.done (.ok (if i.val = 0 then some (⟨(List.range n).map x, List.range n⟩ : ReceivedShares T)
      else none)) : Proc (Option (ReceivedShares T))).bind (fun r => (Proc.done (kingDo (K i) r)).bind fun a =>
        (clientReceiveOrKingSendSer n i a sid).bind (f i))) =
      if i.val = 0 then .done (.error e) else .recv 0 sid fun b => (Proc.done (decodeOrError b)).bind (f i) := by
    intro i
    by_cases hi : i.val = 0
    · have : i = ⟨0, hn⟩ := Fin.ext hi
      subst this
      simp only [if_true, Proc.bind, kingDo, hK]
      rfl
    · simp only [hi, if_false, Proc.bind, kingDo]
      simp only [clientReceiveOrKingSendSer, clientReceiveOrKingSend, Option.map_none, hi, if_false]
      rfl
  have hstuck : ∀ ok : Act → Prop, (∀ a, ok a → a ≠ .fault) → ¬ ∃ c', GStep ok (⟨fun i : Fin n => if i.val = 0 then .done (.error e) else
      .recv 0 sid fun b => (Proc.done (decodeOrError b)).bind (f i), fun _ => []⟩ : Net n α) c' := by
    rintro ok hok ⟨c', h⟩
    cases h with
    | mk procs Q Q' i a p' ha hstep hq =>
      by_cases hi : i.val = 0
      · simp only [hi, if_true] at hstep
        cases hstep
      · simp only [hi, if_false] at hstep
        cases hstep with
        | recv => simp [qstep] at hq
        | recvFail => exact hok _ ha rfl
  have hm' : GSteps (CoreP All) m (Net.init fun i : Fin n => (clientSendOrKingReceiveSer n i (x i) sid threshold).bind fun r =>
      (Proc.done (kingDo (K i) r)).bind fun a => (clientReceiveOrKingSendSer n i a sid).bind (f i))
      ⟨fun i : Fin n => if i.val = 0 then .done (.error e) else
        .recv 0 sid fun b => (Proc.done (decodeOrError b)).bind (f i), fun _ => []⟩ := by
    have := hm
    simp only [hprocs] at this
    exact this
  obtain ⟨h1, h2⟩ := reliable_of_run (fun i => ⟨only sid, (sendReceive_wf hn _ _ _ _).bind fun _ => (Proc.WF.done _ _).bind fun _ =>
      (receiveSend_wf _ _ _).bind (hf i)⟩) hm' (hstuck Core fun a ha => ha.1)
    (by
      intro i h
      simp only at h
      split at h <;> cases h)
  refine ⟨⟨m, h1⟩, fun k c' h hs i => ?_⟩
  rw [h2 k c' h hs]
  refine ⟨fun hi => by simp only [hi, if_true], fun hi => ⟨sid, fun b => (Proc.done (decodeOrError b)).bind (f i), by simp only [hi, if_false], rfl⟩⟩

theorem round_wf {T U : Type} [Wire T] [Wire U] (hn : 0 < n) (sid : Sid) (threshold me : Nat) (x : T)
    (K : ReceivedShares T → Res (List U)) (f : U → Proc α) (hf : ∀ y, (f y).WF (only sid)) :
    ((clientSendOrKingReceiveSer n me x sid threshold).bind fun r =>
      (Proc.done (kingDo K r)).bind fun a => (clientReceiveOrKingSendSer n me a sid).bind f).WF (only sid) :=
  (sendReceive_wf hn _ _ _ _).bind fun _ => (Proc.WF.done _ _).bind fun _ => (receiveSend_wf _ _ _).bind hf

end ZkSaas
