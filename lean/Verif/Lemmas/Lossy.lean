import Verif.Lemmas.Runs

/-! One star round on a network where anything can fail: messages can be late, receives and sends can fail, the king's
time-out can fire at any moment. Whatever happens, all parties that succeed used the answer of one and the same king
computation on a set of messages that were really sent. -/

set_option linter.unusedSectionVars false

namespace ZkSaas

open Spec

variable {n : Nat} {α T U : Type} [Wire T] [Wire U]

/-- A star round followed by a local computation. -/
def starProg (n me : Nat) (x : T) (sid : Sid) (threshold : Nat) (K : ReceivedShares T → Res (List U)) (fin : U → Res α) :
    Proc α :=
  (clientSendOrKingReceiveSer n me x sid threshold).bind fun r =>
    (Proc.done (kingDo K r)).bind fun a => (clientReceiveOrKingSendSer n me a sid).bind fun y => .done (fin y)

/-- What the king computes from the entries of its hash map. -/
def kingOut (n threshold : Nat) (K : ReceivedShares T → Res (List U)) (L : List (Nat × Bytes)) : Res (List U) := do
  let kr ← kingFinish n L
  let rs ← decodeReceived (T := T) n threshold (some kr)
  let a ← kingDo K rs
  match a with
  | some a => pure a
  | none => panic'

/-- A process that only sends entries of `out`, each to the party of its index, and then ends. -/
inductive Scattering (out : List Bytes) (sid : Sid) (P : α → Prop) : Proc α → Prop where
  | done (r : Res α) (h : ∀ v, r = .ok v → P v) : Scattering out sid P (.done r)
  | send (id : Nat) (b : Bytes) (p : Proc α) (hb : out[id]? = some b) (h : Scattering out sid P p) :
      Scattering out sid P (.send id sid b p)

/-- Party `i` ends with `v` when it is sent entry `i` of `out`. -/
def Outcome (out : List Bytes) (i : Nat) (fin : U → Res α) (v : α) : Prop :=
  ∃ b y, out[i]? = some b ∧ decodeOrError (T := U) b = .ok y ∧ fin y = .ok v

theorem scattering_loop (out : List Bytes) (sid : Sid) (m : Nat) (fin : U → Res α) (ids : List Nat) :
    Scattering out sid (Outcome out 0 fin) ((kingSendLoop out m sid ids).bind fun _ =>
      (Proc.done (rd out 0)).bind fun b => (Proc.done (decodeOrError (T := U) b)).bind fun y => .done (fin y)) := by
  induction ids with
  | nil =>
    show Scattering out sid _ ((Proc.done (rd out 0)).bind _)
    unfold rd
    cases hb : out[0]? with
    | none => exact .done _ (by simp)
    | some b =>
      show Scattering out sid _ ((Proc.done (decodeOrError b)).bind _)
      cases hy : (decodeOrError b : Res U) with
      | error e => exact .done _ (by simp)
      | ok y => exact .done _ fun v hv => ⟨b, y, hb, hy, hv⟩
  | cons id ids ih =>
    cases hb : out[id]? with
    | none =>
      show Scattering out sid _ (Proc.bind (Proc.bind (.done (rd out id)) _) _)
      unfold rd
      rw [hb]
      exact .done _ (by simp)
    | some b =>
      by_cases hm : b.length = m
      · rw [kingSendLoop_bind out m sid _ id ids b hb hm]
        exact .send _ _ _ hb ih
      · show Scattering out sid _ (Proc.bind (Proc.bind (.done (rd out id)) _) _)
        unfold rd
        rw [hb]
        simp only [Proc.bind]
        rw [if_pos hm]
        exact .done _ (by simp)

/-- The bytes the king sends. -/
def kingBytes (n threshold : Nat) (K : ReceivedShares T → Res (List U)) (L : List (Nat × Bytes)) : List Bytes :=
  match kingOut n threshold K L with
  | .ok a => a.map Wire.enc
  | .error _ => []

/-- The king's continuation after the gather. -/
def kingAfter (n : Nat) (sid : Sid) (threshold : Nat) (K : ReceivedShares T → Res (List U)) (fin : U → Res α)
    (L : List (Nat × Bytes)) : Proc α :=
  (((Proc.done ((kingFinish n L).map some)).bind fun r => .done (decodeReceived (T := T) n threshold r)).bind fun r =>
    (Proc.done (kingDo K r)).bind fun a => (clientReceiveOrKingSendSer n 0 a sid).bind fun y => .done (fin y))

theorem starProg_king (x : T) (sid : Sid) (threshold : Nat) (K : ReceivedShares T → Res (List U)) (fin : U → Res α) :
    starProg n 0 x sid threshold K fin = .gather sid n (Wire.enc x) (fun _ => none) (kingAfter n sid threshold K fin) := rfl

/-- A client waiting for the king. -/
def clientWait (sid : Sid) (fin : U → Res α) : Proc α :=
  .recv 0 sid fun b => (Proc.done (decodeOrError (T := U) b)).bind fun y => .done (fin y)

theorem starProg_client {me : Nat} (hme : me ≠ 0) (x : T) (sid : Sid) (threshold : Nat) (K : ReceivedShares T → Res (List U))
    (fin : U → Res α) :
    starProg n me x sid threshold K fin = .send 0 sid (Wire.enc x) (clientWait sid fin) := by
  unfold starProg clientSendOrKingReceiveSer clientSendOrKingReceive
  rw [if_neg hme]
  show Proc.send 0 sid (Wire.enc x) ((clientReceiveOrKingSendSer n me none sid).bind _) = _
  unfold clientReceiveOrKingSendSer clientReceiveOrKingSend
  simp only [Option.map_none, if_neg hme]
  rfl

theorem scattering_kingAfter (sid : Sid) (threshold : Nat) (K : ReceivedShares T → Res (List U)) (fin : U → Res α)
    (L : List (Nat × Bytes)) :
    Scattering (kingBytes n threshold K L) sid (Outcome (kingBytes n threshold K L) 0 fin) (kingAfter n sid threshold K fin L) := by
  unfold kingAfter
  cases h1 : kingFinish n L with
  | error e => exact .done _ (by simp)
  | ok kr =>
    cases h2 : decodeReceived (T := T) n threshold (some kr) with
    | error e =>
      simp only [Except.map, Proc.bind, h2]
      exact .done _ (by simp)
    | ok rs =>
      simp only [Except.map, Proc.bind, h2]
      cases h3 : kingDo K rs with
      | error e => exact .done _ (by simp)
      | ok a =>
        cases a with
        | none => exact .done _ (by simp [clientReceiveOrKingSendSer, clientReceiveOrKingSend])
        | some answers =>
          have hout : kingBytes n threshold K L = answers.map Wire.enc := by
            unfold kingBytes kingOut
            rw [h1, ok_bind, h2, ok_bind, h3]
            rfl
          rw [hout]
          show Scattering _ sid _ ((clientReceiveOrKingSendSer n 0 (some answers) sid).bind _)
          unfold clientReceiveOrKingSendSer clientReceiveOrKingSend
          simp only [Option.map_some, ne_eq, not_true_eq_false, if_false]
          show Scattering _ sid _ ((Proc.bind (Proc.bind (.done (rd (answers.map Wire.enc) 0)) _) _).bind _)
          cases hb : rd (answers.map Wire.enc) 0 with
          | error e => exact .done _ (by simp)
          | ok b0 =>
            have := scattering_loop (answers.map Wire.enc) sid b0.length fin ((List.range n).filter (· ≠ 0))
            rw [hb] at this
            simp only [Proc.bind] at this ⊢
            rw [Proc.bind_eq, Proc.bind_assoc, Proc.bind_assoc]
            exact this

section inv
variable (hn : 0 < n) (sid : Sid) (threshold : Nat) (x : Nat → T) (K : ReceivedShares T → Res (List U)) (fin : Nat → U → Res α)
  (P : (Nat → Option Bytes) → Prop)

/-- `got` only has messages that were sent. -/
def Sent (x : Nat → T) (got : Nat → Option Bytes) : Prop := ∀ i b, got i = some b → b = Wire.enc (x i)

/-- The states of a round. -/
def LossyInv (c : Net n α) : Prop :=
  (∃ got, P got ∧ Sent x got ∧ c.procs ⟨0, hn⟩ = .gather sid n (Wire.enc (x 0)) got (kingAfter n sid threshold K (fin 0)) ∧
    (∀ j b, b ∈ c.queues (j, 0, sid) → b = Wire.enc (x j)) ∧ (∀ j, c.queues (0, j, sid) = []) ∧
    ∀ i : Fin n, i.val ≠ 0 → c.procs i = .send 0 sid (Wire.enc (x i)) (clientWait sid (fin i)) ∨
      c.procs i = clientWait sid (fin i) ∨ ∃ e, c.procs i = .done (.error e)) ∨
  (∃ got L, P got ∧ Sent x got ∧ Enumerates n (Wire.enc (x 0)) got L ∧
    Scattering (kingBytes n threshold K L) sid (Outcome (kingBytes n threshold K L) 0 (fin 0)) (c.procs ⟨0, hn⟩) ∧
    (∀ j b, b ∈ c.queues (0, j, sid) → (kingBytes n threshold K L)[j]? = some b) ∧
    ∀ i : Fin n, i.val ≠ 0 → c.procs i = .send 0 sid (Wire.enc (x i)) (clientWait sid (fin i)) ∨
      c.procs i = clientWait sid (fin i) ∨
      ∃ r, c.procs i = .done r ∧ ∀ v, r = .ok v → Outcome (kingBytes n threshold K L) i (fin i) v)

theorem lossyInv_step (hP : ∀ got i b, got i = none → P got → P (Function.update got i (some b)))
    {c c' : Net n α} (hinv : LossyInv hn sid threshold x K fin P c) (h : GStep Any c c') :
    LossyInv hn sid threshold x K fin P c' := by
  cases h with
  | mk procs Q Q' i a p' _ hstep hq =>
  rcases hinv with ⟨got, hPg, hs, hk, hq0, hqk, hc⟩ | ⟨got, L, hPg, hs, hL, hk, hqk, hc⟩
  · simp only at hk hq0 hqk hc
    by_cases hi : i.val = 0
    · obtain rfl : i = ⟨0, hn⟩ := Fin.ext hi
      rw [hk] at hstep
      have hne : ∀ j : Fin n, j.val ≠ 0 → j ≠ ⟨0, hn⟩ := fun j hj h => hj (by rw [h])
      cases hstep with
      | gatherRecv _ _ _ _ _ j b h1 h2 h3 =>
        left
        simp only [qstep] at hq
        have hqj : ∃ rest, Q (j, 0, sid) = b :: rest ∧ Q' = Function.update Q (j, 0, sid) rest := by
          cases hQ : Q (j, 0, sid) with
          | nil => rw [hQ] at hq; cases hq
          | cons y rest =>
            rw [hQ] at hq
            simp only at hq
            split at hq
            · next hy => cases hq; exact ⟨rest, by rw [hy], rfl⟩
            · cases hq
        obtain ⟨rest, hQ, rfl⟩ := hqj
        refine ⟨_, hP got j b h3 hPg, ?_, by simp only [Function.update_self], ?_, ?_, ?_⟩
        · intro i' b' h
          by_cases hij : i' = j
          · subst hij
            rw [Function.update_self] at h
            cases h
            exact hq0 _ _ (by rw [hQ]; simp)
          · rw [Function.update_of_ne hij] at h
            exact hs _ _ h
        · intro j' b' h
          simp only at h
          by_cases hij : j' = j
          · subst hij
            rw [Function.update_self] at h
            exact hq0 _ _ (by rw [hQ]; simp [h])
          · rw [Function.update_of_ne (by simp [hij])] at h
            exact hq0 _ _ h
        · intro j'
          simp only
          rw [Function.update_of_ne (by
            intro h
            have := congrArg Prod.fst h
            simp only at this
            omega)]
          exact hqk j'
        · intro i' hi'
          simp only
          rw [Function.update_of_ne (hne i' hi')]
          exact hc i' hi'
      | gatherDone _ _ _ _ _ L hfull hL =>
        right
        cases hq
        refine ⟨got, L, hPg, hs, hL, ?_, ?_, ?_⟩
        · simp only [Function.update_self]
          exact scattering_kingAfter _ _ _ _ _
        · intro j b h; simp only at h; rw [hqk] at h; cases h
        · intro i' hi'
          simp only
          rw [Function.update_of_ne (hne i' hi')]
          rcases hc i' hi' with h | h | ⟨e, h⟩
          · exact Or.inl h
          · exact Or.inr (Or.inl h)
          · exact Or.inr (Or.inr ⟨_, h, by simp⟩)
      | gatherExpire _ _ _ _ _ L hL =>
        right
        cases hq
        refine ⟨got, L, hPg, hs, hL, ?_, ?_, ?_⟩
        · simp only [Function.update_self]
          exact scattering_kingAfter _ _ _ _ _
        · intro j b h; simp only at h; rw [hqk] at h; cases h
        · intro i' hi'
          simp only
          rw [Function.update_of_ne (hne i' hi')]
          rcases hc i' hi' with h | h | ⟨e, h⟩
          · exact Or.inl h
          · exact Or.inr (Or.inl h)
          · exact Or.inr (Or.inr ⟨_, h, by simp⟩)
    · left
      have hk' : Function.update procs i p' ⟨0, hn⟩ = .gather sid n (Wire.enc (x 0)) got (kingAfter n sid threshold K (fin 0)) := by
        rw [Function.update_of_ne (by intro h; exact hi (by rw [← h]))]
        exact hk
      have upd : ∀ (r : Proc α), (r = .send 0 sid (Wire.enc (x i)) (clientWait sid (fin i)) ∨
          r = clientWait sid (fin i) ∨ ∃ e, r = .done (.error e)) → ∀ j : Fin n, j.val ≠ 0 →
          Function.update procs i r j = .send 0 sid (Wire.enc (x j)) (clientWait sid (fin j)) ∨
          Function.update procs i r j = clientWait sid (fin j) ∨ ∃ e, Function.update procs i r j = .done (.error e) := by
        intro r hr j hj
        by_cases hij : j = i
        · subst hij; rw [Function.update_self]; exact hr
        · rw [Function.update_of_ne hij]; exact hc j hj
      rcases hc i hi with h | h | ⟨e, h⟩
      · rw [h] at hstep
        cases hstep with
        | send =>
          cases hq
          refine ⟨got, hPg, hs, hk', ?_, ?_, upd _ (Or.inr (Or.inl rfl))⟩
          · intro j b hb
            simp only at hb
            by_cases hij : j = i.val
            · subst hij
              rw [Function.update_self] at hb
              rcases List.mem_append.1 hb with hb | hb
              · exact hq0 _ _ hb
              · simpa using hb
            · rw [Function.update_of_ne (by simp [hij])] at hb
              exact hq0 _ _ hb
          · intro j
            simp only
            rw [Function.update_of_ne (by
              intro h
              have := congrArg Prod.fst h
              simp only at this
              omega)]
            exact hqk j
        | sendFail =>
          cases hq
          exact ⟨got, hPg, hs, hk', hq0, hqk, upd _ (Or.inr (Or.inr ⟨_, rfl⟩))⟩
      · rw [h] at hstep
        cases hstep with
        | recv _ _ b =>
          simp only [qstep] at hq
          rw [hqk] at hq
          cases hq
        | recvFail =>
          cases hq
          exact ⟨got, hPg, hs, hk', hq0, hqk, upd _ (Or.inr (Or.inr ⟨_, rfl⟩))⟩
      · rw [h] at hstep
        cases hstep
  · right
    simp only at hk hqk hc
    by_cases hi : i.val = 0
    · obtain rfl : i = ⟨0, hn⟩ := Fin.ext hi
      have hne : ∀ j : Fin n, j.val ≠ 0 → j ≠ ⟨0, hn⟩ := fun j hj h => hj (by rw [h])
      have hcl : ∀ i' : Fin n, i'.val ≠ 0 → Function.update procs ⟨0, hn⟩ p' i' =
          .send 0 sid (Wire.enc (x i')) (clientWait sid (fin i')) ∨
          Function.update procs ⟨0, hn⟩ p' i' = clientWait sid (fin i') ∨
          ∃ r, Function.update procs ⟨0, hn⟩ p' i' = .done r ∧
            ∀ v, r = .ok v → Outcome (kingBytes n threshold K L) i' (fin i') v := by
        intro i' hi'
        rw [Function.update_of_ne (hne i' hi')]
        exact hc i' hi'
      generalize hp0 : procs ⟨0, hn⟩ = p0 at hk hstep
      cases hk with
      | done r h => cases hstep
      | send id b p hb h =>
        cases hstep with
        | send =>
          cases hq
          refine ⟨got, L, hPg, hs, hL, ?_, ?_, hcl⟩
          · simp only [Function.update_self]; exact h
          · intro j b' hb'
            simp only at hb'
            by_cases hij : j = id
            · subst hij
              rw [Function.update_self] at hb'
              rcases List.mem_append.1 hb' with h' | h'
              · exact hqk _ _ h'
              · rw [List.mem_singleton.1 h']; exact hb
            · rw [Function.update_of_ne (by simp [hij])] at hb'
              exact hqk _ _ hb'
        | sendFail =>
          cases hq
          exact ⟨got, L, hPg, hs, hL, by simp only [Function.update_self]; exact .done _ (by simp), hqk, hcl⟩
    · have hk' : Scattering (kingBytes n threshold K L) sid (Outcome (kingBytes n threshold K L) 0 (fin 0))
          (Function.update procs i p' ⟨0, hn⟩) := by
        rw [Function.update_of_ne (by intro h; exact hi (by rw [← h]))]
        exact hk
      have upd : ∀ (r : Proc α), (r = .send 0 sid (Wire.enc (x i)) (clientWait sid (fin i)) ∨
          r = clientWait sid (fin i) ∨ ∃ s, r = .done s ∧ ∀ v, s = .ok v → Outcome (kingBytes n threshold K L) i (fin i) v) →
          ∀ j : Fin n, j.val ≠ 0 →
          Function.update procs i r j = .send 0 sid (Wire.enc (x j)) (clientWait sid (fin j)) ∨
          Function.update procs i r j = clientWait sid (fin j) ∨
          ∃ s, Function.update procs i r j = .done s ∧ ∀ v, s = .ok v → Outcome (kingBytes n threshold K L) j (fin j) v := by
        intro r hr j hj
        by_cases hij : j = i
        · subst hij; rw [Function.update_self]; exact hr
        · rw [Function.update_of_ne hij]; exact hc j hj
      rcases hc i hi with h | h | ⟨r, h, -⟩
      · rw [h] at hstep
        cases hstep with
        | send =>
          cases hq
          refine ⟨got, L, hPg, hs, hL, hk', ?_, upd _ (Or.inr (Or.inl rfl))⟩
          intro j b hb
          simp only at hb
          rw [Function.update_of_ne (by
            intro h
            have := congrArg Prod.fst h
            simp only at this
            omega)] at hb
          exact hqk _ _ hb
        | sendFail =>
          cases hq
          exact ⟨got, L, hPg, hs, hL, hk', hqk, upd _ (Or.inr (Or.inr ⟨_, rfl, by simp⟩))⟩
      · rw [h] at hstep
        cases hstep with
        | recv _ _ b =>
          simp only [qstep] at hq
          have hqj : ∃ rest, Q (0, i.val, sid) = b :: rest ∧ Q' = Function.update Q (0, i.val, sid) rest := by
            cases hQ : Q (0, i.val, sid) with
            | nil => rw [hQ] at hq; cases hq
            | cons y rest =>
              rw [hQ] at hq
              simp only at hq
              split at hq
              · next hy => cases hq; exact ⟨rest, by rw [hy], rfl⟩
              · cases hq
          obtain ⟨rest, hQ, rfl⟩ := hqj
          have hb := hqk i.val b (by rw [hQ]; simp)
          refine ⟨got, L, hPg, hs, hL, hk', ?_, upd _ (Or.inr (Or.inr ?_))⟩
          · intro j b' hb'
            simp only at hb'
            by_cases hij : j = i.val
            · subst hij
              rw [Function.update_self] at hb'
              exact hqk _ _ (by rw [hQ]; simp [hb'])
            · rw [Function.update_of_ne (by simp [hij])] at hb'
              exact hqk _ _ hb'
          · cases hy : (decodeOrError b : Res U) with
            | error e => exact ⟨.error e, by simp only [hy, Proc.bind], by simp⟩
            | ok y => exact ⟨fin i y, by simp only [hy, Proc.bind], fun v hv => ⟨b, y, hb, hy, hv⟩⟩
        | recvFail =>
          cases hq
          exact ⟨got, L, hPg, hs, hL, hk', hqk, upd _ (Or.inr (Or.inr ⟨_, rfl, by simp⟩))⟩
      · rw [h] at hstep
        cases hstep

theorem lossyInv_steps (hP : ∀ got i b, got i = none → P got → P (Function.update got i (some b))) {k : Nat}
    {c c' : Net n α} (hinv : LossyInv hn sid threshold x K fin P c) (h : GSteps Any k c c') :
    LossyInv hn sid threshold x K fin P c' := by
  induction h with
  | refl => exact hinv
  | step h _ ih => exact ih (lossyInv_step hn sid threshold x K fin P hP hinv h)

theorem lossyInv_init : LossyInv hn sid threshold x K fin (fun _ => True)
    (Net.init fun i : Fin n => starProg n i (x i) sid threshold K (fin i)) :=
  Or.inl ⟨fun _ => none, trivial, (by intro i b h; cases h), starProg_king _ _ _ _ _, (by intro j b h; cases h), fun _ => rfl,
    fun i hi => Or.inl (starProg_client hi _ _ _ _ _)⟩

end inv

/-! ### What the king uses -/

theorem filterMap_dec {x : Nat → T} (hx : ∀ i < n, Wire.Ok (x i)) {got : Nat → Option Bytes} (hs : Sent x got)
    {L : List (Nat × Bytes)} (hL : Enumerates n (Wire.enc (x 0)) got L) (hn : 0 < n) :
    (L.filterMap fun e => (Wire.dec (T := T) e.2).map fun y => (e.1, y)) = (L.map Prod.fst).map fun i => (i, x i) := by
  rw [List.map_map]
  have : ∀ L' : List (Nat × Bytes), (∀ e ∈ L', e ∈ L) →
      (L'.filterMap fun e => (Wire.dec (T := T) e.2).map fun y => (e.1, y)) = L'.map ((fun i => (i, x i)) ∘ Prod.fst) := by
    intro L' hL'
    induction L' with
    | nil => rfl
    | cons e L' ih =>
      obtain ⟨i, b⟩ := e
      have hm := (hL.2 i b).1 (hL' _ (by simp))
      have hb : b = Wire.enc (x i) ∧ i < n := by
        rcases hm with ⟨rfl, rfl⟩ | ⟨-, h, hg⟩
        · exact ⟨rfl, hn⟩
        · exact ⟨hs _ _ hg, h⟩
      have hd : Wire.dec (T := T) b = some (x i) := by rw [hb.1]; exact hx i hb.2
      rw [List.filterMap_cons]
      simp only [hd, Option.map_some, List.map_cons]
      rw [ih fun e he => hL' e (by simp [he])]
      rfl
  exact this L fun _ h => h

/-- The parties a king uses: all of them in order, or some including itself and at least the threshold. -/
structure Responders (n threshold : Nat) (parties : List Nat) : Prop where
  nodup : parties.Nodup
  lt : ∀ p ∈ parties, p < n
  king : 0 ∈ parties
  full : parties.length = n → parties = List.range n
  enough : parties.length < n → threshold ≤ parties.length

theorem kingOut_ok {x : Nat → T} (hn : 0 < n) (hx : ∀ i < n, Wire.Ok (x i)) {threshold : Nat} {K : ReceivedShares T → Res (List U)}
    {got : Nat → Option Bytes} (hs : Sent x got)
    {L : List (Nat × Bytes)} (hL : Enumerates n (Wire.enc (x 0)) got L) {answers : List U}
    (h : kingOut n threshold K L = .ok answers) :
    ∃ parties, Responders n threshold parties ∧ (∀ i, i ∈ parties ↔ i = 0 ∨ (1 ≤ i ∧ i < n ∧ got i ≠ none)) ∧
      K ⟨parties.map x, parties⟩ = .ok answers := by
  have hmem : ∀ i, i ∈ L.map Prod.fst ↔ i = 0 ∨ (1 ≤ i ∧ i < n ∧ got i ≠ none) := by
    intro i
    simp only [List.mem_map, Prod.exists, exists_and_right, exists_eq_right]
    constructor
    · rintro ⟨b, hb⟩
      rcases (hL.2 i b).1 hb with ⟨rfl, -⟩ | ⟨h1, h2, h3⟩
      · exact Or.inl rfl
      · exact Or.inr ⟨h1, h2, by rw [h3]; simp⟩
    · rintro (rfl | ⟨h1, h2, h3⟩)
      · exact ⟨_, (hL.2 _ _).2 (Or.inl ⟨rfl, rfl⟩)⟩
      · obtain ⟨b, hb⟩ := Option.ne_none_iff_exists'.1 h3
        exact ⟨b, (hL.2 _ _).2 (Or.inr ⟨h1, h2, hb⟩)⟩
  have hlt : ∀ i ∈ L.map Prod.fst, i < n := by
    intro i hi
    rcases (hmem i).1 hi with rfl | ⟨-, h, -⟩
    · exact hn
    · exact h
  have hsub : (L.map Prod.fst).toFinset ⊆ Finset.range n := fun i hi => Finset.mem_range.2 (hlt i (List.mem_toFinset.1 hi))
  unfold kingOut at h
  by_cases hlen : L.length = n
  · have hall : (L.map Prod.fst).toFinset = Finset.range n := by
      apply Finset.eq_of_subset_of_card_le hsub
      rw [Finset.card_range, List.toFinset_card_of_nodup hL.1, List.length_map, hlen]
    have hfull : ∀ i, 1 ≤ i → i < n → got i ≠ none := by
      intro i h1 h2
      have : i ∈ L.map Prod.fst := by rw [← List.mem_toFinset, hall]; exact Finset.mem_range.2 h2
      rcases (hmem i).1 this with rfl | ⟨-, -, h⟩
      · omega
      · exact h
    rw [kingFinish_full hL hfull hn, ok_bind] at h
    have hmsg : ((List.range n).map fun i => if i = 0 then Wire.enc (x 0) else (got i).getD []) =
        (List.range n).map fun i => Wire.enc (x i) := by
      apply List.map_congr_left
      intro i hi
      by_cases h0 : i = 0
      · subst h0; simp
      · rw [if_neg h0]
        obtain ⟨b, hb⟩ := Option.ne_none_iff_exists'.1 (hfull i (by omega) (List.mem_range.1 hi))
        rw [hb]
        exact hs _ _ hb
    rw [hmsg, decodeReceived_full threshold x hx, ok_bind] at h
    refine ⟨List.range n, ⟨List.nodup_range, fun p hp => List.mem_range.1 hp, List.mem_range.2 hn, fun _ => rfl, fun h => ?_⟩, ?_, ?_⟩
    · rw [List.length_range] at h; omega
    · intro i
      rw [List.mem_range]
      constructor
      · intro h
        by_cases h0 : i = 0
        · exact Or.inl h0
        · exact Or.inr ⟨by omega, h, hfull i (by omega) h⟩
      · rintro (rfl | ⟨-, h, -⟩)
        · exact hn
        · exact h
    · simp only [kingDo] at h
      cases hK : K ⟨(List.range n).map x, List.range n⟩ with
      | error e => rw [hK] at h; cases h
      | ok a => rw [hK] at h; cases h; rfl
  · have hf : kingFinish n L = .ok (.partly L) := by unfold kingFinish; rw [if_neg hlen]; rfl
    rw [hf, ok_bind] at h
    simp only [decodeReceived] at h
    rw [filterMap_dec hx hs hL hn] at h
    have hlen' : (L.map Prod.fst).length ≤ n := by
      have := Finset.card_le_card hsub
      rwa [Finset.card_range, List.toFinset_card_of_nodup hL.1] at this
    split at h
    · cases h
    · next hth =>
      rw [ok_bind] at h
      refine ⟨L.map Prod.fst, ⟨hL.1, hlt, (hmem 0).2 (Or.inl rfl), fun h => ?_, fun _ => ?_⟩, hmem, ?_⟩
      · rw [List.length_map] at h; exact absurd h hlen
      · simpa using hth
      · simp only [kingDo, List.map_map, Function.comp_def] at h
        have e1 : (L.map fun e => x e.1) = (L.map Prod.fst).map x := by rw [List.map_map]; rfl
        rw [e1, show (L.map fun x => x.1) = L.map Prod.fst from rfl] at h
        cases hK : K ⟨(L.map Prod.fst).map x, L.map Prod.fst⟩ with
        | error e => rw [hK] at h; cases h
        | ok a => rw [hK] at h; cases h; rfl

/-- Safety of a star round on an arbitrary network, from a moment when the king has received the messages `got`. -/
theorem star_safe (hn : 0 < n) (sid : Sid) (threshold : Nat) (x : Nat → T) (hx : ∀ i < n, Wire.Ok (x i))
    (K : ReceivedShares T → Res (List U)) (fin : Nat → U → Res α) {k k' : Nat} {c c' : Net n α}
    (hc : GSteps Any k (Net.init fun i : Fin n => starProg n i (x i) sid threshold K (fin i)) c)
    {s : Sid} {m : Nat} {own : Bytes} {got : Nat → Option Bytes} {cont : List (Nat × Bytes) → Proc α}
    (hg : c.procs ⟨0, hn⟩ = .gather s m own got cont) (hc' : GSteps Any k' c c') :
    (∀ i v, c'.procs i ≠ .done (.ok v)) ∨
    ∃ parties answers, Responders n threshold parties ∧ (∀ i, 1 ≤ i → i < n → got i ≠ none → i ∈ parties) ∧
      K ⟨parties.map x, parties⟩ = .ok answers ∧
      ∀ i v, c'.procs i = .done (.ok v) → ∃ a y, answers[i.val]? = some a ∧
        decodeOrError (T := U) (Wire.enc a) = .ok y ∧ fin i y = .ok v := by
  have h1 := lossyInv_steps hn sid threshold x K fin _ (fun _ _ _ _ _ => trivial) (lossyInv_init hn sid threshold x K fin) hc
  have h2 : LossyInv hn sid threshold x K fin (fun g => ∀ i, got i ≠ none → g i ≠ none) c := by
    rcases h1 with ⟨g, -, hs, hk, h⟩ | ⟨g, L, -, hs, hL, hk, -⟩
    · left
      obtain rfl : g = got := by rw [hg] at hk; cases hk; rfl
      exact ⟨g, fun _ h => h, hs, hk, h⟩
    · rw [hg] at hk; cases hk
  have h3 := lossyInv_steps hn sid threshold x K fin _ (by
    intro g i b _ h j hj
    by_cases hij : j = i
    · subst hij; rw [Function.update_self]; simp
    · rw [Function.update_of_ne hij]; exact h j hj) h2 hc'
  rcases h3 with ⟨g, -, -, hk, -, -, hcl⟩ | ⟨g, L, hP, hs, hL, hk, -, hcl⟩
  · left
    intro i v hv
    by_cases hi : i.val = 0
    · obtain rfl : i = ⟨0, hn⟩ := Fin.ext hi
      rw [hk] at hv; cases hv
    · rcases hcl i hi with h | h | ⟨e, h⟩ <;> rw [h] at hv <;> cases hv
  · have hout : ∀ i v, c'.procs i = .done (.ok v) → Outcome (kingBytes n threshold K L) i (fin i) v := by
      intro i v hv
      by_cases hi : i.val = 0
      · obtain rfl : i = ⟨0, hn⟩ := Fin.ext hi
        rw [hv] at hk
        cases hk with
        | done r h => exact h v rfl
      · rcases hcl i hi with h | h | ⟨r, h, hr⟩
        · rw [h] at hv; cases hv
        · rw [h] at hv; cases hv
        · rw [h] at hv
          injection hv with _ hv
          exact hr v hv
    cases ha : kingOut n threshold K L with
    | error e =>
      left
      intro i v hv
      obtain ⟨b, y, hb, -⟩ := hout i v hv
      unfold kingBytes at hb
      rw [ha] at hb
      simp at hb
    | ok answers =>
      right
      obtain ⟨parties, hr, hm, hK⟩ := kingOut_ok hn hx hs hL ha
      refine ⟨parties, answers, hr, fun i h1 h2 h3 => (hm i).2 (Or.inr ⟨h1, h2, hP i h3⟩), hK, ?_⟩
      intro i v hv
      obtain ⟨b, y, hb, hy, hv⟩ := hout i v hv
      unfold kingBytes at hb
      rw [ha] at hb
      simp only [List.getElem?_map, Option.map_eq_some_iff] at hb
      obtain ⟨a, ha, rfl⟩ := hb
      exact ⟨a, y, ha, hy, hv⟩

/-! ### An execution with a time-out -/

theorem Reach.any {c c' : Net n α} (h : Reach All c c') : ∃ k, GSteps Any k c c' := by
  obtain ⟨k, h⟩ := h
  refine ⟨k, ?_⟩
  induction h with
  | refl => exact .refl _
  | step h _ ih => exact .step (h.mono fun _ _ => trivial) ih

theorem GSteps.trans_any {c c' c'' : Net n α} {k k' : Nat} (h : GSteps Any k c c') (h' : GSteps Any k' c' c'') :
    ∃ k, GSteps Any k c c'' := by
  induction h with
  | refl => exact ⟨_, h'⟩
  | step h _ ih => obtain ⟨k, hk⟩ := ih h'; exact ⟨_, .step h hk⟩

/-- The clients in `J` send one after the other and the king receives. -/
theorem reach_gather_list (hn : 0 < n) (sid : Sid) (msg : Nat → Bytes) (k0 : List (Nat × Bytes) → Proc α)
    (k : Fin n → Proc α) (Q : Queues) (hQ : ∀ i, Q (i, 0, sid) = []) (J : List Nat) (hJ : J.Nodup) (hlt : ∀ j ∈ J, j < n)
    (h1 : ∀ j ∈ J, 1 ≤ j) :
    Reach All (⟨fun i => if i.val = 0 then .gather sid n (msg 0) (fun _ => none) k0 else .send 0 sid (msg i) (k i), Q⟩ : Net n α)
      ⟨fun i => if i.val = 0 then .gather sid n (msg 0) (fun j => if j ∈ J then some (msg j) else none) k0
        else if i.val ∈ J then k i else .send 0 sid (msg i) (k i), Q⟩ := by
  induction J with
  | nil => simp only [List.not_mem_nil, if_false]; exact .refl _
  | cons m J ih =>
    have hm := List.nodup_cons.1 hJ
    have hmn : m < n := hlt m (by simp)
    have hm1 : 1 ≤ m := h1 m (by simp)
    refine (ih hm.2 (fun j hj => hlt j (by simp [hj])) (fun j hj => h1 j (by simp [hj]))).trans ?_
    have s1 := Reach.step (P := All) (ps := fun i : Fin n => if i.val = 0 then .gather sid n (msg 0) (fun j => if j ∈ J then some (msg j) else none) k0
        else if i.val ∈ J then k i else .send 0 sid (msg i) (k i)) (Q := Q) ⟨m, hmn⟩
      (.send 0 sid (msg m)) (k ⟨m, hmn⟩) (core_send _ _ _)
      (by simp only; rw [if_neg (by omega), if_neg hm.1]; exact .send _ _ _ _) rfl
    refine s1.trans ?_
    have s2 := Reach.step (P := All) (ps := Function.update (fun i : Fin n => if i.val = 0 then .gather sid n (msg 0)
          (fun j => if j ∈ J then some (msg j) else none) k0
        else if i.val ∈ J then k i else .send 0 sid (msg i) (k i)) ⟨m, hmn⟩ (k ⟨m, hmn⟩))
      (Q := Function.update Q (m, 0, sid) (Q (m, 0, sid) ++ [msg m])) (Q' := Q) ⟨0, hn⟩ (.recv m sid (msg m))
      (.gather sid n (msg 0) (Function.update (fun j => if j ∈ J then some (msg j) else none) m (some (msg m))) k0)
      (core_recv _ _ _)
      (by
        rw [Function.update_of_ne (by intro h; have := congrArg Fin.val h; simp only at this; omega)]
        simp only [if_true]
        exact .gatherRecv _ _ _ _ _ m _ hm1 hmn (by rw [if_neg hm.1]))
      (by
        simp only [qstep, Function.update_self, hQ, List.nil_append, if_true]
        congr 1
        funext y
        by_cases hy : y = (m, 0, sid)
        · subst hy; rw [Function.update_self, hQ]
        · rw [Function.update_of_ne hy, Function.update_of_ne hy])
    refine cast ?_ s2
    congr 2
    funext i
    by_cases hi : i.val = 0
    · obtain rfl : i = ⟨0, hn⟩ := Fin.ext hi
      rw [Function.update_self, if_pos rfl]
      congr 1
      funext j
      by_cases hj : j = m
      · subst hj; rw [Function.update_self, if_pos (by simp)]
      · rw [Function.update_of_ne hj]
        simp only [List.mem_cons, hj, false_or]
    · rw [Function.update_of_ne (by intro h; exact hi (by rw [h])), if_neg hi]
      by_cases him : i.val = m
      · obtain rfl : i = ⟨m, hmn⟩ := Fin.ext him
        rw [Function.update_self, if_pos (by simp)]
      · rw [Function.update_of_ne (by intro h; exact him (by rw [h])), if_neg hi]
        simp only [List.mem_cons, him, false_or]

/-- Clients that were not heard send although nobody listens any more. -/
theorem reach_late_sends (sid : Sid) (msg : Nat → Bytes) (p0 : Proc α) (k : Fin n → Proc α) (J : List Nat)
    (m : Nat) (hm : m ≤ n) (Q : Queues) :
    Reach All (⟨fun i => if i.val = 0 then p0 else if i.val ∈ J then k i else .send 0 sid (msg i) (k i), Q⟩ : Net n α)
      ⟨fun i => if i.val = 0 then p0 else if i.val ∈ J ∨ i.val < m then k i else .send 0 sid (msg i) (k i),
        fun x => if x.2 = (0, sid) ∧ x.1 ≠ 0 ∧ x.1 ∉ J ∧ x.1 < m then Q x ++ [msg x.1] else Q x⟩ := by
  induction m with
  | zero =>
    have e : (fun x : Nat × Nat × Sid => if x.2 = (0, sid) ∧ x.1 ≠ 0 ∧ x.1 ∉ J ∧ x.1 < 0 then Q x ++ [msg x.1] else Q x) = Q := by
      funext x; rw [if_neg (by omega)]
    rw [e]
    simp only [Nat.not_lt_zero, or_false]
    exact .refl _
  | succ m ih =>
    refine (ih (by omega)).trans ?_
    have hmn : m < n := hm
    by_cases hms : m = 0 ∨ m ∈ J
    · have e1 : (fun i : Fin n => if i.val = 0 then p0 else if i.val ∈ J ∨ i.val < m then k i else .send 0 sid (msg i) (k i)) =
          fun i => if i.val = 0 then p0 else if i.val ∈ J ∨ i.val < m + 1 then k i else .send 0 sid (msg i) (k i) := by
        funext i
        by_cases hi : i.val = 0
        · rw [if_pos hi, if_pos hi]
        · rw [if_neg hi, if_neg hi]
          have : (i.val ∈ J ∨ i.val < m) ↔ (i.val ∈ J ∨ i.val < m + 1) := by
            constructor
            · rintro (h | h)
              · exact Or.inl h
              · exact Or.inr (by omega)
            · rintro (h | h)
              · exact Or.inl h
              · by_cases h' : i.val < m
                · exact Or.inr h'
                · have : i.val = m := by omega
                  rcases hms with h0 | h0
                  · omega
                  · exact Or.inl (this ▸ h0)
          simp only [this]
      have e2 : (fun x : Nat × Nat × Sid => if x.2 = (0, sid) ∧ x.1 ≠ 0 ∧ x.1 ∉ J ∧ x.1 < m then Q x ++ [msg x.1] else Q x) =
          fun x => if x.2 = (0, sid) ∧ x.1 ≠ 0 ∧ x.1 ∉ J ∧ x.1 < m + 1 then Q x ++ [msg x.1] else Q x := by
        funext x
        have : (x.1 ≠ 0 ∧ x.1 ∉ J ∧ x.1 < m) ↔ (x.1 ≠ 0 ∧ x.1 ∉ J ∧ x.1 < m + 1) := by
          constructor
          · rintro ⟨h1, h2, h3⟩; exact ⟨h1, h2, by omega⟩
          · rintro ⟨h1, h2, h3⟩
            refine ⟨h1, h2, ?_⟩
            by_contra hcon
            have e : x.1 = m := by omega
            rcases hms with h0 | h0
            · omega
            · exact h2 (e ▸ h0)
        simp only [this]
      rw [e1, e2]
      exact .refl _
    · obtain ⟨hm0, hmJ⟩ := not_or.1 hms
      have h := Reach.step (P := All) (ps := fun i : Fin n => if i.val = 0 then p0 else
          if i.val ∈ J ∨ i.val < m then k i else .send 0 sid (msg i) (k i))
        (Q := fun x => if x.2 = (0, sid) ∧ x.1 ≠ 0 ∧ x.1 ∉ J ∧ x.1 < m then Q x ++ [msg x.1] else Q x) ⟨m, hmn⟩
        (.send 0 sid (msg m)) (k ⟨m, hmn⟩) (core_send _ _ _)
        (by
          simp only
          rw [if_neg hm0, if_neg (by simp [hmJ])]
          exact .send _ _ _ _) rfl
      have e1 : Function.update (fun i : Fin n => if i.val = 0 then p0 else
          if i.val ∈ J ∨ i.val < m then k i else .send 0 sid (msg i) (k i)) ⟨m, hmn⟩ (k ⟨m, hmn⟩) =
          fun i => if i.val = 0 then p0 else if i.val ∈ J ∨ i.val < m + 1 then k i else .send 0 sid (msg i) (k i) := by
        funext i
        by_cases him : i.val = m
        · have : i = ⟨m, hmn⟩ := Fin.ext him
          subst this
          rw [Function.update_self]
          simp only
          rw [if_neg hm0, if_pos (Or.inr (by omega))]
        · rw [Function.update_of_ne (by intro h; exact him (by rw [h]))]
          have : i.val < m ↔ i.val < m + 1 := by omega
          simp only [this]
      have e2 : Function.update (fun x : Nat × Nat × Sid => if x.2 = (0, sid) ∧ x.1 ≠ 0 ∧ x.1 ∉ J ∧ x.1 < m then Q x ++ [msg x.1] else Q x)
          (m, 0, sid) ((fun x : Nat × Nat × Sid => if x.2 = (0, sid) ∧ x.1 ≠ 0 ∧ x.1 ∉ J ∧ x.1 < m then Q x ++ [msg x.1] else Q x) (m, 0, sid) ++ [msg m]) =
          fun x => if x.2 = (0, sid) ∧ x.1 ≠ 0 ∧ x.1 ∉ J ∧ x.1 < m + 1 then Q x ++ [msg x.1] else Q x := by
        funext x
        by_cases hx : x = (m, 0, sid)
        · subst hx
          rw [Function.update_self]
          simp only
          rw [if_neg (by omega), if_pos ⟨trivial, hm0, hmJ, by omega⟩]
        · rw [Function.update_of_ne hx]
          have : (x.2 = (0, sid) ∧ x.1 ≠ 0 ∧ x.1 ∉ J ∧ x.1 < m) ↔ (x.2 = (0, sid) ∧ x.1 ≠ 0 ∧ x.1 ∉ J ∧ x.1 < m + 1) := by
            constructor
            · rintro ⟨h1, h2, h3, h4⟩; exact ⟨h1, h2, h3, by omega⟩
            · rintro ⟨h1, h2, h3, h4⟩
              refine ⟨h1, h2, h3, ?_⟩
              by_contra hcon
              exact hx (Prod.ext (by simp only; omega) h1)
          simp only [this]
      rw [e1, e2] at h
      exact h

theorem Enumerates.some_parties (msg : Nat → Bytes) {parties : List Nat} (hnd : parties.Nodup) (hlt : ∀ p ∈ parties, p < n)
    (h0 : 0 ∈ parties) :
    Enumerates n (msg 0) (fun j => if j ∈ parties.filter (· ≠ 0) then some (msg j) else none) (parties.map fun i => (i, msg i)) := by
  refine ⟨by simpa [Function.comp_def] using hnd, fun i b => ?_⟩
  simp only [List.mem_map, Prod.mk.injEq, List.mem_filter, decide_not, Bool.not_eq_true', decide_eq_false_iff_not]
  constructor
  · rintro ⟨j, hj, rfl, rfl⟩
    by_cases hz : j = 0
    · subst hz; exact Or.inl ⟨rfl, rfl⟩
    · exact Or.inr ⟨by omega, hlt j hj, by rw [if_pos ⟨hj, hz⟩]⟩
  · rintro (⟨rfl, rfl⟩ | ⟨h1, h2, h3⟩)
    · exact ⟨0, h0, rfl, rfl⟩
    · split at h3
      · rename_i h
        cases h3
        exact ⟨i, h.1, rfl, rfl⟩
      · cases h3

/-- The messages left over when the king only heard `parties`. -/
def leftOver (n : Nat) (parties : List Nat) (sid : Sid) (msg : Nat → Bytes) : Queues :=
  fun x => if x.2 = (0, sid) ∧ x.1 ∉ parties ∧ x.1 < n then [msg x.1] else []

/-- The king hears `parties` and times out; the other parties' messages stay in the queues. -/
theorem reach_timeout (hn : 0 < n) (sid : Sid) (msg : Nat → Bytes) (k0 : List (Nat × Bytes) → Proc α) (kc : Fin n → Proc α)
    {parties : List Nat} (hnd : parties.Nodup) (hlt : ∀ p ∈ parties, p < n) (h0 : 0 ∈ parties) :
    ∃ k, GSteps Any k (Net.init fun i : Fin n => if i.val = 0 then .gather sid n (msg 0) (fun _ => none) k0
        else .send 0 sid (msg i) (kc i))
      ⟨fun i => if i.val = 0 then k0 (parties.map fun i => (i, msg i)) else kc i, leftOver n parties sid msg⟩ := by
  set J := parties.filter (· ≠ 0) with hJ
  have hmemJ : ∀ j, j ∈ J ↔ j ∈ parties ∧ j ≠ 0 := fun j => by simp [hJ]
  obtain ⟨k1, r1⟩ := (reach_gather_list hn sid msg k0 kc (fun _ => []) (fun _ => rfl) J (hnd.filter _)
    (fun j hj => hlt j ((hmemJ j).1 hj).1) (fun j hj => by have := ((hmemJ j).1 hj).2; omega)).any
  have r2 : GStep Any (⟨fun i => if i.val = 0 then .gather sid n (msg 0) (fun j => if j ∈ J then some (msg j) else none) k0
        else if i.val ∈ J then kc i else .send 0 sid (msg i) (kc i), fun _ => []⟩ : Net n α)
      ⟨fun i => if i.val = 0 then k0 (parties.map fun i => (i, msg i))
        else if i.val ∈ J then kc i else .send 0 sid (msg i) (kc i), fun _ => []⟩ := by
    have h := GStep.mk (ok := Any) (fun i : Fin n => if i.val = 0 then .gather sid n (msg 0)
        (fun j => if j ∈ J then some (msg j) else none) k0
        else if i.val ∈ J then kc i else .send 0 sid (msg i) (kc i)) (fun _ => []) (fun _ => []) ⟨0, hn⟩ .fault
        (k0 (parties.map fun i => (i, msg i))) trivial
        (by simp only [if_true]; exact .gatherExpire _ _ _ _ _ _ (Enumerates.some_parties msg hnd hlt h0)) rfl
    refine cast ?_ h
    congr 2
    funext i
    by_cases hi : i.val = 0
    · obtain rfl : i = ⟨0, hn⟩ := Fin.ext hi
      rw [Function.update_self, if_pos rfl]
    · rw [Function.update_of_ne (by intro h; exact hi (by rw [h])), if_neg hi, if_neg hi]
  obtain ⟨k3, r3⟩ := (reach_late_sends sid msg (k0 (parties.map fun i => (i, msg i))) kc J n le_rfl (fun _ => [])).any
  have e3 : (fun i : Fin n => if i.val = 0 then k0 (parties.map fun i => (i, msg i)) else
      if i.val ∈ J ∨ i.val < n then kc i else .send 0 sid (msg i) (kc i)) =
      fun i => if i.val = 0 then k0 (parties.map fun i => (i, msg i)) else kc i := by
    funext i
    simp only [i.isLt, or_true, if_true]
  have e4 : (fun y : Nat × Nat × Sid => if y.2 = (0, sid) ∧ y.1 ≠ 0 ∧ y.1 ∉ J ∧ y.1 < n then ([] : List Bytes) ++ [msg y.1] else []) =
      leftOver n parties sid msg := by
    funext y
    unfold leftOver
    have : (y.1 ≠ 0 ∧ y.1 ∉ J ∧ y.1 < n) ↔ (y.1 ∉ parties ∧ y.1 < n) := by
      rw [hmemJ]
      constructor
      · rintro ⟨h1, h2, h3⟩
        exact ⟨fun h => h2 ⟨h, h1⟩, h3⟩
      · rintro ⟨h1, h2⟩
        refine ⟨fun h => h1 (h ▸ h0), fun h => h1 h.1, h2⟩
    simp only [this]
    rfl
  rw [e3, e4] at r3
  exact r1.trans_any (.step r2 r3)

/-- The king hears `parties`, times out, computes and answers everybody; the other parties' messages stay in the
queues. -/
theorem star_timeout (hn : 0 < n) (sid : Sid) (threshold : Nat) (x : Nat → T) (hx : ∀ i < n, Wire.Ok (x i))
    (K : ReceivedShares T → Res (List U)) (f : Fin n → U → Proc α) {parties : List Nat} (hnd : parties.Nodup)
    (hlt : ∀ p ∈ parties, p < n) (h0 : 0 ∈ parties) (hsn : parties.length < n) (hth : threshold ≤ parties.length)
    (ans : Nat → U) (m : Nat) (hK : K ⟨parties.map x, parties⟩ = .ok ((List.range n).map ans))
    (hans : ∀ i < n, Wire.Ok (ans i) ∧ (Wire.enc (ans i)).length = m) :
    ∃ k, GSteps Any k (Net.init fun i : Fin n => (clientSendOrKingReceiveSer n i (x i) sid threshold).bind fun r =>
        (Proc.done (kingDo K r)).bind fun a => (clientReceiveOrKingSendSer n i a sid).bind (f i))
      ⟨fun i => f i (ans i), leftOver n parties sid fun i => Wire.enc (x i)⟩ := by
  let k0 : List (Nat × Bytes) → Proc α := fun L =>
    (((Proc.done ((kingFinish n L).map some)).bind fun r => .done (decodeReceived (T := T) n threshold r)).bind fun r =>
      (Proc.done (kingDo K r)).bind fun a => (clientReceiveOrKingSendSer n 0 a sid).bind (f ⟨0, hn⟩))
  let kc : Fin n → Proc α := fun i => (clientReceiveOrKingSendSer (T := U) n i none sid).bind (f i)
  have e0 : (fun i : Fin n => (clientSendOrKingReceiveSer n i (x i) sid threshold).bind fun r =>
      (Proc.done (kingDo K r)).bind fun a => (clientReceiveOrKingSendSer n i a sid).bind (f i)) =
      fun i => if i.val = 0 then .gather sid n (Wire.enc (x 0)) (fun _ => none) k0 else .send 0 sid (Wire.enc (x i)) (kc i) := by
    funext i
    by_cases hi : i.val = 0
    · obtain rfl : i = ⟨0, hn⟩ := Fin.ext hi
      rfl
    · rw [if_neg hi]
      unfold clientSendOrKingReceiveSer clientSendOrKingReceive
      rw [if_neg hi]
      rfl
  obtain ⟨k1, r1⟩ := reach_timeout hn sid (fun i => Wire.enc (x i)) k0 kc hnd hlt h0
  have hleft : ∀ i, leftOver n parties sid (fun i => Wire.enc (x i)) (0, i, sid) = [] := fun i => by
    unfold leftOver
    rw [if_neg (fun h => h.2.1 h0)]
  -- the answers
  obtain ⟨k4, r4⟩ := ((reach_receiveSend hn sid ans m hans (leftOver n parties sid fun i => Wire.enc (x i)) hleft).bind f).any
  have hk0 : k0 (parties.map fun i => (i, Wire.enc (x i))) =
      (clientReceiveOrKingSendSer n 0 (some ((List.range n).map ans)) sid).bind (f ⟨0, hn⟩) := by
    have h1 : kingFinish n (parties.map fun i => (i, Wire.enc (x i))) =
        .ok (.partly (parties.map fun i => (i, Wire.enc (x i)))) := by
      unfold kingFinish
      rw [if_neg (by simp; omega)]
      rfl
    have h2 : decodeReceived (T := T) n threshold (some (.partly (parties.map fun i => (i, Wire.enc (x i))))) =
        .ok (some ⟨parties.map x, parties⟩) := by
      simp only [decodeReceived]
      have hS : Sent x (fun j => if j ∈ parties.filter (· ≠ 0) then some (Wire.enc (x j)) else none) := by
        intro i b h
        simp only at h
        split at h
        · cases h; rfl
        · cases h
      rw [filterMap_dec hx hS (Enumerates.some_parties (fun i => Wire.enc (x i)) hnd hlt h0) hn]
      simp only [List.map_map, List.length_map]
      rw [if_neg (by omega)]
      simp [Function.comp_def]
    simp only [k0]
    rw [h1]
    simp only [Except.map, Proc.bind]
    rw [h2]
    simp only [Proc.bind, kingDo, hK, Except.map]
  have e3 : (fun i : Fin n => if i.val = 0 then k0 (parties.map fun i => (i, Wire.enc (x i))) else kc i) =
      fun i : Fin n => (clientReceiveOrKingSendSer n i (if i.val = 0 then some ((List.range n).map ans) else none) sid).bind (f i) := by
    funext i
    by_cases hi : i.val = 0
    · obtain rfl : i = ⟨0, hn⟩ := Fin.ext hi
      simp only [if_true]
      exact hk0
    · simp only [if_neg hi]
      rfl
  rw [e3] at r1
  rw [e0]
  exact r1.trans_any r4

end ZkSaas
