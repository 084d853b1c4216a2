import Verif.Lemmas.Silent

/-! Protocols of star rounds that some clients may leave. -/

set_option linter.unusedSectionVars false

namespace ZkSaas

open Spec

variable {n : Nat} {α β γ : Type}

/-- A protocol in which everybody but the king only talks to the king, whose parties' messages have times from any `t` on and fit
together, and whose king can do without the messages of `S`. -/
def Timed (hn : 0 < n) (S : Nat → Prop) (St : Sid → Prop) (ps : Fin n → Proc α) (rs : Fin n → α) : Prop :=
  ∀ t, ∃ t', t ≤ t' ∧ ∃ (D : Fin n → Chan → Ev) (w : Fin n → Nat), (∀ i, Ds S n (ps i) (D i) (w i) (rs i)) ∧
    (∀ i c, ∀ e ∈ D i c, 2 * t ≤ e.1 ∧ e.1 < 2 * t') ∧
    (∀ i x j s, ¬ St s → D i (x, j, s) = []) ∧
    (∀ f s, (f = 0 ∨ n ≤ f) → D ⟨0, hn⟩ (false, f, s) = []) ∧
    ∀ i : Fin n, i.val ≠ 0 → (∀ f s, f ≠ 0 → D i (false, f, s) = []) ∧
      ∀ s, D ⟨0, hn⟩ (false, i, s) = D i (true, 0, s) ∧ D i (false, 0, s) = D ⟨0, hn⟩ (true, i, s)

theorem Timed.survives {hn : 0 < n} {S : Nat → Prop} (hS : ¬ S 0) {St : Sid → Prop} {ps : Fin n → Proc α} {rs : Fin n → α}
    (h : Timed hn S St ps rs) : SurvivesSilence S (Net.init ps) rs := by
  obtain ⟨t', -, D, w, h1, -, -, h4, h5⟩ := h 0
  refine silentInv_survives hn hS (D := D) (w := w) ⟨h1 _, h4, fun i hi => Or.inl ⟨h1 i, (h5 i hi).1, fun s => ?_, fun s => ?_⟩⟩
  · exact ⟨[], ((h5 i hi).2 s).1, rfl⟩
  · exact ⟨[], ((h5 i hi).2 s).2, rfl⟩

section comb
variable {hn : 0 < n} {S : Nat → Prop} {St : Sid → Prop}

theorem Timed.done (rs : Fin n → α) : Timed hn S St (fun i => .done (.ok (rs i))) rs := fun t =>
  ⟨t, le_rfl, fun _ _ => [], fun _ => 0, fun _ => .done _ rfl, fun _ _ e he => by (exfalso; revert he; simp), fun _ _ _ _ _ => rfl, fun _ _ _ => rfl,
    fun _ _ => ⟨fun _ _ _ => rfl, fun _ => ⟨rfl, rfl⟩⟩⟩

theorem Timed.mono {St' : Sid → Prop} {ps : Fin n → Proc α} {rs : Fin n → α} (h : Timed hn S St ps rs)
    (hS : ∀ s, St s → St' s) : Timed hn S St' ps rs := by
  intro t
  obtain ⟨t', ht, D, w, h1, h2, h3, h4⟩ := h t
  exact ⟨t', ht, D, w, h1, h2, fun i x j s hs => h3 i x j s fun h => hs (hS s h), h4⟩

theorem Timed.congr {ps ps' : Fin n → Proc α} {rs rs' : Fin n → α} (h : Timed hn S St ps rs)
    (hp : ∀ i : Fin n, ps' i = ps i) (hr : ∀ i : Fin n, rs' i = rs i) : Timed hn S St ps' rs' := by
  rwa [funext hp, funext hr]

theorem Timed.bind {ps : Fin n → Proc α} {rs : Fin n → α} (h : Timed hn S St ps rs) {f : Fin n → α → Proc β} {out : Fin n → β}
    (hf : Timed hn S St (fun i => f i (rs i)) out) : Timed hn S St (fun i => (ps i).bind (f i)) out := by
  intro t
  obtain ⟨t1, ht1, D1, w1, a1, b1, c1, d1, e1⟩ := h t
  obtain ⟨t2, ht2, D2, w2, a2, b2, c2, d2, e2⟩ := hf t1
  refine ⟨t2, by omega, fun i c => D1 i c ++ D2 i c, fun i => w1 i + w2 i, fun i => (a1 i).bind (a2 i) fun c c' e he e' he' => ?_, ?_, ?_, ?_, ?_⟩
  · have := b1 i c e he
    have := b2 i c' e' he'
    omega
  · intro i c e he
    rcases List.mem_append.1 he with he | he
    · have := b1 i c e he; omega
    · have := b2 i c e he; omega
  · intro i x j s hs
    simp only [c1 i x j s hs, c2 i x j s hs]; rfl
  · intro f' s hf'
    simp only [d1 f' s hf', d2 f' s hf']; rfl
  · intro i hi
    refine ⟨fun f' s hf' => ?_, fun s => ?_⟩
    · simp only [(e1 i hi).1 f' s hf', (e2 i hi).1 f' s hf']; rfl
    · simp only [((e1 i hi).2 s).1, ((e2 i hi).2 s).1, ((e1 i hi).2 s).2, ((e2 i hi).2 s).2]
      exact ⟨trivial, trivial⟩

theorem Timed.lift_bind {f : Fin n → α → Proc β} {r : Fin n → Res α} {rs : Fin n → α} {out : Fin n → β}
    (hr : ∀ i : Fin n, r i = .ok (rs i)) (h : Timed hn S St (fun i => f i (rs i)) out) :
    Timed hn S St (fun i => (Proc.done (r i)).bind (f i)) out := by
  refine h.congr (fun i => ?_) fun _ => rfl
  rw [hr i]; rfl

theorem Timed.par {S1 S2 : Sid → Prop} {ps : Fin n → Proc β} {rs : Fin n → β} {qs : Fin n → Proc γ} {ss : Fin n → γ}
    (hp : Timed hn S S1 ps rs) (hq : Timed hn S S2 qs ss) (h1 : ∀ x, S1 x → St x) (h2 : ∀ x, S2 x → St x)
    (hdis : ∀ x, S1 x → ¬ S2 x) {k : Fin n → β → γ → Proc α} {out : Fin n → α}
    (hk : Timed hn S St (fun i => k i (rs i) (ss i)) out) : Timed hn S St (fun i => .par (ps i) (qs i) (k i)) out := by
  intro t
  obtain ⟨t1, ht1, D1, w1, a1, b1, c1, d1, e1⟩ := hp t
  obtain ⟨t2, ht2, D2, w2, a2, b2, c2, d2, e2⟩ := hq t
  obtain ⟨t3, ht3, D3, w3, a3, b3, c3, d3, e3⟩ := hk (max t1 t2)
  have hm1 := le_max_left t1 t2
  have hm2 := le_max_right t1 t2
  refine ⟨t3, by omega, fun i c => D1 i c ++ (D2 i c ++ D3 i c), fun i => w1 i + w2 i + w3 i + 1,
    fun i => .par _ _ _ _ _ _ (a1 i) (a2 i) (a3 i) ?_ ?_ ?_ rfl, ?_, ?_, ?_, ?_⟩
  · rintro ⟨x, j, s⟩
    by_cases hs : S1 s
    · exact Or.inr (c2 i x j s (hdis s hs))
    · exact Or.inl (c1 i x j s hs)
  · intro c c' e he e' he'
    have := b1 i c e he
    have := b3 i c' e' he'
    omega
  · intro c c' e he e' he'
    have := b2 i c e he
    have := b3 i c' e' he'
    omega
  · intro i c e he
    rcases List.mem_append.1 he with he | he
    · have := b1 i c e he; omega
    · rcases List.mem_append.1 he with he | he
      · have := b2 i c e he; omega
      · have := b3 i c e he; omega
  · intro i x j s hs
    simp only [c1 i x j s fun h => hs (h1 s h), c2 i x j s fun h => hs (h2 s h), c3 i x j s hs]; rfl
  · intro f' s hf'
    simp only [d1 f' s hf', d2 f' s hf', d3 f' s hf']; rfl
  · intro i hi
    refine ⟨fun f' s hf' => ?_, fun s => ?_⟩
    · simp only [(e1 i hi).1 f' s hf', (e2 i hi).1 f' s hf', (e3 i hi).1 f' s hf']; rfl
    · simp only [((e1 i hi).2 s).1, ((e2 i hi).2 s).1, ((e3 i hi).2 s).1, ((e1 i hi).2 s).2, ((e2 i hi).2 s).2, ((e3 i hi).2 s).2]
      exact ⟨trivial, trivial⟩

/-- The king sends the answers. -/
theorem ds_loop (out : List Bytes) (sid : Sid) (m t : Nat) (b : Nat → Bytes) (f : Unit → Proc α) {v : α}
    (hf : Ds S n (f ()) (fun _ => []) 0 v) (ids : List Nat) (hord : ids.Pairwise (· < ·)) (h0 : 0 ∉ ids)
    (hb : ∀ i ∈ ids, out[i]? = some (b i) ∧ (b i).length = m) {D : Chan → Ev}
    (h1 : ∀ i ∈ ids, D (true, i, sid) = [(2 * (t + i) + 1, b i)])
    (h2 : ∀ c : Chan, ¬ (∃ i ∈ ids, c = (true, i, sid)) → D c = []) :
    Ds S n ((kingSendLoop out m sid ids).bind f) D ids.length v := by
  induction ids generalizing D with
  | nil =>
    obtain rfl : D = fun _ => [] := by funext c; exact h2 c (by simp)
    exact hf
  | cons id ids ih =>
    rw [kingSendLoop_bind out m sid _ id ids _ (hb id (by simp)).1 (hb id (by simp)).2, List.length_cons]
    have hlt := (List.pairwise_cons.1 hord).1
    have hni : id ∉ ids := fun h => lt_irrefl _ (hlt id h)
    have hid : id ≠ 0 := by rintro rfl; exact h0 (by simp)
    refine .send _ _ _ _ (2 * (t + id) + 1) _ (D := Function.update D (true, id, sid) []) ?_ (ih (List.pairwise_cons.1 hord).2
      (fun h => h0 (List.mem_cons_of_mem _ h)) (fun i hi => hb i (List.mem_cons_of_mem _ hi)) ?_ ?_) ?_ ?_
    · refine ⟨fun h => ?_, fun h => absurd h hid⟩
      rw [Nat.even_iff] at h
      omega
    · intro i hi
      rw [Function.update_of_ne (by intro h; cases h; exact hni hi)]
      exact h1 i (List.mem_cons_of_mem _ hi)
    · intro c hc
      by_cases hci : c = (true, id, sid)
      · subst hci; rw [Function.update_self]
      · rw [Function.update_of_ne hci]
        refine h2 c ?_
        rintro ⟨i, hi, rfl⟩
        rcases List.mem_cons.1 hi with rfl | hi
        · exact hci rfl
        · exact hc ⟨i, hi, rfl⟩
    · intro c e he
      by_cases hci : c = (true, id, sid)
      · subst hci; rw [Function.update_self] at he; cases he
      · rw [Function.update_of_ne hci] at he
        by_cases hc : ∃ i ∈ id :: ids, c = (true, i, sid)
        · obtain ⟨i, hi, rfl⟩ := hc
          rw [h1 i hi, List.mem_singleton] at he
          subst he
          rcases List.mem_cons.1 hi with rfl | hi
          · exact absurd rfl hci
          · have := hlt i hi
            simp only
            omega
        · rw [h2 c hc] at he; cases he
    · rw [Function.update_self, Function.update_idem, ← h1 id (by simp), Function.update_eq_self]

/-- At least `m` parties remain without those in `S`. -/
def Remain (n : Nat) (S : Nat → Prop) (m : Nat) : Prop :=
  ∀ parties : List Nat, parties.Nodup → (∀ i < n, ¬ S i → i ∈ parties) → m ≤ parties.length

/-- What the king gets to compute with. -/
theorem received_silent {T : Type} [Wire T] (hn : 0 < n) (threshold : Nat) (hth : Remain n S threshold) (x : Nat → T)
    (hx : ∀ i < n, Wire.Ok (x i)) {got : Nat → Option Bytes} (hs : Sent x got)
    (hfull : ∀ i, 1 ≤ i → i < n → ¬ S i → got i ≠ none) {L : List (Nat × Bytes)} (hL : Enumerates n (Wire.enc (x 0)) got L) :
    ∃ parties, Responders n threshold parties ∧ (∀ i < n, ¬ S i → i = 0 ∨ i ∈ parties) ∧
      ((kingFinish n L).map some >>= decodeReceived (T := T) n threshold) = .ok (some ⟨parties.map x, parties⟩) := by
  have hmem : ∀ i, i ∈ L.map Prod.fst ↔ i = 0 ∨ (1 ≤ i ∧ i < n ∧ got i ≠ none) := by
    intro i
    simp only [List.mem_map, Prod.exists, exists_and_right, exists_eq_right]
    constructor
    · rintro ⟨b, hb⟩
      rcases (hL.2 i b).1 hb with ⟨rfl, -⟩ | ⟨h1, h2, h3⟩
      · exact Or.inl rfl
      · exact Or.inr ⟨h1, h2, by rw [h3]; simp⟩
    · rintro (rfl | ⟨h1, h2, h3⟩)
      · exact ⟨_, (hL.2 _ _).2 (Or.inl ⟨rfl, rfl⟩)⟩
      · obtain ⟨b, hb⟩ := Option.ne_none_iff_exists'.1 h3
        exact ⟨b, (hL.2 _ _).2 (Or.inr ⟨h1, h2, hb⟩)⟩
  have hlt : ∀ i ∈ L.map Prod.fst, i < n := by
    intro i hi
    rcases (hmem i).1 hi with rfl | ⟨-, h, -⟩
    · exact hn
    · exact h
  have hsub : (L.map Prod.fst).toFinset ⊆ Finset.range n := fun i hi => Finset.mem_range.2 (hlt i (List.mem_toFinset.1 hi))
  have hin : ∀ i < n, ¬ S i → i ∈ L.map Prod.fst := by
    intro i hi hip
    refine (hmem i).2 ?_
    by_cases h0 : i = 0
    · exact Or.inl h0
    · exact Or.inr ⟨by omega, hi, hfull i (by omega) hi hip⟩
  by_cases hlen : L.length = n
  · have hall : (L.map Prod.fst).toFinset = Finset.range n := by
      apply Finset.eq_of_subset_of_card_le hsub
      rw [Finset.card_range, List.toFinset_card_of_nodup hL.1, List.length_map, hlen]
    have hfull : ∀ i, 1 ≤ i → i < n → got i ≠ none := by
      intro i h1 h2
      have : i ∈ L.map Prod.fst := by rw [← List.mem_toFinset, hall]; exact Finset.mem_range.2 h2
      rcases (hmem i).1 this with rfl | ⟨-, -, h⟩
      · omega
      · exact h
    have hmsg : ((List.range n).map fun i => if i = 0 then Wire.enc (x 0) else (got i).getD []) =
        (List.range n).map fun i => Wire.enc (x i) := by
      apply List.map_congr_left
      intro i hi
      by_cases h0 : i = 0
      · subst h0; simp
      · rw [if_neg h0]
        obtain ⟨b, hb⟩ := Option.ne_none_iff_exists'.1 (hfull i (by omega) (List.mem_range.1 hi))
        rw [hb]
        exact hs _ _ hb
    refine ⟨List.range n, ⟨List.nodup_range, fun p hp => List.mem_range.1 hp, List.mem_range.2 hn, fun _ => rfl, fun h => ?_⟩,
      fun i hi _ => Or.inr (List.mem_range.2 hi), ?_⟩
    · rw [List.length_range] at h; omega
    · rw [kingFinish_full hL hfull hn, hmsg]
      exact decodeReceived_full threshold x hx
  · have hf : kingFinish n L = .ok (.partly L) := by unfold kingFinish; rw [if_neg hlen]; rfl
    have hcard : threshold ≤ (L.map Prod.fst).length := hth _ hL.1 hin
    rw [List.length_map] at hcard
    refine ⟨L.map Prod.fst, ⟨hL.1, hlt, (hmem 0).2 (Or.inl rfl), fun h => ?_, fun _ => ?_⟩, fun i hi hip => Or.inr (hin i hi hip), ?_⟩
    · rw [List.length_map] at h; exact absurd h hlen
    · rw [List.length_map]; omega
    · rw [hf]
      show decodeReceived (T := T) n threshold (some (.partly L)) = _
      simp only [decodeReceived]
      rw [filterMap_dec hx hs hL hn, if_neg (by simp only [List.length_map]; omega)]
      simp only [List.map_map, Function.comp_def]

/-- A star round that works without the parties in `S`. -/
theorem timed_round {T U : Type} [Wire T] [Wire U] (sid : Sid) (threshold : Nat) (hth : Remain n S threshold) (x : Nat → T)
    (hx : ∀ i < n, Wire.Ok (x i)) (K : Fin n → ReceivedShares T → Res (List U)) (ans : Nat → U)
    (hK : ∀ parties, Responders n threshold parties → (∀ i < n, ¬ S i → i ∈ parties) →
      ∃ answers, K ⟨0, hn⟩ ⟨parties.map x, parties⟩ = .ok answers ∧ ∀ i < n, answers[i]? = some (ans i))
    (hans : ∀ i < n, Wire.Ok (ans i)) (hlen : ∀ i < n, (Wire.enc (ans i)).length = (Wire.enc (ans 0)).length)
    (f : Fin n → U → Proc α) {out : Fin n → α}
    (hf : Timed hn S (only sid) (fun i => f i (ans i)) out) :
    Timed hn S (only sid) (fun i : Fin n => (clientSendOrKingReceiveSer n i (x i) sid threshold).bind fun r =>
      (Proc.done (kingDo (K i) r)).bind fun a => (clientReceiveOrKingSendSer n i a sid).bind (f i)) out := by
  classical
  have hassoc : (fun i : Fin n => (clientSendOrKingReceiveSer n i (x i) sid threshold).bind fun r =>
      (Proc.done (kingDo (K i) r)).bind fun a => (clientReceiveOrKingSendSer n i a sid).bind (f i)) =
      fun i : Fin n => ((clientSendOrKingReceiveSer n i (x i) sid threshold).bind fun r =>
      (Proc.done (kingDo (K i) r)).bind fun a => clientReceiveOrKingSendSer n i a sid).bind (f i) := by
    funext i
    rw [Proc.bind_assoc]
    congr 1
    funext r
    rw [Proc.bind_assoc]
  rw [hassoc]
  refine Timed.bind (rs := fun i => ans i) ?_ hf
  intro t
  -- the king's and the clients' messages
  let Dk : Chan → Ev := fun c => if c.2.2 = sid ∧ 1 ≤ c.2.1 ∧ c.2.1 < n then
    (if c.1 then [(2 * (t + c.2.1) + 1, Wire.enc (ans c.2.1))] else [(2 * t, Wire.enc (x c.2.1))]) else []
  let Dc : Fin n → Chan → Ev := fun i c => if c.2.2 = sid ∧ c.2.1 = 0 then
    (if c.1 then [(2 * t, Wire.enc (x i))] else [(2 * (t + i) + 1, Wire.enc (ans i))]) else []
  refine ⟨t + n + 1, by omega, fun i => if i.val = 0 then Dk else Dc i,
    fun i => if i.val = 0 then ((List.range n).filter (· ≠ 0)).length + missing n (fun _ => none) + 1 else 2, ?_, ?_, ?_, ?_, ?_⟩
  · intro i
    by_cases hi : i.val = 0
    · obtain rfl : i = ⟨0, hn⟩ := Fin.ext hi
      show Ds S n (.gather sid n (Wire.enc (x 0)) (fun _ => none) fun L =>
        ((Proc.done ((kingFinish n L).map some)).bind fun r => .done (decodeReceived (T := T) n threshold r)).bind fun r =>
          (Proc.done (kingDo (K ⟨0, hn⟩) r)).bind fun a => clientReceiveOrKingSendSer n 0 a sid) Dk _ _
      refine .gather _ _ _ _ (fun i => Wire.enc (x i)) (2 * t) _ _ (D := fun c => if c.1 then Dk c else []) (even_two_mul t)
        (by intro i b h; cases h) ?_ ?_ ?_ le_rfl ?_
      · intro i h1 h2 _
        simp only [Dk, h1, h2, and_self, if_true, Bool.false_eq_true, if_false]
      · rintro ⟨x, j, s⟩ hc
        cases x with
        | true => simp
        | false =>
          simp only [Dk, Bool.false_eq_true, if_false]
          rw [if_neg]
          rintro ⟨rfl, h1, h2⟩
          exact hc ⟨j, rfl, h1, h2, rfl⟩
      · rintro - - - - ⟨x, j, s⟩ e he
        cases x with
        | true =>
          simp only [Dk, if_true] at he
          split at he
          · rw [List.mem_singleton] at he
            subst he
            simp only; omega
          · cases he
        | false => simp at he
      · intro got L hgot hfull hL
        obtain ⟨parties, hresp, hmem, h⟩ := received_silent hn threshold hth x hx hgot hfull hL
        have hin : ∀ i < n, ¬ S i → i ∈ parties := by
          intro i hi hip
          rcases hmem i hi hip with rfl | h
          · exact hresp.king
          · exact h
        obtain ⟨answers, hKa, ha⟩ := hK parties hresp hin
        rw [show ((Proc.done ((kingFinish n L).map some)).bind fun r => .done (decodeReceived (T := T) n threshold r)) =
          .done ((kingFinish n L).map some >>= decodeReceived (T := T) n threshold) by
            cases kingFinish n L <;> rfl, h]
        show Ds S n (Proc.bind (.done (kingDo (K ⟨0, hn⟩) (some ⟨parties.map x, parties⟩))) fun a => clientReceiveOrKingSendSer n 0 a sid) _ _ _
        simp only [kingDo]
        rw [hKa]
        show Ds S n (clientReceiveOrKingSendSer n 0 (some answers) sid) _ _ _
        unfold clientReceiveOrKingSendSer clientReceiveOrKingSend
        simp only [Option.map_some, ne_eq, not_true_eq_false, if_false]
        show Ds S n (Proc.bind (Proc.bind (.done (rd (answers.map Wire.enc) 0)) _) _) _ _ _
        have hget : ∀ i < n, (answers.map Wire.enc)[i]? = some (Wire.enc (ans i)) := by
          intro i hi
          rw [List.getElem?_map, ha i hi]; rfl
        have hrd : rd (answers.map Wire.enc) 0 = .ok (Wire.enc (ans 0)) := by unfold rd; rw [hget 0 hn]
        rw [hrd]
        simp only [Proc.bind]
        rw [Proc.bind_eq, Proc.bind_assoc]
        refine ds_loop _ _ _ t (fun i => Wire.enc (ans i)) _ ?_ _ (List.pairwise_lt_range.filter _) (by simp) ?_ ?_ ?_
        · show Ds S n (.done (decodeOrError (T := U) (Wire.enc (ans 0)))) _ _ _
          unfold decodeOrError
          rw [show Wire.dec (T := U) (Wire.enc (ans 0)) = some (ans 0) from hans 0 hn]
          exact .done _ rfl
        · intro i hi
          have hi := (List.mem_range.1 (List.mem_filter.1 hi).1)
          exact ⟨hget i hi, hlen i hi⟩
        · intro i hi
          have hi1 := (List.mem_range.1 (List.mem_filter.1 hi).1)
          have hi2 : i ≠ 0 := by simpa using (List.mem_filter.1 hi).2
          simp only [Dk, if_true]
          rw [if_pos ⟨trivial, by omega, hi1⟩]
        · rintro ⟨x, j, s⟩ hc
          cases x with
          | true =>
            simp only [Dk, if_true]
            rw [if_neg]
            rintro ⟨rfl, h1, h2⟩
            exact hc ⟨j, List.mem_filter.2 ⟨List.mem_range.2 h2, by simp; omega⟩, rfl⟩
          | false => simp
    · simp only [if_neg hi]
      unfold clientSendOrKingReceiveSer clientSendOrKingReceive
      simp only [if_neg hi]
      show Ds S n (Proc.send 0 sid (Wire.enc (x i)) (clientReceiveOrKingSendSer n i none sid)) _ _ _
      unfold clientReceiveOrKingSendSer clientReceiveOrKingSend
      simp only [Option.map_none, if_neg hi]
      refine .send _ _ _ _ (2 * t) 1 (D := fun c => if c.1 then [] else Dc i c) (by simp) (.recv sid _ (Wire.enc (ans i)) (2 * (t + i) + 1) 0
        (D := fun _ => []) ?_ ?_ ?_ ?_) ?_ ?_
      · rw [Nat.even_iff]; omega
      · show Ds S n (.done (decodeOrError (T := U) (Wire.enc (ans i)))) _ _ _
        unfold decodeOrError
        rw [show Wire.dec (T := U) (Wire.enc (ans i)) = some (ans i) from hans i i.isLt]
        exact .done _ rfl
      · intro c e he; cases he
      · funext c
        by_cases hc : c = (false, 0, sid)
        · subst hc
          simp [Dc]
        · rw [Function.update_of_ne hc]
          obtain ⟨x, j, s⟩ := c
          cases x with
          | true => simp
          | false =>
            simp only [Dc, Bool.false_eq_true, if_false]
            rw [if_neg]
            rintro ⟨rfl, rfl⟩
            exact hc rfl
      · rintro ⟨x, j, s⟩ e he
        cases x with
        | true => simp at he
        | false =>
          simp only [Dc, Bool.false_eq_true, if_false] at he
          split at he
          · rw [List.mem_singleton] at he
            subst he
            simp only; omega
          · cases he
      · funext c
        by_cases hc : c = (true, 0, sid)
        · subst hc
          simp [Dc]
        · rw [Function.update_of_ne hc]
          obtain ⟨x, j, s⟩ := c
          cases x with
          | false => simp
          | true =>
            simp only [Dc, if_true]
            rw [if_neg]
            rintro ⟨rfl, rfl⟩
            exact hc rfl
  · intro i c e he
    obtain ⟨x, j, s⟩ := c
    by_cases hi : i.val = 0
    · simp only [if_pos hi, Dk] at he
      split at he
      · next hc =>
        cases x <;> simp only [if_true, Bool.false_eq_true, if_false, List.mem_singleton] at he <;> subst he <;> simp only <;>
          have := hc.2.2 <;> omega
      · cases he
    · simp only [if_neg hi, Dc] at he
      split at he
      · cases x <;> simp only [if_true, Bool.false_eq_true, if_false, List.mem_singleton] at he <;> subst he <;> simp only <;> omega
      · cases he
  · intro i x j s hs
    have : ¬ s = sid := hs
    by_cases hi : i.val = 0
    · simp [hi, Dk, this]
    · simp [hi, Dc, this]
  · intro g s hg
    simp only [if_true, Dk]
    rw [if_neg]
    rintro ⟨-, h1, h2⟩
    omega
  · intro i hi
    refine ⟨fun g s hg => ?_, fun s => ?_⟩
    · simp [hi, Dc, hg]
    · by_cases hs : s = sid
      · subst hs
        have h1 : 1 ≤ i.val := by omega
        simp [hi, Dk, Dc, h1]
      · simp [hi, Dk, Dc, hs]

end comb

end ZkSaas
