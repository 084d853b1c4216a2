import Verif.Spec.ByteNet
import Verif.Spec.Net
import Verif.Lemmas.Wire
import Verif.Lemmas.Runs
import Mathlib.Algebra.BigOperators.Group.Finset.Basic

/-!
# The network on bytes refines the network on messages
-/

namespace ZkSaas

variable {n : Nat} {α : Type}

theorem LStep.blocked_of_send {lim : Nat} {p p' : Proc α} {dst : Nat} {sid : Sid} {b : Bytes} (h : LStep p (.send dst sid b) p')
    (hb : lim < b.length) : Blocked lim p := by
  generalize ha : Act.send dst sid b = a at h
  induction h with
  | send dst' sid' b' k => cases ha; exact .send _ _ _ _ hb
  | parL p p' q k a h ih => exact .parL _ _ _ (ih ha)
  | parR p q q' k a h ih => exact .parR _ _ _ (ih ha)
  | _ => cases ha

theorem GSteps.blocked {lim k : Nat} {c c' : Net n α} (h : GSteps (fun a => Reliable a ∧ Spec.Within lim a) k c c') {i : Fin n}
    (hd : Blocked lim (c.procs i)) : Blocked lim (c'.procs i) := by
  induction h with
  | refl => exact hd
  | step h1 _ ih =>
    apply ih
    cases h1 with
    | mk procs Q Q' j a p' ha hstep hq =>
      by_cases hij : i = j
      · subst hij; simpa using hd.step hstep ha.2
      · simpa [Function.update_of_ne hij] using hd

theorem GSteps.snoc {ok : Act → Prop} {k : Nat} {c c' c'' : Net n α} (h : GSteps ok k c c') (h' : GStep ok c' c'') :
    GSteps ok (k + 1) c c'' := by
  induction h with
  | refl => exact .step h' (.refl _)
  | step h1 _ ih => exact .step h1 (ih h')

/-- With a bound on the steps, every reachable state can be run to the end. -/
theorem GSteps.to_end {ok : Act → Prop} {m : Nat} {c : Net n α} (hm : ∀ k c', GSteps ok k c c' → k ≤ m) (r : Nat) {k : Nat} {c' : Net n α}
    (h : GSteps ok k c c') (hr : m ≤ k + r) : ∃ j t, GSteps ok j c t ∧ (¬ ∃ c'', GStep ok t c'') ∧
      ∃ j', GSteps ok j' c' t := by
  induction r generalizing k c' with
  | zero =>
    refine ⟨k, c', h, ?_, 0, .refl _⟩
    rintro ⟨c'', h'⟩
    have := hm _ _ (h.snoc h')
    omega
  | succ r ih =>
    by_cases hst : ∃ c'', GStep ok c' c''
    · obtain ⟨c'', h'⟩ := hst
      obtain ⟨j, t, h1, h2, j', h3⟩ := ih (h.snoc h') (by omega)
      exact ⟨j, t, h1, h2, j' + 1, .step h' h3⟩
    · exact ⟨k, c', h, hst, 0, .refl _⟩

/-- In a protocol that always succeeds within a limit nobody ever has to send a longer message. -/
theorem Spec.AlwaysYieldsWithin.not_blocked {lim : Nat} {c : Net n α} {rs : Fin n → α} (hy : Spec.AlwaysYieldsWithin lim c rs) {k : Nat}
    {c' : Net n α} (h : GSteps (fun a => Reliable a ∧ Spec.Within lim a) k c c') (i : Fin n) : ¬ Blocked lim (c'.procs i) := by
  intro hd
  obtain ⟨⟨m, hm⟩, hend⟩ := hy
  obtain ⟨j, t, h1, h2, j', h3⟩ := GSteps.to_end hm m h (by omega)
  have := h3.blocked hd
  rw [hend j t h1 h2 i] at this
  cases this

/-- The frame of a message on the wire. -/
def wireFrame (wrap : Bytes → Bytes) (b : Bytes) : Bytes := beBytes 4 (wrap b).length ++ wrap b

/-- The state of a stream that carries the messages `msgs` not yet received. -/
def ChanRel (lim : Nat) (wrap : Bytes → Bytes) (ch : ByteChan) (msgs : List Bytes) : Prop :=
  (∀ b ∈ msgs, b.length ≤ lim) ∧
  match ch.fr.st with
  | .head => ch.fr.buf ++ ch.out = msgs.flatMap (wireFrame wrap)
  | .data k => ∃ b rest, msgs = b :: rest ∧ k = (wrap b).length ∧ ch.fr.buf ++ ch.out = wrap b ++ rest.flatMap (wireFrame wrap)

theorem append_eq_split {x o w r : Bytes} (h : x ++ o = w ++ r) (hl : w.length ≤ x.length) : x.take w.length = w ∧ x.drop w.length ++ o = r := by
  constructor
  · have := congrArg (List.take w.length) h
    rwa [List.take_append_of_le_length hl, List.take_left] at this
  · have := congrArg (List.drop w.length) h
    rwa [List.drop_append_of_le_length hl, List.drop_left] at this

/-- What the receiver's `Framed` makes of a stream in a good state. -/
def GoodDecode (lim : Nat) (wrap : Bytes → Bytes) (out : Bytes) (msgs : List Bytes) : Decoded → Prop
  | .error => False
  | .need st buf => (∀ o' c, out = c ++ o' → ChanRel lim wrap ⟨o', ⟨st, buf ++ c⟩⟩ msgs) ∧ (msgs ≠ [] → out ≠ [])
  | .frame f buf => ∃ b rest, msgs = b :: rest ∧ f = wrap b ∧ ChanRel lim wrap ⟨out, ⟨.head, buf⟩⟩ rest

theorem goodDecode_data {lim : Nat} {wrap : Bytes → Bytes} {buf out b : Bytes} {rest : List Bytes} (hl : ∀ x ∈ b :: rest, x.length ≤ lim)
    (h : buf ++ out = wrap b ++ rest.flatMap (wireFrame wrap)) : GoodDecode lim wrap out (b :: rest) (decodeData (wrap b).length buf) := by
  unfold decodeData
  split
  · rename_i hlt
    refine ⟨fun o' c ho => ⟨hl, b, rest, rfl, rfl, ?_⟩, fun _ ho => ?_⟩
    · simp only [List.append_assoc, ← ho, h]
    · subst ho
      have := congrArg List.length h
      simp only [List.length_append, List.length_nil] at this
      omega
  · rename_i hlt
    obtain ⟨h1, h2⟩ := append_eq_split h (by omega)
    exact ⟨b, rest, rfl, h1, fun x hx => hl x (List.mem_cons_of_mem _ hx), h2⟩

theorem goodDecode {T : Transport} {lim : Nat} {wrap : Bytes → Bytes} (hT : Spec.Carries T lim wrap) {ch : ByteChan} {msgs : List Bytes}
    (h : ChanRel lim wrap ch msgs) : GoodDecode lim wrap ch.out msgs (decodeFrame ch.fr.st ch.fr.buf) := by
  obtain ⟨out, st, buf⟩ := ch
  obtain ⟨hl, h⟩ := h
  cases st with
  | data k =>
    obtain ⟨b, rest, rfl, rfl, h⟩ := h
    exact goodDecode_data hl h
  | head =>
    simp only at h
    simp only [decodeFrame]
    by_cases hb : buf.length < 4
    · rw [if_pos hb]
      refine ⟨fun o' c ho => ⟨hl, ?_⟩, fun hm ho => ?_⟩
      · simp only [List.append_assoc, ← ho, h]
      · subst ho
        obtain ⟨b, rest, rfl⟩ := List.exists_cons_of_ne_nil hm
        have := congrArg List.length h
        simp [wireFrame, beBytes_length] at this
        omega
    · rw [if_neg hb]
      cases msgs with
      | nil =>
        have := congrArg List.length h
        simp only [List.length_append, List.flatMap_nil, List.length_nil] at this
        omega
      | cons b rest =>
        have hfit := hT.fits b (hl b (by simp))
        have h' : buf ++ out = beBytes 4 (wrap b).length ++ (wrap b ++ rest.flatMap (wireFrame wrap)) := by
          rw [h]; simp [wireFrame]
        have hlen : (beBytes 4 (wrap b).length).length = 4 := beBytes_length _ _
        obtain ⟨h1, h2⟩ := append_eq_split h' (by omega)
        rw [hlen] at h1 h2
        have hval : ofBeBytes (buf.take 4) = (wrap b).length := by
          rw [h1]; exact ofBeBytes_beBytes _ _ (by norm_num; omega)
        rw [hval, if_neg (by unfold maxFrame; omega)]
        exact goodDecode_data hl h2

/-- The bytes in transit on the streams `S`. -/
def inTransit (C : Nat × Nat × Sid → ByteChan) (S : Finset (Nat × Nat × Sid)) : Nat := ∑ x ∈ S, (C x).out.length

theorem inTransit_insert (C : Nat × Nat × Sid → ByteChan) (S : Finset (Nat × Nat × Sid)) (h : ∀ x ∉ S, (C x).out = []) (x : Nat × Nat × Sid) :
    inTransit C (insert x S) = inTransit C S := by
  by_cases hx : x ∈ S
  · rw [Finset.insert_eq_of_mem hx]
  · unfold inTransit
    rw [Finset.sum_insert hx, h x hx]
    simp

theorem inTransit_update (C : Nat × Nat × Sid → ByteChan) (S : Finset (Nat × Nat × Sid)) {x : Nat × Nat × Sid} (hx : x ∈ S) (ch : ByteChan) :
    inTransit (Function.update C x ch) S + (C x).out.length = inTransit C S + ch.out.length := by
  unfold inTransit
  rw [← Finset.add_sum_erase S _ hx, ← Finset.add_sum_erase S (fun y => (C y).out.length) hx]
  have : ∑ y ∈ S.erase x, (Function.update C x ch y).out.length = ∑ y ∈ S.erase x, (C y).out.length := by
    apply Finset.sum_congr rfl
    intro y hy
    rw [Function.update_of_ne (Finset.ne_of_mem_erase hy)]
  rw [this, Function.update_self]
  omega

/-- The streams of a network on bytes carry the queues `Q`; `r` reads have been made in `k` steps of the network on messages. -/
structure Carried (lim : Nat) (wrap : Bytes → Bytes) (k r : Nat) (C : Nat × Nat × Sid → ByteChan) (Q : Queues) : Prop where
  rel : ∀ x, ChanRel lim wrap (C x) (Q x)
  few : ∃ S, (∀ x ∉ S, (C x).out = []) ∧ r + inTransit C S ≤ k * (8 * 1024 * 1024 + 4)

theorem Carried.update {lim : Nat} {wrap : Bytes → Bytes} {k r : Nat} {C : Nat × Nat × Sid → ByteChan} {Q : Queues} (h : Carried lim wrap k r C Q)
    (x : Nat × Nat × Sid) (ch : ByteChan) (msgs : List Bytes) (hch : ChanRel lim wrap ch msgs) {k' r' : Nat}
    (hk : r' + ch.out.length + k * (8 * 1024 * 1024 + 4) ≤ r + (C x).out.length + k' * (8 * 1024 * 1024 + 4)) :
    Carried lim wrap k' r' (Function.update C x ch) (Function.update Q x msgs) := by
  obtain ⟨hrel, S, hS, hb⟩ := h
  refine ⟨fun y => ?_, insert x S, fun y hy => ?_, ?_⟩
  · by_cases hxy : y = x
    · subst hxy; simpa using hch
    · simpa [Function.update_of_ne hxy] using hrel y
  · rw [Finset.mem_insert, not_or] at hy
    rw [Function.update_of_ne hy.1]
    exact hS y hy.2
  · have h1 := inTransit_insert C S hS x
    have h2 := inTransit_update C (insert x S) (Finset.mem_insert_self x S) ch
    omega

theorem Carried.mono {lim : Nat} {wrap : Bytes → Bytes} {k r : Nat} {C : Nat × Nat × Sid → ByteChan} {Q : Queues} (h : Carried lim wrap k r C Q) :
    Carried lim wrap (k + 1) r C Q := by
  obtain ⟨hrel, S, hS, hb⟩ := h
  exact ⟨hrel, S, hS, le_trans hb (Nat.mul_le_mul_right _ (Nat.le_succ k))⟩

theorem chanRel_push {lim : Nat} {wrap : Bytes → Bytes} {out b : Bytes} {fr : Framed} {msgs : List Bytes} (h : ChanRel lim wrap ⟨out, fr⟩ msgs)
    (hb : b.length ≤ lim) : ChanRel lim wrap ⟨out ++ (beBytes 4 (wrap b).length ++ wrap b), fr⟩ (msgs ++ [b]) := by
  obtain ⟨st, buf⟩ := fr
  obtain ⟨hl, h⟩ := h
  refine ⟨fun x hx => ?_, ?_⟩
  · rcases List.mem_append.1 hx with hx | hx
    · exact hl x hx
    · rw [List.mem_singleton.1 hx]; exact hb
  · cases st with
    | head =>
      simp only at h ⊢
      rw [← List.append_assoc, h]
      simp [wireFrame]
    | data k =>
      obtain ⟨a, rest, rfl, rfl, h⟩ := h
      refine ⟨a, rest ++ [b], rfl, rfl, ?_⟩
      simp only at h ⊢
      rw [← List.append_assoc, h]
      simp [wireFrame]

/-- **Simulation.** Every execution on bytes is an execution on messages with some reads in between. -/
theorem BSteps.sim {T : Transport} {lim : Nat} {wrap : Bytes → Bytes} (hT : Spec.Carries T lim wrap) {ps : Fin n → Proc α} {rs : Fin n → α}
    (hy : Spec.AlwaysYieldsWithin lim (Net.init ps) rs) {K : Nat} {bc : ByteNet n α} (h : BSteps T K (ByteNet.init ps) bc) :
    ∃ k r Q, K = k + r ∧ GSteps (fun a => Reliable a ∧ Spec.Within lim a) k (Net.init ps) ⟨bc.procs, Q⟩ ∧
      Carried lim wrap k r bc.chans Q := by
  generalize hc : ByteNet.init ps = c at h
  induction h with
  | refl c =>
    subst hc
    refine ⟨0, 0, fun _ => [], rfl, .refl _, fun x => ⟨by simp, rfl⟩, ∅, fun _ _ => rfl, by simp [inTransit]⟩
  | step hs h1 ih =>
    obtain ⟨k, r, Q, rfl, hg, hcar⟩ := ih hc
    cases h1 with
    | inner procs C i a p' ha h =>
      refine ⟨k + 1, r, Q, by omega, hg.snoc (.mk procs Q Q i a p' ⟨?_, ?_⟩ h ?_), hcar.mono⟩
      · rcases ha with rfl | rfl <;> simp [Reliable]
      · rcases ha with rfl | rfl <;> simp [Spec.Within]
      · rcases ha with rfl | rfl <;> rfl
    | send procs C i dst sid b out p' h ho =>
      have hb : b.length ≤ lim := by
        by_contra hlt
        exact hy.not_blocked hg i (h.blocked_of_send (by omega))
      have hfit := hT.fits b hb
      rw [hT.send b _ hb] at ho
      cases ho
      refine ⟨k + 1, r, _, by omega, hg.snoc (.mk procs Q _ i _ p' ⟨by simp [Reliable], ?_⟩ h rfl), ?_⟩
      · intro _ _ _ e; cases e; exact hb
      · refine hcar.update _ _ _ (chanRel_push (hcar.rel _) hb) ?_
        simp only [List.length_append, beBytes_length, Nat.add_mul]
        omega
    | sendFail procs C i dst sid b p' p'' e h ho hf =>
      have hb : b.length ≤ lim := by
        by_contra hlt
        exact hy.not_blocked hg i (h.blocked_of_send (by omega))
      rw [hT.send b _ hb] at ho
      cases ho
    | read procs C i frm sid st buf c rest hw hd hc' ho =>
      have hgood := goodDecode hT (hcar.rel (frm, i.val, sid))
      simp only [hd] at hgood
      refine ⟨k, r + 1, Q, by omega, hg, ?_⟩
      have := hcar.update (frm, i.val, sid) ⟨rest, ⟨st, buf ++ c⟩⟩ (Q (frm, i.val, sid)) (hgood.1 _ _ ho) (k' := k) (r' := r + 1) (by
        have hlen := List.length_pos_iff.2 hc'
        simp only [ho, List.length_append]
        omega)
      rwa [Function.update_eq_self] at this
    | recv procs C i frm sid f buf b p' hd hb h =>
      have hgood := goodDecode hT (hcar.rel (frm, i.val, sid))
      simp only [hd] at hgood
      obtain ⟨b', rest, hQ, rfl, hrel⟩ := hgood
      have hl := (hcar.rel (frm, i.val, sid)).1 b' (by rw [hQ]; simp)
      rw [hT.recv b' hl] at hb
      cases hb
      refine ⟨k + 1, r, Function.update Q (frm, i.val, sid) rest, by omega,
        hg.snoc (.mk procs Q _ i _ p' ⟨by simp [Reliable], by simp [Spec.Within]⟩ h ?_), hcar.update _ _ _ hrel ?_⟩
      · simp [qstep, hQ]
      · simp only [Nat.add_mul]; omega
    | recvFail procs C i frm sid f buf p'' e hw hd hb hf =>
      have hgood := goodDecode hT (hcar.rel (frm, i.val, sid))
      simp only [hd] at hgood
      obtain ⟨b', rest, hQ, rfl, hrel⟩ := hgood
      have hl := (hcar.rel (frm, i.val, sid)).1 b' (by rw [hQ]; simp)
      rw [hT.recv b' hl] at hb
      cases hb
    | decodeFail procs C i frm sid p'' hw hd hf =>
      have hgood := goodDecode hT (hcar.rel (frm, i.val, sid))
      simp only [hd] at hgood
      exact hgood.elim

/-- **Progress.** If the network on messages can move, so can the network on bytes. -/
theorem BStep.progress {T : Transport} {lim : Nat} {wrap : Bytes → Bytes} (hT : Spec.Carries T lim wrap) {k r : Nat} {bc : ByteNet n α} {Q : Queues}
    (hcar : Carried lim wrap k r bc.chans Q) {c'' : Net n α} (h : GStep (fun a => Reliable a ∧ Spec.Within lim a) ⟨bc.procs, Q⟩ c'') :
    ∃ bc', BStep T bc bc' := by
  obtain ⟨procs, C⟩ := bc
  generalize hcc : (⟨procs, Q⟩ : Net n α) = c at h
  cases h with
  | mk procs' Q0 Q' i a p' ha hstep hq =>
    cases hcc
    cases a with
    | tau => exact ⟨_, .inner procs C i .tau p' (.inl rfl) hstep⟩
    | abort => exact ⟨_, .inner procs C i .abort p' (.inr rfl) hstep⟩
    | fault => exact absurd rfl ha.1
    | send dst sid b => exact ⟨_, .send procs C i dst sid b _ p' hstep (hT.send b _ (ha.2 _ _ _ rfl))⟩
    | recv frm sid b =>
      have hgood := goodDecode hT (hcar.rel (frm, i.val, sid))
      simp only [qstep] at hq
      cases hQ : Q (frm, i.val, sid) with
      | nil => simp [hQ] at hq
      | cons x rest =>
        have hxb : x = b := by
          by_contra hne
          simp [hQ, hne] at hq
        subst hxb
        have hl := (hcar.rel (frm, i.val, sid)).1 x (by rw [hQ]; simp)
        simp only at hgood
        cases hd : decodeFrame (C (frm, i.val, sid)).fr.st (C (frm, i.val, sid)).fr.buf with
        | error => rw [hd] at hgood; exact hgood.elim
        | need st buf =>
          rw [hd] at hgood
          refine ⟨_, .read procs C i frm sid st buf (C (frm, i.val, sid)).out [] ⟨x, p', hstep⟩ hd (hgood.2 (by rw [hQ]; simp)) (by simp)⟩
        | frame f buf =>
          rw [hd] at hgood
          obtain ⟨b', rest', hQ', rfl, hrel⟩ := hgood
          rw [hQ] at hQ'
          cases hQ'
          exact ⟨_, .recv procs C i frm sid _ buf x p' hd (hT.recv x hl) hstep⟩

/-- A protocol that always succeeds on a network with the limit `lim` always succeeds on bytes, if the transport carries messages up to `lim`. -/
theorem Spec.AlwaysYieldsWithin.bytes {T : Transport} {lim : Nat} {wrap : Bytes → Bytes} (hT : Spec.Carries T lim wrap) {ps : Fin n → Proc α}
    {rs : Fin n → α} (hy : Spec.AlwaysYieldsWithin lim (Net.init ps) rs) : Spec.BytesAlwaysYield T (ByteNet.init ps) rs := by
  obtain ⟨m, hm⟩ := hy.1
  refine ⟨⟨m + m * (8 * 1024 * 1024 + 4), fun K bc h => ?_⟩, fun K bc h hst => ?_⟩
  · obtain ⟨k, r, Q, rfl, hg, hcar⟩ := h.sim hT hy
    have hk := hm _ _ hg
    obtain ⟨S, -, hb⟩ := hcar.few
    have := Nat.mul_le_mul_right (8 * 1024 * 1024 + 4) hk
    omega
  · obtain ⟨k, r, Q, rfl, hg, hcar⟩ := h.sim hT hy
    exact hy.2 _ _ hg fun ⟨c'', h''⟩ => hst (BStep.progress hT hcar h'')

/-- Every execution on bytes is, up to reads, an execution on a network that transports no message longer than `lim`. -/
theorem BSteps.sim_any {T : Transport} {lim : Nat} {wrap : Bytes → Bytes} (hT : Spec.Carries T lim wrap) {ps : Fin n → Proc α} {K : Nat}
    {bc : ByteNet n α} (h : BSteps T K (ByteNet.init ps) bc) :
    ∃ k Q, GSteps (Spec.Within lim) k (Net.init ps) ⟨bc.procs, Q⟩ ∧ ∀ x, ChanRel lim wrap (bc.chans x) (Q x) := by
  have upd : ∀ {C : Nat × Nat × Sid → ByteChan} {Q : Queues}, (∀ x, ChanRel lim wrap (C x) (Q x)) → ∀ (x : Nat × Nat × Sid) (ch : ByteChan)
      (msgs : List Bytes), ChanRel lim wrap ch msgs → ∀ y, ChanRel lim wrap (Function.update C x ch y) (Function.update Q x msgs y) := by
    intro C Q hr x ch msgs hch y
    by_cases hxy : y = x
    · subst hxy; simpa using hch
    · simpa [Function.update_of_ne hxy] using hr y
  generalize hc : ByteNet.init ps = c at h
  induction h with
  | refl c =>
    subst hc
    exact ⟨0, fun _ => [], .refl _, fun x => ⟨by simp, rfl⟩⟩
  | step hs h1 ih =>
    obtain ⟨k, Q, hg, hrel⟩ := ih hc
    cases h1 with
    | inner procs C i a p' ha h =>
      refine ⟨k + 1, Q, hg.snoc (.mk procs Q Q i a p' ?_ h ?_), hrel⟩
      · rcases ha with rfl | rfl <;> simp [Spec.Within]
      · rcases ha with rfl | rfl <;> rfl
    | send procs C i dst sid b out p' h ho =>
      have hb : b.length ≤ lim := by
        by_contra hlt
        obtain ⟨e, he⟩ := hT.refuse b (C (i, dst, sid)).out (by omega)
        rw [he] at ho
        cases ho
      rw [hT.send b _ hb] at ho
      cases ho
      refine ⟨k + 1, _, hg.snoc (.mk procs Q _ i _ p' ?_ h rfl), upd hrel _ _ _ (chanRel_push (hrel _) hb)⟩
      intro _ _ _ e; cases e; exact hb
    | sendFail procs C i dst sid b p' p'' e h ho hf =>
      exact ⟨k + 1, Q, hg.snoc (.mk procs Q Q i _ p'' (by simp [Spec.Within]) hf rfl), hrel⟩
    | read procs C i frm sid st buf c rest hw hd hc' ho =>
      have hgood := goodDecode hT (hrel (frm, i.val, sid))
      simp only [hd] at hgood
      refine ⟨k, Q, hg, ?_⟩
      have := upd hrel (frm, i.val, sid) ⟨rest, ⟨st, buf ++ c⟩⟩ (Q (frm, i.val, sid)) (hgood.1 _ _ ho)
      rwa [Function.update_eq_self] at this
    | recv procs C i frm sid f buf b p' hd hb h =>
      have hgood := goodDecode hT (hrel (frm, i.val, sid))
      simp only [hd] at hgood
      obtain ⟨b', rest, hQ, rfl, hrel'⟩ := hgood
      have hl := (hrel (frm, i.val, sid)).1 b' (by rw [hQ]; simp)
      rw [hT.recv b' hl] at hb
      cases hb
      refine ⟨k + 1, Function.update Q (frm, i.val, sid) rest, hg.snoc (.mk procs Q _ i _ p' (by simp [Spec.Within]) h ?_),
        upd hrel _ _ _ hrel'⟩
      simp [qstep, hQ]
    | recvFail procs C i frm sid f buf p'' e hw hd hb hf =>
      have hgood := goodDecode hT (hrel (frm, i.val, sid))
      simp only [hd] at hgood
      obtain ⟨b', rest, hQ, rfl, hrel'⟩ := hgood
      have hl := (hrel (frm, i.val, sid)).1 b' (by rw [hQ]; simp)
      rw [hT.recv b' hl] at hb
      cases hb
    | decodeFail procs C i frm sid p'' hw hd hf =>
      have hgood := goodDecode hT (hrel (frm, i.val, sid))
      simp only [hd] at hgood
      exact hgood.elim

theorem Spec.NeverFinishes.bytes {T : Transport} {lim : Nat} {wrap : Bytes → Bytes} (hT : Spec.Carries T lim wrap) {ps : Fin n → Proc α}
    {i : Fin n} (hn : Spec.NeverFinishes lim (Net.init ps) i) : Spec.BytesNeverFinish T (ByteNet.init ps) i := by
  intro K bc h v
  obtain ⟨k, Q, hg, -⟩ := h.sim_any hT
  exact hn k _ hg v

theorem BSteps.trans {T : Transport} {j k : Nat} {c c' c'' : ByteNet n α} (h : BSteps T j c c') (h' : BSteps T k c' c'') :
    BSteps T (j + k) c c'' := by
  induction h' with
  | refl => exact h
  | step _ h2 ih => exact .step (ih h) h2

theorem Framed.next_length (reads : List Bytes) (fr : Framed) : (fr.next reads).2.2.length ≤ reads.length := by
  induction reads generalizing fr with
  | nil => simp only [Framed.next]; split <;> simp
  | cons c cs ih =>
    simp only [Framed.next]
    split
    · simp
    · simp
    · split
      · simp
      · exact (ih _).trans (by simp)

end ZkSaas
