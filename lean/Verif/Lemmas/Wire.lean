import Verif.Model.Wire
import Verif.Lemmas.SerNet

/-! Frames. -/

namespace ZkSaas

theorem beBytes_length (k x : Nat) : (beBytes k x).length = k := by simp [beBytes, leBytes_length]

theorem ofBeBytes_beBytes (k x : Nat) (h : x < 256 ^ k) : ofBeBytes (beBytes k x) = x := by
  simp [ofBeBytes, beBytes, ofLeBytes_leBytes k x h]

/-- What is still to come when the decoder is in this state. -/
def Pending (fr : Framed) (reads : List Bytes) (m rest : Bytes) : Prop :=
  (fr.st = .head ∧ fr.buf ++ reads.flatten = beBytes 4 m.length ++ m ++ rest) ∨
  (fr.st = .data m.length ∧ fr.buf ++ reads.flatten = m ++ rest)

theorem decodeData_spec {n : Nat} {buf tail m rest : Bytes} (hn : n = m.length) (h : buf ++ tail = m ++ rest) :
    (∃ buf', decodeData n buf = .frame m buf' ∧ buf' ++ tail = rest) ∨
    (decodeData n buf = .need (.data n) buf ∧ buf.length < m.length) := by
  subst hn
  unfold decodeData
  by_cases hl : buf.length < m.length
  · exact .inr ⟨if_pos hl, hl⟩
  · rw [if_neg hl]
    have h1 : buf.take m.length = m := by
      have := congrArg (List.take m.length) h
      rwa [List.take_append_of_le_length (by omega), List.take_append_of_le_length le_rfl, List.take_length] at this
    have h2 : buf.drop m.length ++ tail = rest := by
      have := congrArg (List.drop m.length) h
      rwa [List.drop_append_of_le_length (by omega), List.drop_append_of_le_length le_rfl, List.drop_length, List.nil_append] at this
    exact .inl ⟨_, by rw [h1], h2⟩

theorem maxFrame_lt : maxFrame < 256 ^ 4 := by unfold maxFrame; norm_num

/-- One call of `decode`: the frame if all its bytes are there, otherwise still the same to come. -/
theorem decode_spec {fr : Framed} {reads : List Bytes} {m rest : Bytes} (hm : m.length ≤ maxFrame) (h : Pending fr reads m rest) :
    (∃ buf', decodeFrame fr.st fr.buf = .frame m buf' ∧ buf' ++ reads.flatten = rest) ∨
    (∃ st buf, decodeFrame fr.st fr.buf = .need st buf ∧ Pending ⟨st, buf⟩ reads m rest ∧
      fr.buf.length < (if fr.st = .head then 4 else 0) + m.length ∧ (st = .head → buf = fr.buf) ∧
      (buf = [] → fr.st = .head → fr.buf.length = 0 ∨ fr.buf.length = 4 ∧ m ≠ [])) := by
  obtain ⟨st, buf⟩ := fr
  rcases h with ⟨h1, h2⟩ | ⟨h1, h2⟩
  · simp only at h1 h2
    subst h1
    simp only [decodeFrame]
    by_cases hl : buf.length < 4
    · rw [if_pos hl]
      exact .inr ⟨_, _, rfl, .inl ⟨rfl, h2⟩, by simp; omega, fun _ => rfl, fun h _ => .inl (by rw [h]; rfl)⟩
    · rw [if_neg hl]
      have hbe := beBytes_length 4 m.length
      have e1 : buf.take 4 = beBytes 4 m.length := by
        have := congrArg (List.take 4) h2
        rwa [List.append_assoc, List.take_append_of_le_length (by omega), List.take_append_of_le_length (by omega),
          List.take_of_length_le (l := beBytes 4 m.length) (by omega)] at this
      have e2 : buf.drop 4 ++ reads.flatten = m ++ rest := by
        have := congrArg (List.drop 4) h2
        rwa [List.append_assoc, List.drop_append_of_le_length (by omega), List.drop_append_of_le_length (by omega),
          List.drop_of_length_le (l := beBytes 4 m.length) (by omega), List.nil_append] at this
      rw [e1, ofBeBytes_beBytes _ _ (lt_of_le_of_lt hm maxFrame_lt), if_neg (by omega)]
      rcases decodeData_spec rfl e2 with ⟨b, e, hb⟩ | ⟨e, hb⟩
      · exact .inl ⟨b, e, hb⟩
      · refine .inr ⟨_, _, e, .inr ⟨rfl, e2⟩, ?_, by simp, ?_⟩
        · rw [List.length_drop] at hb; simp; omega
        · intro h _
          right
          have := congrArg List.length h
          rw [List.length_drop] at this
          simp at this
          refine ⟨by omega, ?_⟩
          rintro rfl
          simp at hb
  · simp only at h1 h2
    subst h1
    simp only [decodeFrame]
    rcases decodeData_spec rfl h2 with ⟨b, e, hb⟩ | ⟨e, hb⟩
    · exact .inl ⟨b, e, hb⟩
    · exact .inr ⟨_, _, e, .inr ⟨rfl, h2⟩, by simpa using hb, by simp, by simp⟩

theorem next_frame {m rest : Bytes} (hm : m.length ≤ maxFrame) (reads : List Bytes) (hr : ∀ c ∈ reads, c ≠ []) (fr : Framed)
    (h : Pending fr reads m rest) :
    ∃ buf' reads', fr.next reads = (.frame m, ⟨.head, buf'⟩, reads') ∧ buf' ++ reads'.flatten = rest ∧ ∀ c ∈ reads', c ≠ [] := by
  induction reads generalizing fr with
  | nil =>
    rcases decode_spec hm h with ⟨b, e, hb⟩ | ⟨st, buf, e, hp, hlt, -, -⟩
    · exact ⟨b, [], by simp [Framed.next, e], hb, by simp⟩
    · exfalso
      rcases h with ⟨h1, h2⟩ | ⟨h1, h2⟩
      · have := congrArg List.length h2
        simp [beBytes_length] at this
        rw [if_pos h1] at hlt
        omega
      · have := congrArg List.length h2
        simp at this
        rw [if_neg (by rw [h1]; simp)] at hlt
        omega
  | cons c cs ih =>
    rcases decode_spec hm h with ⟨b, e, hb⟩ | ⟨st, buf, e, hp, -, -, -⟩
    · exact ⟨b, c :: cs, by simp [Framed.next, e], hb, hr⟩
    · have hc : c ≠ [] := hr c (by simp)
      obtain ⟨b, r, e', h1, h2⟩ := ih (fun x hx => hr x (List.mem_cons_of_mem _ hx)) ⟨st, buf ++ c⟩ (by
        rcases hp with ⟨h1, h2⟩ | ⟨h1, h2⟩
        · exact .inl ⟨h1, by simpa using h2⟩
        · exact .inr ⟨h1, by simpa using h2⟩)
      exact ⟨b, r, by simp only [Framed.next, e, if_neg hc]; exact e', h1, h2⟩

/-- The bytes of a sequence of frames. -/
def frames (msgs : List Bytes) : Bytes := msgs.flatMap fun m => beBytes 4 m.length ++ m

theorem nexts_frames (msgs : List Bytes) (hm : ∀ m ∈ msgs, m.length ≤ maxFrame) (rest : Bytes) (k : Nat) (reads : List Bytes)
    (hr : ∀ c ∈ reads, c ≠ []) (buf : Bytes) (h : buf ++ reads.flatten = frames msgs ++ rest) :
    ∃ buf' reads', Framed.nexts (msgs.length + k) ⟨.head, buf⟩ reads = msgs.map Next.frame ++ Framed.nexts k ⟨.head, buf'⟩ reads' ∧
      buf' ++ reads'.flatten = rest ∧ ∀ c ∈ reads', c ≠ [] := by
  induction msgs generalizing buf reads with
  | nil => exact ⟨buf, reads, by simp, h, hr⟩
  | cons m msgs ih =>
    obtain ⟨b, r, e, h1, h2⟩ := next_frame (m := m) (rest := frames msgs ++ rest) (hm m (by simp)) reads hr ⟨.head, buf⟩
      (.inl ⟨rfl, by rw [h]; simp [frames]⟩)
    obtain ⟨b', r', e', h3, h4⟩ := ih (fun x hx => hm x (List.mem_cons_of_mem _ hx)) r h2 b h1
    refine ⟨b', r', ?_, h3, h4⟩
    rw [List.length_cons, show msgs.length + 1 + k = (msgs.length + k) + 1 by omega, Framed.nexts]
    simp only [e, e', List.map_cons, List.cons_append]

/-- A cut frame. -/
theorem next_cut {m p : Bytes} (hm : m.length ≤ maxFrame) (hp : p <+: beBytes 4 m.length ++ m) (hne : p ≠ [])
    (hlt : p.length < 4 + m.length) (reads : List Bytes) (hr : ∀ c ∈ reads, c ≠ []) (buf : Bytes) (h : buf ++ reads.flatten = p) :
    (Framed.next ⟨.head, buf⟩ reads).1 = .error ∨ (Framed.next ⟨.head, buf⟩ reads).1 = .ended ∧ p.length = 4 := by
  obtain ⟨q, hq⟩ := hp
  have hq0 : q ≠ [] := by
    rintro rfl
    have := congrArg List.length hq
    simp [beBytes_length] at this
    omega
  -- with the rest of the frame as an additional piece the decoder would find the frame
  have key : ∀ (reads : List Bytes) (_ : ∀ c ∈ reads, c ≠ []) (fr : Framed), Pending fr (reads ++ [q]) m [] →
      (fr.next reads).1 = .error ∨ (fr.next reads).1 = .ended ∧
        (fr.st = .head ∧ (fr.buf ++ reads.flatten).length = 0 ∨ fr.st = .head ∧ (fr.buf ++ reads.flatten).length = 4 ∨
          fr.st ≠ .head ∧ fr.buf ++ reads.flatten = []) := by
    intro reads
    induction reads with
    | nil =>
      intro _ fr hp
      rcases decode_spec hm hp with ⟨b, e, hb⟩ | ⟨st, buf, e, hp', hlt, hst, hb⟩
      · exfalso
        simp at hb
        exact hq0 hb.2
      · simp only [Framed.next, e]
        by_cases hb0 : buf = []
        · rw [if_pos hb0]
          right
          refine ⟨rfl, ?_⟩
          by_cases h0 : fr.st = .head
          · rcases hb hb0 h0 with h | h
            · exact .inl ⟨h0, by simpa using h⟩
            · exact .inr (.inl ⟨h0, by simpa using h.1⟩)
          · refine .inr (.inr ⟨h0, ?_⟩)
            rcases hp with ⟨h1, -⟩ | ⟨h1, h2⟩
            · exact absurd h1 h0
            · rw [h1] at e
              simp only [decodeFrame, decodeData] at e
              split at e
              · cases e; simpa using hb0
              · cases e
        · rw [if_neg hb0]; exact .inl rfl
    | cons c cs ih =>
      intro hr fr hp
      rcases decode_spec hm hp with ⟨b, e, hb⟩ | ⟨st, buf, e, hp', hlt, hst, hb⟩
      · exfalso
        simp at hb
        exact hr c (by simp) hb.2.1
      · have hc : c ≠ [] := hr c (by simp)
        simp only [Framed.next, e, if_neg hc]
        have := ih (fun x hx => hr x (List.mem_cons_of_mem _ hx)) ⟨st, buf ++ c⟩ (by
          rcases hp' with ⟨h1, h2⟩ | ⟨h1, h2⟩
          · exact .inl ⟨h1, by simpa using h2⟩
          · exact .inr ⟨h1, by simpa using h2⟩)
        refine this.imp id fun h => ⟨h.1, ?_⟩
        rcases h.2 with h | h | h
        · exfalso
          have := h.2
          simp [hc] at this
        · have h0 := h.1
          simp only at h0
          have : fr.st = .head := by
            rcases hp with ⟨h1, -⟩ | ⟨h1, -⟩
            · exact h1
            · rw [h1] at e
              simp only [decodeFrame, decodeData] at e
              split at e
              · cases e; cases h0
              · cases e
          refine .inr (.inl ⟨this, ?_⟩)
          rw [← hst h0]
          simpa using h.2
        · exfalso
          have := h.2
          simp [hc] at this
  rcases key reads hr ⟨.head, buf⟩ (.inl ⟨rfl, by simp [← List.append_assoc, h, hq]⟩) with h' | ⟨h', h'' | h'' | h''⟩
  · exact .inl h'
  · exfalso
    have := h''.2
    simp only [h] at this
    exact hne (List.length_eq_zero_iff.1 this)
  · exact .inr ⟨h', by have := h''.2; simpa only [h] using this⟩
  · exact absurd rfl h''.1

end ZkSaas
