import Verif.Lemmas.Wire

/-!
# C46, C47: frames and packets
-/

namespace ZkSaas.Properties

open ZkSaas

/-- A sender that sends one message after the other and carries on after a failure: the bytes written. -/
def written (msgs : List Bytes) : Bytes :=
  msgs.foldl (fun out m => match sendStream out m with | .ok out' => out' | .error _ => out) []

/-- The number of bytes of a message on the wire. -/
def onWire (msgs : List Bytes) : Nat := (msgs.map fun m => 4 + m.length).sum

theorem written_eq (msgs : List Bytes) : written msgs = frames (msgs.filter fun m => m.length ≤ maxFrame) := by
  have key : ∀ (msgs : List Bytes) (out : Bytes),
      msgs.foldl (fun out m => match sendStream out m with | .ok out' => out' | .error _ => out) out =
        out ++ frames (msgs.filter fun m => m.length ≤ maxFrame) := by
    intro msgs
    induction msgs with
    | nil => intro out; simp [frames]
    | cons m msgs ih =>
      intro out
      rw [List.foldl_cons, ih]
      by_cases h : m.length ≤ maxFrame
      · rw [List.filter_cons_of_pos (by simpa using h)]
        simp [sendStream, encodeFrame, show ¬ maxFrame < m.length by omega, frames]
      · rw [List.filter_cons_of_neg (by simpa using h)]
        simp [sendStream, encodeFrame, show maxFrame < m.length by omega]
  simpa [written] using key msgs []

theorem frames_length (msgs : List Bytes) : (frames msgs).length = onWire msgs := by
  induction msgs with
  | nil => rfl
  | cons m msgs ih => 
    have : frames (m :: msgs) = (beBytes 4 m.length ++ m) ++ frames msgs := by simp [frames]
    rw [this, List.length_append, ih]
    simp [onWire, beBytes_length]

/-- **C46.** Whatever the reads that cut up the bytes written, the receiver gets the messages sent that are not over the limit, in
order and unchanged, and then the end of the stream. -/
theorem C46_roundtrip (msgs : List Bytes) (reads : List Bytes) (hr : ∀ c ∈ reads, c ≠ []) (h : reads.flatten = written msgs) :
    let fit := msgs.filter fun m => m.length ≤ 8 * 1024 * 1024
    Framed.nexts (fit.length + 1) Framed.new reads = fit.map Next.frame ++ [Next.ended] := by
  intro fit
  rw [written_eq] at h
  obtain ⟨buf', reads', e, h1, h2⟩ := nexts_frames fit (fun m hm => of_decide_eq_true (List.mem_filter.1 hm).2) [] 1 reads hr []
    (by rw [List.nil_append, h, List.append_nil]; rfl)
  rw [Framed.new, e]
  congr 1
  obtain ⟨rfl, h3⟩ := List.append_eq_nil_iff.1 h1
  have : reads' = [] := by
    cases reads' with
    | nil => rfl
    | cons c cs => exact absurd (List.append_eq_nil_iff.1 h3).1 (h2 c (by simp))
  subst this
  rfl

/-- **C46.** `send_stream` writes a message of at most 8 MiB; a longer one is refused and nothing is written. -/
theorem C46_sender (out m : Bytes) :
    (m.length ≤ 8 * 1024 * 1024 → ∃ b, b.length = 4 + m.length ∧ sendStream out m = .ok (out ++ b)) ∧
    (8 * 1024 * 1024 < m.length → sendStream out m = .error (.net .generic)) := by
  constructor
  · intro h
    exact ⟨beBytes 4 m.length ++ m, by simp [beBytes_length],
      by simp [sendStream, encodeFrame, show ¬ maxFrame < m.length by unfold maxFrame; omega]⟩
  · intro h
    simp [sendStream, encodeFrame, show maxFrame < m.length by unfold maxFrame; omega]

/-- **C46.** A connection that is cut at any byte: the receiver gets exactly the messages that arrived completely, and then every
receive fails; it never gets a message that was not sent. -/
theorem C46_cut (msgs : List Bytes) (hm : ∀ m ∈ msgs, m.length ≤ 8 * 1024 * 1024) (reads : List Bytes)
    (hr : ∀ c ∈ reads, c ≠ []) (h : reads.flatten <+: written msgs) :
    ∃ k x, k ≤ msgs.length ∧ onWire (msgs.take k) ≤ reads.flatten.length ∧
      (k < msgs.length → reads.flatten.length < onWire (msgs.take (k + 1))) ∧
      Framed.nexts (k + 1) Framed.new reads = (msgs.take k).map Next.frame ++ [x] ∧
      recvStream x = .error (.net .generic) ∧ (x = .ended ∨ onWire (msgs.take k) < reads.flatten.length) := by
  rw [written_eq, List.filter_eq_self (p := fun m : Bytes => decide (m.length ≤ maxFrame)) |>.2 (fun m h' => decide_eq_true (hm m h'))] at h
  -- the messages that arrived
  have hk : ∃ k, k ≤ msgs.length ∧ onWire (msgs.take k) ≤ reads.flatten.length ∧
      (k < msgs.length → reads.flatten.length < onWire (msgs.take (k + 1))) := by
    generalize reads.flatten.length = N
    clear h hm
    induction msgs generalizing N with
    | nil => exact ⟨0, by simp [onWire]⟩
    | cons m msgs ih =>
      by_cases hN : N < 4 + m.length
      · exact ⟨0, by simp, by simp [onWire], fun _ => by simpa [onWire] using hN⟩
      · obtain ⟨k, h1, h2, h3⟩ := ih (N - (4 + m.length))
        refine ⟨k + 1, by simpa using h1, ?_, fun hk => ?_⟩
        · simp only [onWire, List.take_succ_cons, List.map_cons, List.sum_cons] at h2 ⊢
          omega
        · have := h3 (by simpa using hk)
          simp only [onWire, List.take_succ_cons, List.map_cons, List.sum_cons] at this ⊢
          omega
  obtain ⟨k, h1, h2, h3⟩ := hk
  have hsplit : frames msgs = frames (msgs.take k) ++ frames (msgs.drop k) := by
    conv_lhs => rw [← List.take_append_drop k msgs]
    exact List.flatMap_append
  obtain ⟨p, hp⟩ : ∃ p, reads.flatten = frames (msgs.take k) ++ p := by
    have : frames (msgs.take k) <+: reads.flatten :=
      List.prefix_of_prefix_length_le (by rw [hsplit]; exact List.prefix_append _ _) h (by rw [frames_length]; exact h2)
    exact ⟨_, this.choose_spec.symm⟩
  obtain ⟨buf', reads', e, e1, e2⟩ := nexts_frames (msgs.take k)
    (fun m hm' => by have := hm m (List.mem_of_mem_take hm'); simpa [maxFrame] using this) p 1 reads hr [] (by simpa using hp)
  rw [List.length_take, Nat.min_eq_left h1] at e
  have hlen : reads.flatten.length = onWire (msgs.take k) + p.length := by rw [hp, List.length_append, frames_length]
  refine ⟨k, (Framed.next ⟨.head, buf'⟩ reads').1, h1, h2, h3, ?_, ?_, ?_⟩
  · rw [Framed.new, e]; rfl
  · by_cases hp0 : p = []
    · subst hp0
      obtain ⟨rfl, h4⟩ := List.append_eq_nil_iff.1 e1
      cases reads' with
      | nil => rfl
      | cons c cs => exact absurd (List.append_eq_nil_iff.1 h4).1 (e2 c (by simp))
    · rw [hp, hsplit] at h
      have h4 := (List.prefix_append_right_inj _).1 h
      have hkl : k < msgs.length := by
        by_contra hc
        rw [List.drop_of_length_le (by omega)] at h4
        exact hp0 (List.prefix_nil.1 (by simpa [frames] using h4))
      have h5 := h3 hkl
      have hd : msgs.drop k = msgs[k] :: msgs.drop (k + 1) := List.drop_eq_getElem_cons hkl
      have h6 : onWire (msgs.take (k + 1)) = onWire (msgs.take k) + (4 + msgs[k].length) := by
        rw [List.take_succ_eq_append_getElem hkl, onWire, List.map_append, List.sum_append]; rfl
      have hpl : p.length < 4 + msgs[k].length := by omega
      have h7 : p <+: beBytes 4 msgs[k].length ++ msgs[k] := by
        rw [hd] at h4
        refine List.prefix_of_prefix_length_le h4 ?_ ?_ (l₃ := frames (msgs[k] :: msgs.drop (k + 1)))
        · simp only [frames, List.flatMap_cons]; exact List.prefix_append _ _
        · rw [List.length_append, beBytes_length]; omega
      rcases next_cut (by have := hm _ (List.getElem_mem hkl); simpa [maxFrame] using this) h7 hp0 hpl reads' e2 buf' e1 with h8 | h8
      · rw [h8]; rfl
      · rw [h8.1]; rfl
  · by_cases hp0 : p = []
    · left
      subst hp0
      obtain ⟨rfl, h4⟩ := List.append_eq_nil_iff.1 e1
      cases reads' with
      | nil => rfl
      | cons c cs => exact absurd (List.append_eq_nil_iff.1 h4).1 (e2 c (by simp))
    · right
      rw [hlen]
      have := List.length_pos_iff.2 hp0
      omega

/-- **C46.** A peer that announces a frame over the limit is refused, whatever follows. -/
theorem C46_oversize_header (head rest : Bytes) (h4 : head.length = 4) (hbig : 8 * 1024 * 1024 < ofBeBytes head)
    (reads : List Bytes) (hr : ∀ c ∈ reads, c ≠ []) (h : reads.flatten = head ++ rest) :
    recvStream (Framed.new.next reads).1 = .error (.net .generic) := by
  have key : ∀ (reads : List Bytes) (_ : ∀ c ∈ reads, c ≠ []) (buf : Bytes), buf ++ reads.flatten = head ++ rest →
      (Framed.next ⟨.head, buf⟩ reads).1 = .error := by
    intro reads
    have hdec : ∀ (buf tail : Bytes), buf ++ tail = head ++ rest → ¬ buf.length < 4 → decodeFrame .head buf = .error := by
      intro buf tail hb hl
      have : buf.take 4 = head := by
        have := congrArg (List.take 4) hb
        rwa [List.take_append_of_le_length (by omega), List.take_append_of_le_length (by omega),
          List.take_of_length_le (l := head) (by omega)] at this
      simp only [decodeFrame, if_neg hl, this, if_pos (show maxFrame < ofBeBytes head from hbig)]
    induction reads with
    | nil =>
      intro _ buf hb
      have hl : ¬ buf.length < 4 := by
        have := congrArg List.length hb
        simp at this
        omega
      simp only [Framed.next, hdec buf _ hb hl]
    | cons c cs ih =>
      intro hr buf hb
      by_cases hl : buf.length < 4
      · simp only [Framed.next, decodeFrame, if_pos hl, if_neg (hr c (by simp))]
        exact ih (fun x hx => hr x (List.mem_cons_of_mem _ hx)) _ (by simpa using hb)
      · simp only [Framed.next, hdec buf _ hb hl]
  rw [Framed.new, key reads hr [] (by simpa using h)]
  rfl

example : Framed.nexts 3 Framed.new [[0, 0, 0, 2, 7], [8, 0, 0], [0, 1, 9]] = [.frame [7, 8], .frame [9], .ended] ∧
    written [[7, 8], [9]] = [0, 0, 0, 2, 7, 8, 0, 0, 0, 1, 9] := by decide +kernel

example : ∃ head : Bytes, head.length = 4 ∧ 8 * 1024 * 1024 < ofBeBytes head := ⟨[1, 0, 0, 0], by decide +kernel⟩

theorem leBytes_ofLeBytes (b : Bytes) : leBytes b.length (ofLeBytes b) = b := by
  induction b with
  | nil => rfl
  | cons x xs ih =>
    have hx : x.toNat < 256 := x.toNat_lt
    rw [List.length_cons, leBytes, ofLeBytes, show (x.toNat + 256 * ofLeBytes xs) % 256 = x.toNat by omega,
      show (x.toNat + 256 * ofLeBytes xs) / 256 = ofLeBytes xs by omega, ih, UInt8.ofNat_toNat]

/-- **C47.** A packet is decoded to the packet sent; bytes that follow are ignored. -/
theorem C47_decode_encode (p : ProtocolPacket) (hp : ∀ b, p = .packet b → b.length < 2 ^ 64) (junk : Bytes) :
    ProtocolPacket.dec (p.enc ++ junk) = some p := by
  have hl (k x : Nat) := leBytes_length k x
  cases p with
  | syn =>
    have : (leBytes 4 0 ++ junk).take 4 = leBytes 4 0 := List.take_left' (hl 4 0)
    simp only [ProtocolPacket.enc, ProtocolPacket.dec, this, ofLeBytes_leBytes 4 0 (by norm_num)]
    rw [if_neg (by simp [hl]), if_pos trivial]
  | synAck =>
    have : (leBytes 4 1 ++ junk).take 4 = leBytes 4 1 := List.take_left' (hl 4 1)
    simp only [ProtocolPacket.enc, ProtocolPacket.dec, this, ofLeBytes_leBytes 4 1 (by norm_num)]
    rw [if_neg (by simp [hl]), if_neg (by norm_num), if_pos trivial]
  | packet b =>
    have hb := hp b rfl
    have e : (ProtocolPacket.packet b).enc ++ junk = leBytes 4 2 ++ (leBytes 8 b.length ++ (b ++ junk)) := by
      simp [ProtocolPacket.enc]
    have e1 : ((ProtocolPacket.packet b).enc ++ junk).take 4 = leBytes 4 2 := by rw [e]; exact List.take_left' (hl 4 2)
    have e2 : ((ProtocolPacket.packet b).enc ++ junk).drop 4 = leBytes 8 b.length ++ (b ++ junk) := by
      rw [e]; exact List.drop_left' (hl 4 2)
    have e3 : (((ProtocolPacket.packet b).enc ++ junk).drop 4).take 8 = leBytes 8 b.length := by
      rw [e2]; exact List.take_left' (hl 8 _)
    have e4 : ((ProtocolPacket.packet b).enc ++ junk).drop 12 = b ++ junk := by
      rw [show 12 = 4 + 8 by rfl, ← List.drop_drop, e2]; exact List.drop_left' (hl 8 _)
    have e5 : ofLeBytes (leBytes 8 b.length) = b.length := ofLeBytes_leBytes _ _ (by norm_num; omega)
    simp only [ProtocolPacket.dec, e1, e3, e4, e5, ofLeBytes_leBytes 4 2 (by norm_num)]
    rw [if_neg (by rw [e]; simp [hl]), if_neg (by norm_num), if_neg (by norm_num), if_pos trivial, e2,
      if_neg (by simp [hl]), if_neg (by simp), List.take_left' rfl]

/-- **C47.** Only the encodings of a packet, possibly followed by other bytes, decode to it. -/
theorem C47_decode_sound (x : Bytes) (p : ProtocolPacket) (h : ProtocolPacket.dec x = some p) : ∃ junk, x = p.enc ++ junk := by
  unfold ProtocolPacket.dec at h
  split_ifs at h with h1 h2 h3 h4 h5 h6
  · cases h
    refine ⟨x.drop 4, ?_⟩
    have := leBytes_ofLeBytes (x.take 4)
    rw [h2, List.length_take, Nat.min_eq_left (by omega)] at this
    rw [ProtocolPacket.enc, this, List.take_append_drop]
  · cases h
    refine ⟨x.drop 4, ?_⟩
    have := leBytes_ofLeBytes (x.take 4)
    rw [h3, List.length_take, Nat.min_eq_left (by omega)] at this
    rw [ProtocolPacket.enc, this, List.take_append_drop]
  · cases h
    refine ⟨(x.drop 12).drop (ofLeBytes ((x.drop 4).take 8)), ?_⟩
    have a1 := leBytes_ofLeBytes (x.take 4)
    rw [h4, List.length_take, Nat.min_eq_left (by omega)] at a1
    have a2 := leBytes_ofLeBytes ((x.drop 4).take 8)
    rw [List.length_take, Nat.min_eq_left (by omega)] at a2
    rw [ProtocolPacket.enc, a1, List.length_take, Nat.min_eq_left (by omega), a2, List.append_assoc, List.append_assoc,
      List.take_append_drop, show (12 : Nat) = 4 + 8 by rfl, ← List.drop_drop, List.take_append_drop, List.take_append_drop]

/-- **C47.** Different packets have different encodings, and none is the beginning of another. -/
theorem C47_injective (p q : ProtocolPacket) (hp : ∀ b, p = .packet b → b.length < 2 ^ 64)
    (hq : ∀ b, q = .packet b → b.length < 2 ^ 64) (h : p.enc <+: q.enc) : p = q := by
  obtain ⟨junk, h⟩ := h
  have h1 := C47_decode_encode p hp junk
  have h2 := C47_decode_encode q hq []
  rw [h] at h1
  rw [List.append_nil] at h2
  exact Option.some.inj (h1.symm.trans h2)

/-- **C47.** A packet that was cut short, and an unknown kind of packet, are refused. -/
theorem C47_refused :
    (∀ (p : ProtocolPacket) (x : Bytes), (∀ b, p = .packet b → b.length < 2 ^ 64) → x <+: p.enc → x ≠ p.enc →
      recvPacket (.frame x) = .error (.net .generic)) ∧
    (∀ x : Bytes, 3 ≤ ofLeBytes (x.take 4) → recvPacket (.frame x) = .error (.net .generic)) := by
  refine ⟨fun p x hp hx hne => ?_, fun x hx => ?_⟩
  · have : ProtocolPacket.dec x = none := by
      by_contra hc
      obtain ⟨q, hq⟩ := Option.ne_none_iff_exists'.1 hc
      obtain ⟨junk, hj⟩ := C47_decode_sound x q hq
      obtain ⟨rest, hr⟩ := hx
      have h1 := C47_decode_encode p hp []
      rw [List.append_nil, ← hr, hj] at h1
      have hq' : ∀ b, q = .packet b → b.length < 2 ^ 64 := by
        rintro b rfl
        cases p with
        | packet b' =>
          have h2 := hp b' rfl
          have h3 := congrArg List.length hr
          rw [hj] at h3
          simp [ProtocolPacket.enc, leBytes_length] at h3
          omega
        | syn =>
          have h3 := congrArg List.length hr
          rw [hj] at h3
          simp [ProtocolPacket.enc, leBytes_length] at h3
        | synAck =>
          have h3 := congrArg List.length hr
          rw [hj] at h3
          simp [ProtocolPacket.enc, leBytes_length] at h3
      rw [List.append_assoc, C47_decode_encode q hq'] at h1
      cases h1
      refine hne (List.IsPrefix.eq_of_length_le ⟨rest, hr⟩ ?_)
      rw [hj]; simp
    simp [recvPacket, this]
  · have : ProtocolPacket.dec x = none := by
      unfold ProtocolPacket.dec
      split_ifs <;> first | rfl | omega
    simp [recvPacket, this]

/-- **C47.** `ProdNet::recv_from` gives the payload of a data packet and an error for anything else. -/
theorem C47_recv (b : Bytes) (hb : b.length < 2 ^ 64) :
    prodRecv (.frame (ProtocolPacket.packet b).enc) = .ok b ∧
    prodRecv (.frame ProtocolPacket.syn.enc) = .error (.net .generic) ∧
    prodRecv (.frame ProtocolPacket.synAck.enc) = .error (.net .generic) ∧
    prodRecv .ended = .error (.net .notConnected) ∧ prodRecv .error = .error (.net .generic) := by
  have h1 := C47_decode_encode (.packet b) (by rintro _ ⟨⟩; exact hb) []
  have h2 := C47_decode_encode .syn (by rintro _ ⟨⟩) []
  have h3 := C47_decode_encode .synAck (by rintro _ ⟨⟩) []
  rw [List.append_nil] at h1 h2 h3
  refine ⟨?_, ?_, ?_, rfl, rfl⟩
  · simp only [prodRecv, recvPacket, h1]; rfl
  · simp only [prodRecv, recvPacket, h2]; rfl
  · simp only [prodRecv, recvPacket, h3]; rfl

/-- **C47.** The packet header counts towards the frame limit. -/
theorem C47_limit (out m : Bytes) :
    (m.length + 12 ≤ 8 * 1024 * 1024 → ∃ b, b.length = 16 + m.length ∧ prodSend out m = .ok (out ++ b)) ∧
    (8 * 1024 * 1024 < m.length + 12 → prodSend out m = .error (.net .generic)) := by
  have h := C46_sender out (ProtocolPacket.packet m).enc
  have hl : (ProtocolPacket.packet m).enc.length = m.length + 12 := by simp [ProtocolPacket.enc, leBytes_length]; omega
  rw [hl] at h
  refine ⟨fun hm => ?_, h.2⟩
  obtain ⟨b, h1, h2⟩ := h.1 hm
  exact ⟨b, by omega, h2⟩

/-- **C47.** Payloads sent with `ProdNet::send_to` are received by `ProdNet::recv_from` in order and unchanged, however the bytes of
the stream are cut. -/
theorem C47_stream (msgs : List Bytes) (hm : ∀ m ∈ msgs, m.length + 12 ≤ 8 * 1024 * 1024) (out : Bytes)
    (hout : msgs.foldlM prodSend [] = .ok out) (reads : List Bytes) (hr : ∀ c ∈ reads, c ≠ []) (h : reads.flatten = out) :
    (Framed.nexts msgs.length Framed.new reads).map prodRecv = msgs.map .ok := by
  have hl : ∀ m : Bytes, (ProtocolPacket.packet m).enc.length = m.length + 12 := fun m => by
    simp [ProtocolPacket.enc, leBytes_length]; omega
  have key : ∀ (msgs : List Bytes) (_ : ∀ m ∈ msgs, m.length + 12 ≤ 8 * 1024 * 1024) (out : Bytes),
      msgs.foldlM prodSend out = .ok (out ++ frames (msgs.map fun m => (ProtocolPacket.packet m).enc)) := by
    intro msgs
    induction msgs with
    | nil => intro _ out; simp [frames, pure, Except.pure]
    | cons m msgs ih =>
      intro hm out
      have h0 := hm m (by simp)
      have : prodSend out m = .ok (out ++ (beBytes 4 (ProtocolPacket.packet m).enc.length ++ (ProtocolPacket.packet m).enc)) := by
        simp only [prodSend, sendPacket, sendStream, encodeFrame]
        rw [if_neg (by rw [hl, maxFrame]; omega)]
      rw [List.foldlM_cons, this]
      show List.foldlM prodSend _ msgs = _
      rw [ih (fun x hx => hm x (List.mem_cons_of_mem _ hx))]
      simp [frames]
  rw [key msgs hm] at hout
  cases hout
  obtain ⟨b, r, e, -, -⟩ := nexts_frames (msgs.map fun m => (ProtocolPacket.packet m).enc) (by
    intro x hx
    obtain ⟨m, h1, rfl⟩ := List.mem_map.1 hx
    have := hm m h1
    rw [hl, maxFrame]; omega) [] 0 reads hr [] (by simpa using h)
  rw [List.length_map] at e
  rw [Framed.new, show msgs.length = msgs.length + 0 by rfl, e]
  simp only [Framed.nexts, List.append_nil, List.map_map]
  refine List.map_congr_left fun m h1 => ?_
  have := hm m h1
  exact (C47_recv m (by norm_num; omega)).1

example : [([7, 8] : Bytes), []].foldlM prodSend [] =
    .ok [0, 0, 0, 14, 2, 0, 0, 0, 2, 0, 0, 0, 0, 0, 0, 0, 7, 8, 0, 0, 0, 12, 2, 0, 0, 0, 0, 0, 0, 0, 0, 0, 0, 0] := by
  decide +kernel

/-- Example for C46: two messages, read in three pieces that cut both of them. -/
example : Framed.nexts 3 Framed.new [[0, 0, 0, 2, 7], [8, 0, 0], [0, 1, 9]] = [.frame [7, 8], .frame [9], .ended] := by
  have h := C46_roundtrip [[7, 8], [9]] [[0, 0, 0, 2, 7], [8, 0, 0], [0, 1, 9]] (by decide) (by decide +kernel)
  simpa using h

/-- Example for C46: a message over the limit is not sent, and the messages around it arrive. -/
example (big : Bytes) (hb : big.length = 8 * 1024 * 1024 + 1) (reads : List Bytes) (hr : ∀ c ∈ reads, c ≠ [])
    (h : reads.flatten = written [[7], big, [9]]) : Framed.nexts 3 Framed.new reads = [.frame [7], .frame [9], .ended] := by
  have h := C46_roundtrip [[7], big, [9]] reads hr h
  simpa [List.filter_cons, hb] using h

/-- Example for C46: both sides of the limit. -/
example : (∃ b : Bytes, b.length = 6 ∧ sendStream [1] [7, 8] = .ok (1 :: b)) ∧
    sendStream [1] (List.replicate (8 * 1024 * 1024 + 1) 0) = .error (.net .generic) :=
  ⟨(C46_sender [1] [7, 8]).1 (by decide), (C46_sender [1] _).2 (by rw [List.length_replicate]; norm_num)⟩

/-- Example for C46: the connection is cut in the second message. The first one arrives, and then the receiver fails. -/
example : ∃ x, Framed.nexts 2 Framed.new [[0, 0, 0, 2, 7], [8, 0, 0]] = [.frame [7, 8], x] ∧ recvStream x = .error (.net .generic) := by
  obtain ⟨k, x, hk, h1, h2, h3, h4, -⟩ := C46_cut [[7, 8], [9]] (by decide) [[0, 0, 0, 2, 7], [8, 0, 0]] (by decide)
    (by decide +kernel)
  have : k = 1 := by
    match k, hk, h1, h2 with
    | 0, _, _, h2 => exact absurd (h2 (by decide)) (by decide)
    | 1, _, _, _ => rfl
    | 2, _, h1, _ => exact absurd h1 (by decide)
  subst this
  exact ⟨x, h3, h4⟩

/-- Example for C46: a frame of 16 MiB is announced. -/
example (rest : Bytes) : recvStream (Framed.new.next [[1, 0], 0 :: 0 :: rest]).1 = .error (.net .generic) :=
  C46_oversize_header [1, 0, 0, 0] rest rfl (by decide +kernel) [[1, 0], 0 :: 0 :: rest] (by simp) (by simp)

/-- Examples for C47: a packet of two bytes, followed by a byte that is not part of it. -/
example : ProtocolPacket.dec [2, 0, 0, 0, 2, 0, 0, 0, 0, 0, 0, 0, 7, 8, 99] = some (.packet [7, 8]) :=
  C47_decode_encode (.packet [7, 8]) (by rintro _ ⟨⟩; decide) [99]

example : ∃ junk, ([2, 0, 0, 0, 2, 0, 0, 0, 0, 0, 0, 0, 7, 8, 99] : Bytes) = (ProtocolPacket.packet [7, 8]).enc ++ junk :=
  C47_decode_sound _ _ (by decide +kernel)

example : ¬ (ProtocolPacket.packet [7]).enc <+: (ProtocolPacket.packet [7, 8]).enc := fun h => by
  have := C47_injective (.packet [7]) (.packet [7, 8]) (by rintro _ ⟨⟩; decide) (by rintro _ ⟨⟩; decide) h
  simp at this

/-- Examples for C47: a packet that lacks its last byte, and a packet of kind 3. -/
example : recvPacket (.frame [2, 0, 0, 0, 2, 0, 0, 0, 0, 0, 0, 0, 7]) = .error (.net .generic) ∧
    recvPacket (.frame [3, 0, 0, 0]) = .error (.net .generic) :=
  ⟨C47_refused.1 (.packet [7, 8]) _ (by rintro _ ⟨⟩; decide) (by decide +kernel) (by decide +kernel), C47_refused.2 _ (by decide +kernel)⟩

example : prodRecv (.frame [2, 0, 0, 0, 2, 0, 0, 0, 0, 0, 0, 0, 7, 8]) = .ok [7, 8] := (C47_recv [7, 8] (by decide)).1

/-- Example for C47: a payload that fits a frame but not with the header of the packet. -/
example (m : Bytes) (hm : m.length = 8 * 1024 * 1024 - 11) :
    prodSend [] m = .error (.net .generic) ∧ ∃ b : Bytes, b.length = 4 + m.length ∧ sendStream [] m = .ok b :=
  ⟨(C47_limit [] m).2 (by omega), (C46_sender [] m).1 (by omega)⟩

/-- Example for C47: two payloads, one of them empty, read in three pieces. -/
example : (Framed.nexts 2 Framed.new [[0, 0, 0, 14, 2, 0], [0, 0, 2, 0, 0, 0, 0, 0, 0, 0, 7], [8, 0, 0, 0, 12, 2, 0, 0, 0, 0, 0, 0, 0,
    0, 0, 0, 0]]).map prodRecv = [.ok [7, 8], .ok []] :=
  C47_stream [[7, 8], []] (by decide)
    [0, 0, 0, 14, 2, 0, 0, 0, 2, 0, 0, 0, 0, 0, 0, 0, 7, 8, 0, 0, 0, 12, 2, 0, 0, 0, 0, 0, 0, 0, 0, 0, 0, 0] (by decide +kernel)
    [[0, 0, 0, 14, 2, 0], [0, 0, 2, 0, 0, 0, 0, 0, 0, 0, 7], [8, 0, 0, 0, 12, 2, 0, 0, 0, 0, 0, 0, 0, 0, 0, 0, 0]] (by decide)
    (by decide +kernel)

end ZkSaas.Properties
