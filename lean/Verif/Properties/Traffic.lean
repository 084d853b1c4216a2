import Verif.Lemmas.Trace
import Verif.Properties.Fresh
import Mathlib.Algebra.BigOperators.Ring.Finset

/-!
# C72: how many rounds and messages a proof takes, and that nobody finishes without the king
-/

namespace ZkSaas.Properties

open ZkSaas ZkSaas.Spec Finset

/-- Every execution has a history, and the histories are those of executions. -/
theorem C72_trace {n : Nat} {α : Type} (c c' : Net n α) (k : Nat) : GSteps Any k c c' ↔ ∃ tr, tr.length = k ∧ Trace tr c c' := by
  constructor
  · intro h
    induction h with
    | refl c => exact ⟨[], rfl, .refl c⟩
    | step h _ ih =>
      obtain ⟨tr, hl, ht⟩ := ih
      cases h with
      | mk procs Q Q' i a p' ha hstep hq => exact ⟨(i.val, a) :: tr, by simp [hl], .step hstep hq ht⟩
  · rintro ⟨tr, rfl, ht⟩
    induction ht with
    | refl c => exact .refl c
    | step hstep hq _ ih => exact .step (.mk _ _ _ _ _ _ trivial hstep hq) ih

section protocols
variable {F : Type} [Field F] [DecidableEq F] (pp : PSS F) (dbg : Bool) (n i : Nat)

/-- **C72.** One round of `d_fft` on its stream, whatever the input. -/
theorem C72_d_fft [FixedWire F] (sh : List F) (mask : FftMask F) (rearrange : Bool) (dom : Domain F) (sid : Sid) (rng : Nat → Nat → F) :
    TakesRounds n i (pp.dFft dbg n i sh mask rearrange dom sid rng) fun x => if x = sid then 1 else 0 :=
  (pp.dFft_rounds dbg n i sh mask rearrange dom sid rng).takes

/-- **C72.** One round of `d_ifft`. -/
theorem C72_d_ifft [FixedWire F] (sh : List F) (mask : FftMask F) (rearrange : Bool) (dom : Domain F) (g : F) (sid : Sid)
    (rng : Nat → Nat → F) : TakesRounds n i (pp.dIfft dbg n i sh mask rearrange dom g sid rng) fun x => if x = sid then 1 else 0 :=
  (pp.dIfft_rounds dbg n i sh mask rearrange dom g sid rng).takes

/-- **C72.** One round of `deg_red`. -/
theorem C72_deg_red {T : Type} [AddCommGroup T] [Module F T] [DecidableEq T] [FixedWire T] (sh : List T) (mask : DegRedMask T) (sid : Sid)
    (rng : Nat → Nat → T) : TakesRounds n i (pp.degRed dbg n i sh mask sid rng) fun x => if x = sid then 1 else 0 :=
  (pp.degRed_rounds dbg n i sh mask sid rng).takes

/-- **C72.** One round of `d_msm`. -/
theorem C72_d_msm {G : Type} [AddCommGroup G] [Module F G] [DecidableEq G] [FixedWire G] (bases : List G) (scalars : List F)
    (mask : MsmMask G) (sid : Sid) : TakesRounds n i (pp.dMsm dbg n i bases scalars mask sid) fun x => if x = sid then 1 else 0 :=
  (pp.dMsm_rounds dbg n i bases scalars mask sid).takes

/-- **C72.** Two rounds of `d_pp`. -/
theorem C72_d_pp [FixedWire F] (num den : List F) (mask : DegRedMask F) (sid : Sid) (rng rng' : Nat → Nat → F) :
    TakesRounds n i (pp.dPp dbg n i num den mask sid rng rng') fun x => if x = sid then 2 else 0 := by
  have h := (pp.dPp_rounds dbg n i num den mask sid rng rng').takes
  have e : once sid + once sid = fun x => if x = sid then 2 else 0 := by
    funext x; simp only [Pi.add_apply, once]; split_ifs <;> rfl
  rwa [e] at h

theorem rounds322_eq : rounds322 = fun x => match x with | .zero => 3 | .one => 2 | .two => 2 := by funext x; cases x <;> decide

/-- **C72.** Seven rounds of `circom_h` on three streams. -/
theorem C72_circom_h [FftField F] [FixedWire F] (q : PackedQAPShare F) (mask : Nat → FftMask F) (dmask : DegRedMask F)
    (rng : Nat → Nat → Nat → F) :
    TakesRounds n i (pp.circomH dbg n i q mask dmask rng) fun x => match x with | .zero => 3 | .one => 2 | .two => 2 :=
  rounds322_eq ▸ (pp.circomH_rounds dbg n i q mask dmask rng).takes

/-- **C72.** Seven rounds of `libsnark_h` on three streams. -/
theorem C72_libsnark_h [FftField F] [FixedWire F] (q : PackedQAPShare F) (mask : Nat → FftMask F) (rng : Nat → Nat → Nat → F) :
    TakesRounds n i (pp.libsnarkH dbg n i q mask rng) fun x => match x with | .zero => 3 | .one => 2 | .two => 2 :=
  rounds322_eq ▸ (pp.libsnarkH_rounds dbg n i q mask rng).takes

variable {G1 G2 : Type} [AddCommGroup G1] [Module F G1] [DecidableEq G1] [FixedWire G1]
  [AddCommGroup G2] [Module F G2] [DecidableEq G2] [FixedWire G2]

/-- **C72.** One round of `A::compute`. -/
theorem C72_A (L N AG1 : G1) (S : List G1) (a : List F) (r : F) (mask : MsmMask G1) (sid : Sid) :
    TakesRounds n i (pp.proveA dbg n i L N AG1 S a r mask sid) fun x => if x = sid then 1 else 0 :=
  (pp.proveA_rounds dbg n i L N AG1 S a r mask sid).takes

/-- **C72.** One round of `BInG1::compute`; none for a party whose share of `r` is zero. -/
theorem C72_B_in_G1 (Z K BG1 : G1) (H : List G1) (a : List F) (s r : F) (mask : MsmMask G1) (sid : Sid) :
    TakesRounds n i (pp.proveBInG1 dbg n i Z K BG1 H a s r mask sid) fun x => if r ≠ 0 ∧ x = sid then 1 else 0 := by
  have h := (pp.proveBInG1_rounds dbg n i Z K BG1 H a s r mask sid).takes
  have e : (if r = 0 then 0 else once sid) = fun x => if r ≠ 0 ∧ x = sid then 1 else 0 := by
    funext x; by_cases hr : r = 0 <;> simp [hr, once]
  rwa [e] at h

/-- **C72.** One round of `BInG2::compute`. -/
theorem C72_B_in_G2 (Z K BG2 : G2) (V : List G2) (a : List F) (s : F) (mask : MsmMask G2) (sid : Sid) :
    TakesRounds n i (pp.proveBInG2 dbg n i Z K BG2 V a s mask sid) fun x => if x = sid then 1 else 0 :=
  (pp.proveBInG2_rounds dbg n i Z K BG2 V a s mask sid).takes

/-- **C72.** Two rounds of `C::compute`, on two streams. -/
theorem C72_C (A B : G1) (s r : F) (M : G1) (W U : List G1) (ax h : List F) (m0 m1 : MsmMask G1) :
    TakesRounds n i (pp.proveC dbg n i A B s r M W U ax h m0 m1) fun x => match x with | .zero => 1 | .one => 1 | .two => 0 := by
  have h := (pp.proveC_rounds dbg n i A B s r M W U ax h m0 m1).takes
  have e : once .zero + once .one = fun x => match x with | .zero => 1 | .one => 1 | .two => 0 := by
    funext x; cases x <;> simp [once]
  rwa [e] at h

/-- **C72.** Twelve rounds of a proving session, whatever the circuit and the number of servers; eleven for a party whose share of
`r` is zero. -/
theorem C72_session [FftField F] [FixedWire F] (x : ServerInput F G1 G2) (rng : Nat → Nat → Nat → F) :
    TakesRounds n i (x.run pp dbg n i rng) fun y => match y with | .zero => if x.r = 0 then 6 else 7 | .one => 3 | .two => 2 := by
  have h := (pp.dsha256_rounds dbg n i x.crs x.q x.a x.ax x.r x.s (fun k => x.fftMask.getD k (FftMask.zero 0)) x.degredMask
    (fun k => x.g1Mask.getD k MsmMask.zero) x.g2Mask rng).takes
  have e : rounds322 + (once .zero + ((if x.r = 0 then 0 else once .zero) + (once .zero + (once .zero + once .one + 0)))) =
      fun y => match y with | .zero => if x.r = 0 then 6 else 7 | .one => 3 | .two => 2 := by
    funext y
    rw [rounds322_eq]
    by_cases hr : x.r = 0 <;> cases y <;> simp [hr, once]
  rwa [e] at h

end protocols

/-- **C72.** A client does not finish before the king has sent it a message for every round, whatever programs the king and the other
parties run and whatever the network does. -/
theorem C72_needs_king {n : Nat} {α : Type} {i : Nat} {p : Proc α} {R : Sid → Nat} (h : TakesRounds n i p R) (hi : i < n) (h0 : i ≠ 0)
    {procs : Fin n → Proc α} (hp : procs ⟨i, hi⟩ = p) {tr : List (Nat × Act)} {c : Net n α} (ht : Trace tr (Net.init procs) c) {v : α}
    (hv : c.procs ⟨i, hi⟩ = .done (.ok v)) (sid : Sid) : R sid ≤ sent tr 0 i sid := by
  have h1 := ((h procs hi hp tr c ht).2 v hv sid).2 h0
  have h2 := trace_fifo ht 0 i sid
  have h3 : (Net.init procs).queues (0, i, sid) = [] := rfl
  rw [h3, List.length_nil, h1.2] at h2
  omega

/-- **C72.** With a king that runs a program of at most `R'` rounds, a client whose program takes more rounds never finishes,
whatever the network does. (A king that is down takes no rounds.) -/
theorem C72_king_stops {n : Nat} {α : Type} {i : Nat} {p q : Proc α} {R R' : Sid → Nat} (h : TakesRounds n i p R) (hq : TakesRounds n 0 q R')
    (hi : i < n) (h0 : i ≠ 0) {sid : Sid} (hlt : R' sid < R sid) {procs : Fin n → Proc α} (hp : procs ⟨i, hi⟩ = p)
    (hp0 : procs ⟨0, by omega⟩ = q) {k : Nat} {c : Net n α} (ht : GSteps Any k (Net.init procs) c) (v : α) :
    c.procs ⟨i, hi⟩ ≠ .done (.ok v) := by
  intro hv
  obtain ⟨tr, -, ht⟩ := (C72_trace _ _ _).1 ht
  have h1 := C72_needs_king h hi h0 hp ht hv sid
  have h2 := ((hq procs (by omega) hp0 tr c ht).1 i sid).1
  rw [if_pos (Or.inl ⟨rfl, by omega, hi⟩)] at h2
  omega

/-- **C72.** A program that has failed takes no rounds. -/
theorem C72_down {α : Type} (n i : Nat) (e : Fault) : TakesRounds n i (.done (.error e) : Proc α) fun _ => 0 :=
  (Proc.Rounds.error n i e 0).takes

/-- **C72.** In a proving session in which the king's share of `r` is zero and a client's is not, that client never finishes. -/
theorem C72_zero_share {F : Type} [Field F] [DecidableEq F] (pp : PSS F) (dbg : Bool) {G1 G2 : Type} [AddCommGroup G1] [Module F G1]
    [DecidableEq G1] [FixedWire G1] [AddCommGroup G2] [Module F G2] [DecidableEq G2] [FixedWire G2] [FftField F] [FixedWire F] {n : Nat}
    (ins : Nat → ServerInput F G1 G2) (rng : Nat → Nat → Nat → F) (h0 : (ins 0).r = 0) (i : Fin n) (hi : (ins i).r ≠ 0) {k : Nat}
    {c : Net n (G1 × G2 × G1)} (ht : GSteps Any k (Net.init fun i : Fin n => (ins i).run pp dbg n i rng) c) (v : G1 × G2 × G1) :
    c.procs i ≠ .done (.ok v) := by
  have hi0 : i.val ≠ 0 := fun h => hi (h ▸ h0)
  exact C72_king_stops (C72_session pp dbg n i (ins i) rng) (C72_session pp dbg n 0 (ins 0) rng) i.isLt hi0 (sid := .zero)
    (by simp [h0, hi]) rfl rfl ht v

theorem trace_lt {n : Nat} {α : Type} {tr : List (Nat × Act)} {c c' : Net n α} (h : Trace tr c c') : ∀ e ∈ tr, e.1 < n := by
  induction h with
  | refl => simp
  | @step _ _ _ i _ _ _ _ _ _ _ ih =>
    intro e he
    rcases List.mem_cons.1 he with rfl | he
    · exact i.isLt
    · exact ih e he

theorem messages_eq (n : Nat) (tr : List (Nat × Act)) (h1 : ∀ e ∈ tr, e.1 < n)
    (h2 : ∀ i d x b, (i, Act.send d x b) ∈ tr → d < n) :
    messages tr = ∑ i ∈ range n, ∑ j ∈ range n, (sent tr i j .zero + sent tr i j .one + sent tr i j .two) := by
  induction tr with
  | nil => simp [messages, sent]
  | cons e tr ih =>
    obtain ⟨i, a⟩ := e
    have hi : i < n := h1 (i, a) (by simp)
    have ih := ih (fun e he => h1 e (by simp [he])) fun i d x b he => h2 i d x b (by simp [he])
    have hs : ∀ m j, sent ((i, a) :: tr) m j .zero + sent ((i, a) :: tr) m j .one + sent ((i, a) :: tr) m j .two =
        (sent tr m j .zero + sent tr m j .one + sent tr m j .two) +
          if m = i then a.sends j .zero + a.sends j .one + a.sends j .two else 0 := by
      intro m j
      rw [sent_cons, sent_cons, sent_cons]
      by_cases h : i = m
      · subst h; simp only [if_true]; ring
      · simp only [if_neg h, if_neg (Ne.symm h)]; ring
    simp only [hs, Finset.sum_add_distrib] at ih ⊢
    have e1 : ∑ m ∈ range n, ∑ j ∈ range n, (if m = i then a.sends j .zero + a.sends j .one + a.sends j .two else 0) =
        ∑ j ∈ range n, (a.sends j .zero + a.sends j .one + a.sends j .two) := by
      rw [Finset.sum_eq_single_of_mem i (by simpa using hi)]
      · simp
      · intro m _ hm; simp [hm]
    rw [e1, ← ih]
    have e2 : messages ((i, a) :: tr) = messages tr + ∑ j ∈ range n, (a.sends j .zero + a.sends j .one + a.sends j .two) := by
      cases a with
      | send d x b =>
        have hd : d < n := h2 i d x b (by simp)
        have : ∑ j ∈ range n, (Act.sends (.send d x b) j .zero + Act.sends (.send d x b) j .one + Act.sends (.send d x b) j .two) = 1 := by
          rw [Finset.sum_eq_single_of_mem d (by simpa using hd)]
          · cases x <;> simp [Act.sends_send, Tally.one]
          · intro j _ hj; simp [Act.sends_send, Tally.one, hj]
        rw [this]
        simp [messages]
      | recv d x b => simp [messages, Act.sends, isSend]
      | tau => simp [messages, Act.sends, isSend]
      | abort => simp [messages, Act.sends, isSend]
      | fault => simp [messages, Act.sends, isSend]
    rw [e2]

/-- **C72.** When all the parties have finished, `R` rounds have cost two messages per round and client, and no others were sent. -/
theorem C72_total {n : Nat} {α : Type} (hn : 0 < n) {procs : Fin n → Proc α} {R : Sid → Nat}
    (h : ∀ i : Fin n, TakesRounds n i (procs i) R) {tr : List (Nat × Act)} {c : Net n α} (ht : Trace tr (Net.init procs) c)
    (hd : ∀ i, ∃ v, c.procs i = .done (.ok v)) : messages tr = 2 * (n - 1) * (R .zero + R .one + R .two) := by
  have key : ∀ i j, i < n → j < n → ∀ x, sent tr i j x = if (i = 0 ∧ 1 ≤ j) ∨ (i ≠ 0 ∧ j = 0) then R x else 0 := by
    intro i j hi hj x
    obtain ⟨v, hv⟩ := hd ⟨i, hi⟩
    obtain ⟨h1, h2⟩ := h ⟨i, hi⟩ procs hi rfl tr c ht
    split_ifs with hij
    · rcases hij with ⟨rfl, hj1⟩ | ⟨hi0, rfl⟩
      · exact (h2 v hv x).1 rfl j hj1 hj
      · exact ((h2 v hv x).2 hi0).1
    · have := (h1 j x).1
      rw [if_neg (by simp only; omega)] at this
      exact Nat.le_zero.1 this
  have hout : ∀ i d x b, (i, Act.send d x b) ∈ tr → d < n := by
    intro i d x b he
    have hi := trace_lt ht _ he
    obtain ⟨h1, -⟩ := h ⟨i, hi⟩ procs hi rfl tr c ht
    have h2 := (h1 d x).1
    have h3 : 0 < sent tr i d x := by
      unfold sent
      rw [List.countP_pos_iff]
      exact ⟨_, he, by simp [isSend]⟩
    by_contra hd
    rw [if_neg (by simp only; omega)] at h2
    simp only at h2
    omega
  rw [messages_eq n tr (trace_lt ht) hout]
  have e1 : ∀ i ∈ range n, ∑ j ∈ range n, (sent tr i j .zero + sent tr i j .one + sent tr i j .two) =
      (if i = 0 then n - 1 else 1) * (R .zero + R .one + R .two) := by
    intro i hi
    rw [Finset.mem_range] at hi
    have : ∀ j ∈ range n, sent tr i j .zero + sent tr i j .one + sent tr i j .two =
        if (i = 0 ∧ 1 ≤ j) ∨ (i ≠ 0 ∧ j = 0) then R .zero + R .one + R .two else 0 := by
      intro j hj
      rw [Finset.mem_range] at hj
      rw [key i j hi hj, key i j hi hj, key i j hi hj]
      split_ifs <;> rfl
    rw [Finset.sum_congr rfl this, ← Finset.sum_filter, Finset.sum_const, smul_eq_mul]
    congr 1
    split_ifs with h0
    · have : (range n).filter (fun j => (i = 0 ∧ 1 ≤ j) ∨ (i ≠ 0 ∧ j = 0)) = Finset.Ico 1 n := by
        ext j; simp only [Finset.mem_filter, Finset.mem_range, Finset.mem_Ico]; omega
      rw [this, Nat.card_Ico]
    · have : (range n).filter (fun j => (i = 0 ∧ 1 ≤ j) ∨ (i ≠ 0 ∧ j = 0)) = {0} := by
        ext j; simp only [Finset.mem_filter, Finset.mem_range, Finset.mem_singleton]; omega
      rw [this, Finset.card_singleton]
  rw [Finset.sum_congr rfl e1, ← Finset.sum_mul]
  congr 1
  obtain ⟨m, rfl⟩ : ∃ m, n = m + 1 := ⟨n - 1, by omega⟩
  rw [Finset.sum_range_succ']
  simp
  ring

/-- **C72.** A completed proving session between `n` servers costs `24 (n - 1)` messages, whatever the circuit. -/
theorem C72_session_total {F : Type} [Field F] [DecidableEq F] (pp : PSS F) (dbg : Bool) {G1 G2 : Type} [AddCommGroup G1] [Module F G1]
    [DecidableEq G1] [FixedWire G1] [AddCommGroup G2] [Module F G2] [DecidableEq G2] [FixedWire G2] [FftField F] [FixedWire F] {n : Nat}
    (hn : 0 < n) (ins : Nat → ServerInput F G1 G2) (rng : Nat → Nat → Nat → F) (hr : ∀ i < n, (ins i).r ≠ 0) {tr : List (Nat × Act)}
    {c : Net n (G1 × G2 × G1)} (ht : Trace tr (Net.init fun i : Fin n => (ins i).run pp dbg n i rng) c)
    (hd : ∀ i, ∃ v, c.procs i = .done (.ok v)) : messages tr = 24 * (n - 1) := by
  have := C72_total (R := fun y => match y with | .zero => 7 | .one => 3 | .two => 2) hn (fun i => by
    have h := C72_session pp dbg n i (ins i) rng
    simpa only [if_neg (hr i i.isLt)] using h) ht hd
  rw [this]
  ring

/-! ## Examples -/

/-- Examples for C72: the rounds of the protocols between eight servers, on arbitrary shares. -/
example (dbg : Bool) (sh : List (ZMod 17)) (rng : Nat → Nat → ZMod 17) :
    TakesRounds 8 3 (pp17.dFft dbg 8 3 sh (FftMask.zero 2) true dom17 .one rng) (fun x => if x = .one then 1 else 0) ∧
    TakesRounds 8 0 (pp17.dIfft dbg 8 0 sh (FftMask.zero 2) true dom17 3 .one rng) (fun x => if x = .one then 1 else 0) ∧
    TakesRounds 8 0 (pp17.degRed dbg 8 0 sh (DegRedMask.zero 2) .two rng) (fun x => if x = .two then 1 else 0) ∧
    TakesRounds 8 7 (pp17.dMsm dbg 8 7 sh sh MsmMask.zero .zero) (fun x => if x = .zero then 1 else 0) ∧
    TakesRounds 8 7 (pp17.dPp dbg 8 7 sh sh (DegRedMask.zero 2) .zero rng rng) (fun x => if x = .zero then 2 else 0) :=
  ⟨C72_d_fft _ _ _ _ _ _ _ _ _ _, C72_d_ifft _ _ _ _ _ _ _ _ _ _ _, C72_deg_red _ _ _ _ _ _ _ _, C72_d_msm _ _ _ _ _ _ _ _,
    C72_d_pp _ _ _ _ _ _ _ _ _ _⟩

example (dbg : Bool) (sh : List (ZMod 17)) (q : PackedQAPShare (ZMod 17)) (rng : Nat → Nat → Nat → ZMod 17) :
    TakesRounds 8 3 (pp17.circomH dbg 8 3 q (fun _ => FftMask.zero 2) (DegRedMask.zero 2) rng)
      (fun x => match x with | .zero => 3 | .one => 2 | .two => 2) ∧
    TakesRounds 8 0 (pp17.libsnarkH dbg 8 0 q (fun _ => FftMask.zero 2) rng) (fun x => match x with | .zero => 3 | .one => 2 | .two => 2) ∧
    TakesRounds 8 5 (pp17.proveA dbg 8 5 (1 : ZMod 17) 2 3 sh sh 4 MsmMask.zero .one) (fun x => if x = .one then 1 else 0) ∧
    TakesRounds 8 5 (pp17.proveBInG1 dbg 8 5 (1 : ZMod 17) 2 3 sh sh 4 5 MsmMask.zero .one) (fun x => if (5 : ZMod 17) ≠ 0 ∧ x = .one then 1 else 0) ∧
    TakesRounds 8 5 (pp17.proveBInG2 dbg 8 5 (1 : ZMod 17) 2 3 sh sh 4 MsmMask.zero .one) (fun x => if x = .one then 1 else 0) ∧
    TakesRounds 8 5 (pp17.proveC dbg 8 5 (1 : ZMod 17) 2 3 4 5 sh sh sh sh MsmMask.zero MsmMask.zero)
      (fun x => match x with | .zero => 1 | .one => 1 | .two => 0) :=
  ⟨C72_circom_h _ _ _ _ _ _ _ _, C72_libsnark_h _ _ _ _ _ _ _, C72_A _ _ _ _ _ _ _ _ _ _ _ _, C72_B_in_G1 _ _ _ _ _ _ _ _ _ _ _ _ _,
    C72_B_in_G2 _ _ _ _ _ _ _ _ _ _ _ _, C72_C _ _ _ _ _ _ _ _ _ _ _ _ _ _ _⟩

/-- Example for C72: client 3 waits for ever in `d_fft` if the king is down, whatever the six others do. -/
example (dbg : Bool) (sh : List (ZMod 17)) (rng : Nat → Nat → ZMod 17) (procs : Fin 8 → Proc (List (ZMod 17)))
    (h0 : procs 0 = .done (.error .panic)) (h3 : procs 3 = pp17.dFft dbg 8 3 sh (FftMask.zero 2) true dom17 .one rng) (k : Nat)
    (c : Net 8 (List (ZMod 17))) (h : GSteps Any k (Net.init procs) c) (v : List (ZMod 17)) : c.procs 3 ≠ .done (.ok v) :=
  C72_king_stops (C72_d_fft pp17 dbg 8 3 sh (FftMask.zero 2) true dom17 .one rng) (C72_down 8 0 .panic) (by omega) (by omega)
    (sid := .one) (by simp) h3 h0 h v

/-- Example for C72: a session on the circuit `x·x = y` between eight servers has a complete execution, of 168 messages. Before
client 3 finishes the king has sent it seven messages on stream zero. -/
example (tape : ClientTape (ZMod 17) (ZMod 17) (ZMod 17)) (ht : tape.r = fun _ => 1) : ∃ (pk : ProvingKey (ZMod 17) (ZMod 17))
    (ins : Nat → ServerInput (ZMod 17) (ZMod 17) (ZMod 17)) (tr : List (Nat × Act)) (c : Net (4 * 2 ^ 1) (ZMod 17 × ZMod 17 × ZMod 17)),
    pp17.deal false 2 mats17 z17 pk 1 1 5 6 tape = .ok ((List.range 8).map ins) ∧
    Trace tr (Net.init fun i : Fin (4 * 2 ^ 1) => (ins i).run pp17 false (4 * 2 ^ 1) i fun _ i j => i + j) c ∧
    (∀ i, ∃ v, c.procs i = .done (.ok v)) ∧ messages tr = 168 ∧ 7 ≤ sent tr 0 3 .zero := by
  obtain ⟨pa, pb, pc, pk, h1, h2⟩ := C35_key_exists circuit17 (⟨2, 3, 4, 5, 6⟩ : Toxic (ZMod 17)) (1 : ZMod 17) (1 : ZMod 17)
  have hrs : ∀ rs, pp17.pack false (List.replicate (2 ^ 1) (5 : ZMod 17)) tape.r = .ok rs → ∀ x ∈ rs, x ≠ 0 := by
    rw [ht]
    have : ∀ x ∈ (match pp17.pack false (List.replicate (2 ^ 1) (5 : ZMod 17)) (fun _ => 1) with | .ok rs => rs | .error _ => []), x ≠ 0 := by
      decide +kernel
    intro rs h
    rwa [h] at this
  obtain ⟨ins, outs, pA, pB, pC, h3, h4, h5, h6⟩ := C35_proof_verifies (GT := ZMod 17) (pp17_eq true) false 1 (by norm_num) circuit17 mats17_sat
    h1 h2 (by decide) (by decide) (by simp) 1 1 5 6 tape (fun rs h => Or.inl (hrs rs h)) fun _ i j => i + j
  obtain ⟨k, c, hk, hc⟩ := exists_final h4.1
  have hfin := h4.2 k c hk hc
  obtain ⟨tr, -, htr⟩ := (C72_trace _ _ _).1 (hk.mono fun _ _ => trivial)
  have hr : ∀ i < 4 * 2 ^ 1, (ins i).r ≠ 0 := by
    intro i hi
    obtain ⟨_, -, -, hx, -⟩ := deal_parts (p := i) (x := ins i) (by rw [h3]; exact partOf_range ins hi)
    unfold partOf at hx
    cases hp : pp17.pack false (List.replicate (2 ^ 1) (5 : ZMod 17)) tape.r with
    | error e => rw [hp] at hx; simp at hx
    | ok rs => rw [hp] at hx; exact hrs rs hp _ (List.mem_of_getElem? hx)
  refine ⟨pk, ins, tr, c, h3, htr, fun i => ⟨_, hfin i⟩, C72_session_total pp17 false (by decide) ins _ hr htr fun i => ⟨_, hfin i⟩, ?_⟩
  have := C72_needs_king (C72_session pp17 false (4 * 2 ^ 1) 3 (ins 3) _) (by decide) (by decide) rfl htr (hfin ⟨3, by decide⟩) .zero
  simpa only [if_neg (hr 3 (by decide))] using this

/-- Example for C72: honest shares of `r = 5` of which the king's is zero and client 1's is nine; client 1 never finishes. -/
example (tape : ClientTape (ZMod 17) (ZMod 17) (ZMod 17)) (ht : tape.r = fun j => if j = 0 then 7 else 1) :
    ∃ (pk : ProvingKey (ZMod 17) (ZMod 17)) (ins : Nat → ServerInput (ZMod 17) (ZMod 17) (ZMod 17)),
    pp17.deal false 2 mats17 z17 pk 1 1 5 6 tape = .ok ((List.range 8).map ins) ∧
    ∀ k c, GSteps Any k (Net.init fun i : Fin 8 => (ins i).run pp17 false 8 i fun _ i j => i + j) c → ∀ v, c.procs 1 ≠ .done (.ok v) := by
  obtain ⟨pa, pb, pc, pk, h1, h2⟩ := C35_key_exists circuit17 (⟨2, 3, 4, 5, 6⟩ : Toxic (ZMod 17)) (1 : ZMod 17) (1 : ZMod 17)
  obtain ⟨ins, h3⟩ := deal_succeeds (pp17_eq true) false 1 circuit17 h2 (by simp) 1 1 5 6 tape
  have hp : pp17.pack false (List.replicate (2 ^ 1) (5 : ZMod 17)) tape.r = .ok [0, 9, 16, 7, 15, 10, 4, 9] := by rw [ht]; decide +kernel
  have hr : ∀ i < 8, some (ins i).r = ([0, 9, 16, 7, 15, 10, 4, 9] : List (ZMod 17))[i]? := by
    intro i hi
    obtain ⟨_, -, -, hx, -⟩ := deal_parts (p := i) (x := ins i) (by rw [h3]; exact partOf_range ins hi)
    rw [hp] at hx
    exact hx.symm
  have h0 : (ins 0).r = 0 := by simpa using hr 0 (by decide)
  have h9 : (ins (1 : Fin 8)).r ≠ 0 := by
    have : (ins 1).r = 9 := by simpa using hr 1 (by decide)
    rw [show ((1 : Fin 8) : Nat) = 1 from rfl, this]
    decide
  exact ⟨pk, ins, h3, fun k c h v => C72_zero_share pp17 false ins _ h0 1 h9 h v⟩

end ZkSaas.Properties
