import Verif.Model.ProdTests
import Verif.Properties.Routing

/-!
# C94: the tests of the production network
-/

namespace ZkSaas.Properties

open Finset Spec

theorem prodSum_star (dbg : Bool) (n nPeers me : Nat) : Star n me (prodSumParty dbg n nPeers me) := by
  refine Star.bind (sendReceive_star _ _ _ _ _) fun r => ?_
  cases r with
  | none => exact Star.bind (.done _) fun _ => Star.bind (clientReceiveOrKingSend_star _ _ _ _) fun _ => .done _
  | some rs =>
    exact Star.bind (.done _) fun _ => Star.bind (.done _) fun _ => Star.bind (clientReceiveOrKingSend_star _ _ _ _) fun _ => .done _

theorem prodSum_wf (dbg : Bool) {n : Nat} (hn : 0 < n) (nPeers me : Nat) : (prodSumParty dbg n nPeers me).WF (only .zero) := by
  refine Proc.WF.bind (sendReceive_wf hn _ _ _ _) fun r => ?_
  cases r with
  | none => exact Proc.WF.bind (.done _ _) fun _ => Proc.WF.bind (clientReceiveOrKingSend_wf _ _ _) fun _ => .done _ _
  | some rs =>
    exact Proc.WF.bind (.done _ _) fun _ => Proc.WF.bind (.done _ _) fun _ => Proc.WF.bind (clientReceiveOrKingSend_wf _ _ _) fun _ => .done _ _

theorem sumU32_ids (dbg : Bool) {n : Nat} (hn : n ≤ 2 ^ 32) (h : dbg = true → ∑ i ∈ range n, i < 2 ^ 32) :
    sumU32 dbg ((List.range n).map (Fin.ofNat (2 ^ 32))) = .ok (Fin.ofNat _ (∑ i ∈ range n, i)) := by
  unfold sumU32
  rw [foldU32 dbg _ 0 (by rw [sum_ids hn]; simpa using h), sum_ids hn]
  simp

/-- All parties end with the sum of the ids. -/
theorem prodSum_yields (dbg : Bool) (c : Nat) (hc : c < 2 ^ 32) (h : dbg = true → ∑ i ∈ range (c + 1), i < 2 ^ 32) :
    AlwaysYields (Net.init fun i : Fin (c + 1) => prodSumParty dbg (c + 1) c i) (fun _ => Fin.ofNat _ (∑ i ∈ range (c + 1), i)) := by
  have hn : 0 < c + 1 := c.succ_pos
  have hsum := sumU32_ids dbg (n := c + 1) (by omega) h
  set S : Fin (2 ^ 32) := Fin.ofNat _ (∑ i ∈ range (c + 1), i)
  have hd : unwrap (Wire.dec (T := Fin (2 ^ 32)) (Wire.enc S)) = .ok S := by
    rw [Wire.ok_fixed S]; rfl
  let tail : Fin (c + 1) → Option (ReceivedShares (Fin (2 ^ 32))) → Proc (Fin (2 ^ 32)) := fun i received =>
    match received with
    | some rs => do
      assert (Fin.ofNat (2 ^ 32) i.val == 0)
      let sum ← sumU32 dbg rs.shares
      let _ ← clientReceiveOrKingSend (c + 1) i (some (List.replicate (c + 1) (Wire.enc sum))) .zero
      pure sum
    | none => do
      assert (Fin.ofNat (2 ^ 32) i.val != 0)
      let bytes ← clientReceiveOrKingSend (c + 1) i none .zero
      unwrap (Wire.dec (T := Fin (2 ^ 32)) bytes)
  refine Runs.alwaysYields (S := only .zero) (P := fun _ => True) ?_ fun i => prodSum_wf dbg hn c i
  refine Runs.bind (S := only .zero) (ps := fun i : Fin (c + 1) => clientSendOrKingReceiveSer (c + 1) i (Fin.ofNat (2 ^ 32) i.val) .zero 0)
    (f := tail)
    (rs := fun i => if i.val = 0 then some (ReceivedShares.mk ((List.range (c + 1)).map fun i => Fin.ofNat (2 ^ 32) i) (List.range (c + 1)))
      else none)
    (fun Q hQ => reach_sendReceive (P := fun _ => True) hn .zero 0 (fun i => Fin.ofNat (2 ^ 32) i) (fun i _ => Wire.ok_fixed _) Q
      (fun i => hQ i 0 .zero rfl) (by intros; trivial)) ?_
  intro Q hQ
  have h := reach_scatter (P := fun _ => True) hn .zero (fun _ => Wire.enc S) 4 (fun i hi => FixedWire.enc_length _)
    (fun _ => Proc.done (.ok S)) (fun _ bytes => .done (unwrap (Wire.dec (T := Fin (2 ^ 32)) bytes))) Q (fun i => hQ 0 i .zero rfl)
    (by intros; trivial)
  simp only [hd, ite_self] at h
  have e1 : (fun i : Fin (c + 1) => tail i (if i.val = 0 then
        some ⟨(List.range (c + 1)).map fun i => Fin.ofNat (2 ^ 32) i, List.range (c + 1)⟩ else none)) =
      fun i => if i.val = 0 then (kingSendLoop ((List.range (c + 1)).map fun _ => Wire.enc S) 4 .zero
        ((List.range (c + 1)).filter (· ≠ 0))).bind fun _ => Proc.done (.ok S)
      else .recv 0 .zero fun bytes => .done (unwrap (Wire.dec (T := Fin (2 ^ 32)) bytes)) := by
    funext i
    by_cases hi : i.val = 0
    · have ha : assert (Fin.ofNat (2 ^ 32) i.val == 0) = .ok () := by rw [hi]; rfl
      have hr : rd (List.replicate (c + 1) (Wire.enc S)) 0 = .ok (Wire.enc S) := by
        unfold rd
        rw [List.getElem?_replicate, if_pos hn]
      have hl : (Wire.enc S).length = 4 := FixedWire.enc_length _
      rw [if_pos hi, if_pos hi]
      show Proc.bind (.done (assert _)) (fun _ => Proc.bind (.done (sumU32 dbg _)) fun sum =>
        Proc.bind (clientReceiveOrKingSend (c + 1) i (some (List.replicate (c + 1) (Wire.enc sum))) .zero) fun _ => .done (.ok sum)) = _
      rw [ha, hsum]
      show Proc.bind (clientReceiveOrKingSend (c + 1) i (some (List.replicate (c + 1) (Wire.enc S))) .zero) (fun _ => .done (.ok S)) = _
      unfold clientReceiveOrKingSend
      simp only [hi, ne_eq, not_true_eq_false, if_false]
      rw [hr]
      show Proc.bind (Proc.bind (kingSendLoop _ (Wire.enc S).length _ _) _) _ = _
      rw [Proc.bind_assoc, hl]
      have : List.replicate (c + 1) (Wire.enc S) = (List.range (c + 1)).map fun _ => Wire.enc S := by simp
      rw [this]
      rfl
    · have ha : assert (Fin.ofNat (2 ^ 32) i.val != 0) = .ok () := by
        rw [assert_of]
        rw [bne_iff_ne]
        intro hc'
        have := congrArg Fin.val hc'
        rw [show (Fin.ofNat (2 ^ 32) i.val).val = i.val from Nat.mod_eq_of_lt (by omega)] at this
        exact hi this
      rw [if_neg hi, if_neg hi]
      show Proc.bind (.done (assert _)) (fun _ => Proc.bind (clientReceiveOrKingSend (c + 1) i none .zero) fun bytes =>
        .done (unwrap (Wire.dec (T := Fin (2 ^ 32)) bytes))) = _
      rw [ha]
      unfold clientReceiveOrKingSend
      simp only [hi, if_false]
      rfl
  exact e1 ▸ h

/-- **C94** `test_exchange_of_data_sum_all_ids` and its variant over channels, from the connections on: with any number of peers, in
whatever order they connect and the king's table lists them, and under every schedule, set-up ends, all nodes return, and the assertion on what
they return holds (in debug builds as long as the sum fits into 32 bits; the list is that of the nodes in the order in which set-up gave
them, in the test with the king last). -/
theorem C94_sum_all_ids (order : List Peer → List Peer) (horder : ∀ l, (order l).Perm l) (dbg : Bool) (c : Nat) (hc : c < 2 ^ 32)
    (h : dbg = true → ∑ i ∈ range (c + 1), i < 2 ^ 32) (σ : Nat → Nat)
    (hσ : ((List.range c).map σ).Perm ((List.range c).map (· + 1))) :
    ∃ sum : Fin (2 ^ 32), sum.val = (∑ i ∈ range (c + 1), i) % 2 ^ 32 ∧
      AlwaysYields (prodSession order c σ (prodSumParty dbg (c + 1) c)) (fun _ => sum) ∧
      prodSumCheck dbg c (List.replicate (c + 1) sum) = .ok () := by
  refine ⟨Fin.ofNat _ (∑ i ∈ range (c + 1), i), rfl, ?_, ?_⟩
  · have := C82_session order horder c hc σ hσ (prodSumParty dbg (c + 1) c) (fun _ _ => prodSum_star _ _ _ _)
      (fun _ _ => (prodSum_wf _ (by omega) _ _).mono fun _ _ => trivial) (fun _ => Fin.ofNat _ (∑ i ∈ range (c + 1), i))
      (prodSum_yields dbg c hc h)
    simpa only [ite_self] using this
  · unfold prodSumCheck
    rw [sumU32_ids dbg (by omega) h, ok_bind, assert_of]
    simp

/-- **C94** The assertion of the test tells every other outcome: it holds only if all nodes returned the sum of the ids. -/
theorem C94_check (dbg : Bool) (c : Nat) (hc : c < 2 ^ 32) (sums : List (Fin (2 ^ 32))) (hok : prodSumCheck dbg c sums = .ok ()) :
    ∀ s ∈ sums, s.val = (∑ i ∈ range (c + 1), i) % 2 ^ 32 := by
  have h : dbg = true → ∑ i ∈ range (c + 1), i < 2 ^ 32 := by
    rintro rfl
    by_contra hge
    have hs : sumU32 true ((List.range (c + 1)).map (Fin.ofNat (2 ^ 32))) = panic' := by
      refine foldU32_panic _ 0 ?_
      rw [sum_ids (by omega)]
      simpa using hge
    unfold prodSumCheck at hok
    rw [hs] at hok
    cases hok
  unfold prodSumCheck at hok
  rw [sumU32_ids dbg (by omega) h, ok_bind] at hok
  intro s hs
  unfold assert at hok
  split at hok
  · next ha =>
    have := beq_iff_eq.1 (List.all_eq_true.1 ha s hs)
    rw [this]
    rfl
  · cases hok

/-- **C94** The channel of the in-memory transport: a reader that offers enough room each time gets exactly the bytes that were written, in order, and
nothing is left. -/
theorem C94_channel_reads (chunks : List Bytes) (rooms : List Nat) (h : List.Forall₂ (fun c r => c.length ≤ r) chunks rooms) :
    channelReads (chunks.foldl (fun chan buf => (channelWrite chan buf).1) []) rooms = .ok (chunks.flatten, []) := by
  have hw : ∀ (cs acc : List Bytes), cs.foldl (fun chan buf => (channelWrite chan buf).1) acc = acc ++ cs := by
    intro cs
    induction cs with
    | nil => simp
    | cons c cs ih => intro acc; rw [List.foldl_cons, ih]; simp [channelWrite]
  rw [hw, List.nil_append]
  induction h with
  | nil => rfl
  | cons hc _ ih =>
    rw [channelReads, channelRead, if_pos hc]
    show (do let (more, left) ← channelReads _ _; .ok (_ ++ more, left)) = _
    rw [ih]
    rfl

/-- **C94** With less room the reader panics: it never gets a part of what was written at once, as from a socket. -/
theorem C94_channel_panics (chunks : List Bytes) (c : Bytes) (rest : List Bytes) (rooms rooms' : List Nat) (room : Nat)
    (h : List.Forall₂ (fun c r => c.length ≤ r) chunks rooms) (hc : room < c.length) :
    channelReads (chunks ++ c :: rest) (rooms ++ room :: rooms') = panic' := by
  induction h with
  | nil =>
    show channelReads (c :: rest) (room :: rooms') = _
    rw [channelReads, channelRead, if_neg (by omega)]
    rfl
  | cons hc _ ih =>
    rw [List.cons_append, List.cons_append, channelReads, channelRead, if_pos hc]
    show (do let (more, left) ← channelReads _ _; .ok (_ ++ more, left)) = _
    rw [ih]
    rfl

/-! ### Examples -/

/-- Example for C94: the test as written, four peers, with the second and the third in the wrong order. -/
example : ∃ sum : Fin (2 ^ 32), sum = 10 ∧
    AlwaysYields (prodSession id 4 (fun j => [1, 3, 2, 4].getD j 0) (prodSumParty true 5 4)) (fun _ => sum) := by
  obtain ⟨sum, h1, h2, -⟩ := C94_sum_all_ids id (fun l => .refl l) true 4 (by norm_num) (fun _ => by decide) (fun j => [1, 3, 2, 4].getD j 0)
    (by decide)
  exact ⟨sum, Fin.ext (by rw [h1]; decide), h2⟩

/-- Example for C94: three bytes and two, read with room for four each time; and with room for two. -/
example : channelReads [[1, 2, 3], [4, 5]] [4, 4] = .ok ([1, 2, 3, 4, 5], []) ∧ channelReads [[4, 5], [1, 2, 3]] [4, 2] = panic' :=
  ⟨C94_channel_reads [[1, 2, 3], [4, 5]] [4, 4] (by simp), C94_channel_panics [[4, 5]] [1, 2, 3] [] [4] [] 2 (by simp) (by decide)⟩

end ZkSaas.Properties
