import Verif.Properties.Bench
import Verif.Properties.Net
import Verif.Lemmas.ProdNet

/-!
# C92: `add_ids` when the nodes are told different numbers of parties
-/

namespace ZkSaas

open Finset

/-- The sums of the ids of `n` and of `N` parties differ in `u32` if `n` and `N` do. -/
theorem sum_ids_inj {n N : Nat} (hn : n ≤ 2 ^ 32) (hN : N ≤ 2 ^ 32) (h0 : 2 ≤ n ∨ 1 ≤ n ∧ 1 ≤ N)
    (h : (∑ i ∈ range n, i) % 2 ^ 32 = (∑ i ∈ range N, i) % 2 ^ 32) : N = n := by
  have key : ∀ a b : Nat, a < b → b ≤ 2 ^ 32 → 2 ≤ a ∨ 1 ≤ a ∨ 2 ≤ b →
      (∑ i ∈ range a, i) % 2 ^ 32 = (∑ i ∈ range b, i) % 2 ^ 32 → False := by
    intro a b hab hb hpos h
    have ha2 := sum_range_id_mul_two a
    have hb2 := sum_range_id_mul_two b
    have hdvd : 2 ^ 33 ∣ (b - a) * (b + a - 1) := by
      obtain ⟨d, rfl⟩ : ∃ d, b = a + d := ⟨b - a, by omega⟩
      have hmod : 2 ^ 32 ∣ (∑ i ∈ range (a + d), i) - ∑ i ∈ range a, i := by omega
      obtain ⟨q, hq⟩ := hmod
      have e : (a + d) * (a + d - 1) = a * (a - 1) + d * (a + d + a - 1) := by
        rcases a with _ | a
        · simp
        · rcases d with _ | d
          · simp
          · simp only [Nat.add_sub_cancel, show a + 1 + (d + 1) - 1 = a + d + 1 by omega,
              show a + 1 + (d + 1) + (a + 1) - 1 = 2 * a + d + 2 by omega]
            ring
      refine ⟨q, ?_⟩
      rw [Nat.add_sub_cancel_left]
      omega
    rcases Nat.even_or_odd (b - a) with he | ho
    · have : Nat.Coprime (2 ^ 33) (b + a - 1) := Nat.Coprime.pow_left _ ((Nat.coprime_two_left (n := _)).2 (by
        obtain ⟨k, hk⟩ := he
        exact ⟨a + k - 1, by omega⟩))
      have := Nat.le_of_dvd (by omega) (this.dvd_of_dvd_mul_right hdvd)
      omega
    · have : Nat.Coprime (2 ^ 33) (b - a) := Nat.Coprime.pow_left _ ((Nat.coprime_two_left (n := _)).2 ho)
      have := Nat.le_of_dvd (by omega) (this.dvd_of_dvd_mul_left hdvd)
      omega
  rcases lt_trichotomy n N with hlt | heq | hlt
  · exact (key n N hlt hN (by omega) h).elim
  · exact heq.symm
  · exact (key N n hlt hn (by omega) h.symm).elim

namespace Properties

open Spec

/-- **C92** `add_ids` between `n` nodes, node `i` started with `--n-parties (N i)`. Under every schedule the king finishes if its number is right and
panics otherwise; a client whose id is below the king's number finishes if its own number is right and panics otherwise; the other clients wait for
a sum that is never sent. (In debug builds as long as all the sums fit into 32 bits.) -/
theorem C92_n_parties (dbg : Bool) {n : Nat} (hn : 0 < n) (hn32 : n ≤ 2 ^ 32) (N : Nat → Nat) (hN : ∀ i < n, N i ≤ 2 ^ 32)
    (hdbg : dbg = true → ∑ i ∈ range n, i < 2 ^ 32 ∧ ∀ i < n, ∑ j ∈ range (N i), j < 2 ^ 32) :
    AlwaysHalts (Net.init fun i : Fin n => addIdsOpts dbg n (N i) i) fun c =>
      c.procs ⟨0, hn⟩ = .done (if N 0 = n then .ok () else panic') ∧
      ∀ i : Fin n, i.val ≠ 0 → if i.val < N 0 then c.procs i = .done (if N i = n then .ok () else panic') else Waiting c .zero i := by
  have hsum : ∀ N, N ≤ 2 ^ 32 → (dbg = true → ∑ i ∈ range N, i < 2 ^ 32) →
      sumU32 dbg ((List.range N).map (Fin.ofNat (2 ^ 32))) = .ok (Fin.ofNat _ (∑ i ∈ range N, i)) := by
    intro N hN h
    unfold sumU32
    rw [foldU32 dbg _ 0 (by rw [sum_ids hN]; simpa using h), sum_ids hN]
    simp
  have hsn := hsum n hn32 fun h => (hdbg h).1
  have hsN : ∀ i : Fin n, _ := fun i => hsum (N i) (hN i i.2) fun h => (hdbg h).2 i i.2
  set S : Fin (2 ^ 32) := Fin.ofNat _ (∑ i ∈ range n, i) with hS
  have hverdict : ∀ i : Fin n, (2 ≤ n ∨ 1 ≤ N i) →
      assert (S == Fin.ofNat _ (∑ j ∈ range (N i), j)) = if N i = n then .ok () else panic' := by
    intro i h
    by_cases he : N i = n
    · rw [if_pos he, he, assert_of (beq_self_eq_true _)]
    · rw [if_neg he]
      unfold assert
      rw [if_neg]
      intro hb
      have := congrArg Fin.val (beq_iff_eq.1 hb)
      exact he (sum_ids_inj hn32 (hN i i.2) (by omega) this)
  have hid : ∀ i : Fin n, (Fin.ofNat (2 ^ 32) i.val).val = i.val := fun i => Nat.mod_eq_of_lt (by omega)
  let tail : Fin n → Option (ReceivedShares (Fin (2 ^ 32))) → Proc Unit := fun i received => do
    let sum ← match received with
      | some rs => do
        assert (Fin.ofNat (2 ^ 32) i.val == 0)
        let sum ← sumU32 dbg rs.shares
        let _ ← clientReceiveOrKingSend n i (some (List.replicate (N i) (Wire.enc sum))) .zero
        pure sum
      | none => do
        assert (Fin.ofNat (2 ^ 32) i.val != 0)
        let bytes ← clientReceiveOrKingSend n i none .zero
        unwrap (Wire.dec (T := Fin (2 ^ 32)) bytes)
    assert (sum == Fin.ofNat _ (∑ j ∈ range (N i), j))
  have hprog : ∀ i : Fin n, addIdsOpts dbg n (N i) i =
      (clientSendOrKingReceiveSer n i (Fin.ofNat (2 ^ 32) i.val) .zero 0).bind (tail i) := by
    intro i
    unfold addIdsOpts
    rw [hsN i]
    rfl
  -- the programs after the first round
  have hd : unwrap (Wire.dec (T := Fin (2 ^ 32)) (Wire.enc S)) = .ok S := by
    rw [Wire.ok_fixed S]; rfl
  have hl : (Wire.enc S).length = 4 := FixedWire.enc_length _
  let kc : Fin n → Bytes → Proc Unit := fun i bytes =>
    Proc.bind (.done (unwrap (Wire.dec (T := Fin (2 ^ 32)) bytes))) fun s => .done (assert (s == Fin.ofNat _ (∑ j ∈ range (N i), j)))
  have hkc : ∀ i : Fin n, i.val ≠ 0 → kc i (Wire.enc S) = .done (if N i = n then .ok () else panic') := by
    intro i hi
    show Proc.bind (.done (unwrap (Wire.dec (T := Fin (2 ^ 32)) (Wire.enc S)))) _ = _
    rw [hd]
    exact congrArg Proc.done (hverdict i (.inl (by omega)))
  have hclient : ∀ i : Fin n, i.val ≠ 0 → tail i none = .recv 0 .zero (kc i) := by
    intro i hi
    have ha : assert (Fin.ofNat (2 ^ 32) i.val != 0) = .ok () := by
      rw [assert_of]
      rw [bne_iff_ne]
      intro hc
      have := congrArg Fin.val hc
      rw [hid i] at this
      exact hi this
    show Proc.bind (.done (assert _)) (fun _ => Proc.bind (clientReceiveOrKingSend n i none .zero) fun bytes =>
      Proc.bind (.done (unwrap (Wire.dec (T := Fin (2 ^ 32)) bytes))) fun sum => .done (assert (sum == _))) = _
    rw [ha]
    unfold clientReceiveOrKingSend
    simp only [hi, if_false]
    rfl
  let k0 : Unit → Proc Unit := fun _ => .done (if N 0 = n then .ok () else panic')
  have hking : tail ⟨0, hn⟩ (some ⟨(List.range n).map fun i => Fin.ofNat (2 ^ 32) i, List.range n⟩) =
      if N 0 = 0 then .done panic' else
        (kingSendLoop (List.replicate (N 0) (Wire.enc S)) 4 .zero ((List.range n).filter (· ≠ 0))).bind k0 := by
    have ha : assert (Fin.ofNat (2 ^ 32) (0 : Nat) == 0) = .ok () := rfl
    show Proc.bind (.done (assert _)) (fun _ => Proc.bind (.done (sumU32 dbg _)) fun sum =>
      Proc.bind (clientReceiveOrKingSend n 0 (some (List.replicate (N 0) (Wire.enc sum))) .zero) fun _ =>
        Proc.bind (.done (.ok sum)) fun sum => .done (assert (sum == _))) = _
    rw [ha, hsn]
    show Proc.bind (clientReceiveOrKingSend n 0 (some (List.replicate (N 0) (Wire.enc S))) .zero) (fun _ =>
        .done (assert (S == _))) = _
    unfold clientReceiveOrKingSend
    simp only [ne_eq, not_true_eq_false, if_false]
    by_cases h0 : N 0 = 0
    · rw [if_pos h0, h0]
      rfl
    · rw [if_neg h0, show rd (List.replicate (N 0) (Wire.enc S)) 0 = .ok (Wire.enc S) by
        unfold rd; rw [List.getElem?_replicate, if_pos (by omega)]]
      show Proc.bind (Proc.bind (kingSendLoop _ (Wire.enc S).length _ _) _) _ = _
      rw [Proc.bind_assoc, hl]
      congr 1
      funext _
      exact congrArg Proc.done (hverdict ⟨0, hn⟩ (.inr (by show 1 ≤ N 0; omega)))
  have hr1 := (reach_sendReceive (P := All) hn .zero 0 (fun i => Fin.ofNat (2 ^ 32) i) (fun i _ => Wire.ok_fixed _) (fun _ => [])
    (fun i => rfl) (by intros; trivial)).bind tail
  have hwf : (Net.init fun i : Fin n => addIdsOpts dbg n (N i) i).WF := fun i => ⟨only .zero, by
    rw [show (Net.init fun i : Fin n => addIdsOpts dbg n (N i) i).procs i = _ from hprog i]
    refine Proc.WF.bind (sendReceive_wf hn _ _ _ _) fun r => ?_
    cases r with
    | none =>
      exact Proc.WF.bind (.done _ _) fun _ => Proc.WF.bind (clientReceiveOrKingSend_wf _ _ _) fun _ =>
        Proc.WF.bind (.done _ _) fun _ => .done _ _
    | some rs =>
      exact Proc.WF.bind (.done _ _) fun _ => Proc.WF.bind (.done _ _) fun _ =>
        Proc.WF.bind (clientReceiveOrKingSend_wf _ _ _) fun _ => Proc.WF.bind (.done _ _) fun _ => .done _ _⟩
  -- where it ends
  have hend : Reach All (Net.init fun i : Fin n => addIdsOpts dbg n (N i) i)
      ⟨fun i => if i.val = 0 then .done (if N 0 = n then .ok () else panic')
        else if i.val < N 0 then .done (if N i = n then .ok () else panic') else .recv 0 .zero (kc i), fun _ => []⟩ := by
    have e1 : (Net.init fun i : Fin n => addIdsOpts dbg n (N i) i) =
        ⟨fun i => (clientSendOrKingReceiveSer n i (Fin.ofNat (2 ^ 32) i.val) .zero 0).bind (tail i), fun _ => []⟩ := by
      unfold Net.init
      congr 1
      funext i
      exact hprog i
    rw [e1]
    refine hr1.trans ?_
    have e2 : (fun i : Fin n => (Proc.done (.ok (if i.val = 0 then some (ReceivedShares.mk ((List.range n).map fun i => Fin.ofNat (2 ^ 32) i) (List.range n))
        else none))).bind (tail i)) =
        fun i => if i.val = 0 then (if N 0 = 0 then .done panic' else
          (kingSendLoop (List.replicate (N 0) (Wire.enc S)) 4 .zero ((List.range n).filter (· ≠ 0))).bind k0) else .recv 0 .zero (kc i) := by
      funext i
      show tail i _ = _
      by_cases hi : i.val = 0
      · obtain rfl : i = ⟨0, hn⟩ := Fin.ext hi
        rw [if_pos hi, if_pos hi, hking]
      · rw [if_neg hi, if_neg hi, hclient i hi]
    show Reach All ⟨fun i => (Proc.done _).bind (tail i), _⟩ _
    rw [e2]
    by_cases h0 : N 0 = 0
    · have e3 : ∀ (X Y : Fin n → Proc Unit), X = Y → Reach All (⟨X, fun _ => []⟩ : Net n Unit) ⟨Y, fun _ => []⟩ := by
        rintro X _ rfl; exact .refl _
      apply e3
      funext i
      by_cases hi : i.val = 0
      · rw [if_pos hi, if_pos hi, if_pos h0, if_neg (by omega)]
      · rw [if_neg hi, if_neg hi, if_neg (by omega)]
    · simp only [h0, if_false]
      have hp := reach_scatter_prefix hn .zero (List.replicate (N 0) (Wire.enc S)) 4 k0 kc (fun _ => []) (fun _ => rfl) (min (N 0) n) (by omega)
        (by omega) (fun i h1 h2 => ⟨Wire.enc S, by rw [List.getElem?_replicate, if_pos (by omega)], hl⟩)
      refine hp.trans ?_
      have e3 : ∀ (X Y : Fin n → Proc Unit), X = Y → Reach All (⟨X, fun _ => []⟩ : Net n Unit) ⟨Y, fun _ => []⟩ := by
        rintro X _ rfl; exact .refl _
      apply e3
      funext i
      by_cases hi : i.val = 0
      · rw [if_pos hi, if_pos hi]
        rcases Nat.lt_or_ge (N 0) n with hlt | hge
        · obtain ⟨d, hd⟩ : ∃ d, n - N 0 = d + 1 := ⟨n - N 0 - 1, by omega⟩
          rw [Nat.min_eq_left hlt.le, hd, List.range'_succ, if_neg (by omega)]
          show Proc.bind (Proc.bind (.done (rd _ (N 0))) _) _ = _
          rw [show rd (List.replicate (N 0) (Wire.enc S)) (N 0) = panic' by
            unfold rd; rw [List.getElem?_replicate, if_neg (by omega)]]
          rfl
        · rw [Nat.min_eq_right hge, Nat.sub_self]
          rfl
      · rw [if_neg hi, if_neg hi]
        by_cases hlt : i.val < N 0
        · rw [if_pos (by omega), if_pos hlt, List.getD_replicate _ hlt, hkc i hi]
        · rw [if_neg (by omega), if_neg hlt]
  refine alwaysHalts_of_run hwf hend ?_ ?_ ?_
  · intro i a p' hst ha
    dsimp only at hst ⊢
    split at hst
    · cases hst
    · split at hst
      · cases hst
      · cases hst with
        | recv => simp [qstep]
        | recvFail => exact absurd rfl ha.1
  · intro i he
    dsimp only at he
    split at he
    · cases he
    · split at he <;> cases he
  · refine ⟨by simp, fun i hi => ?_⟩
    dsimp only
    by_cases hlt : i.val < N 0
    · rw [if_pos hlt, if_neg hi, if_pos hlt]
    · rw [if_neg hlt]
      exact ⟨kc i, by dsimp only; rw [if_neg hi, if_neg hlt], rfl⟩

/-! ### Examples -/

/-- Example for C92: four nodes, the king was told 3 and node 1 was told 5: node 2 alone finishes, node 3 waits for ever. -/
example : AlwaysHalts (Net.init fun i : Fin 4 => addIdsOpts true 4 ([3, 5, 4, 4].getD i 0) i) fun c =>
    c.procs 0 = .done panic' ∧ c.procs 1 = .done panic' ∧ c.procs 2 = .done (.ok ()) ∧ Waiting c .zero 3 := by
  have h := C92_n_parties true (n := 4) (by norm_num) (by norm_num) (fun i => [3, 5, 4, 4].getD i 0) (by decide) fun _ => by decide
  exact ⟨h.1, fun k c' h1 h2 => ⟨(h.2 k c' h1 h2).1, (h.2 k c' h1 h2).2 1 (by decide), (h.2 k c' h1 h2).2 2 (by decide),
    (h.2 k c' h1 h2).2 3 (by decide)⟩⟩

end Properties

end ZkSaas
