import Verif.Model.Tls
import Verif.Properties.Routing

/-!
# C83: what a certificate is good for
-/

namespace ZkSaas.Properties

open Finset Spec

/-- The connection comes from somebody who holds the key of a certificate in the store. -/
def Certified (roots : List Nat) (c : Incoming) : Prop := ∃ x ∈ roots, c.cert = some x

theorem authenticated_iff (roots : List Nat) (c : Incoming) : c.authenticated roots = true ↔ Certified roots c := by
  unfold Incoming.authenticated Certified
  cases c.cert <;> simp

theorem acceptLoop_spec (roots : List Nat) (k : Nat) (incoming conns : List Incoming) :
    (acceptLoop roots k incoming conns = .waiting ↔ incoming.length < k ∧ ∀ c ∈ incoming, Certified roots c) ∧
    (∀ L, acceptLoop roots k incoming conns = .accepted L ↔
      L = conns ++ incoming.take k ∧ k ≤ incoming.length ∧ ∀ c ∈ incoming.take k, Certified roots c) ∧
    ((∃ e, acceptLoop roots k incoming conns = .failed e) ↔ ∃ c ∈ incoming.take k, ¬ Certified roots c) := by
  induction k generalizing incoming conns with
  | zero => simp [acceptLoop, eq_comm]
  | succ k ih =>
    cases incoming with
    | nil => simp [acceptLoop]
    | cons c cs =>
      obtain ⟨h1, h2, h3⟩ := ih cs (conns ++ [c])
      unfold acceptLoop
      by_cases hc : c.authenticated roots = true
      · have hc' := (authenticated_iff _ _).1 hc
        simp only [if_pos hc]
        refine ⟨?_, fun L => ?_, ?_⟩
        · rw [h1]; simp [hc']
        · rw [h2]; simp [hc']
        · rw [h3]; simp [hc']
      · have hc' : ¬ Certified roots c := fun h => hc ((authenticated_iff _ _).2 h)
        simp [hc, hc']

/-- **C83** The king waits until as many connections have arrived as it has certificates, and takes the first ones whatever their
certificates. Any peer without a certificate that arrives before that ends set-up with an error. -/
theorem C83_accept (roots : List Nat) (incoming : List Incoming) :
    (kingAccepts roots incoming = .waiting ↔ incoming.length < roots.length ∧ ∀ c ∈ incoming, Certified roots c) ∧
    (∀ L, kingAccepts roots incoming = .accepted L ↔
      L = incoming.take roots.length ∧ roots.length ≤ incoming.length ∧ ∀ c ∈ incoming.take roots.length, Certified roots c) ∧
    ((∃ e, kingAccepts roots incoming = .failed e) ↔ ∃ c ∈ incoming.take roots.length, ¬ Certified roots c) := by
  simpa [kingAccepts] using acceptLoop_spec roots roots.length incoming []

/-- **C83** The king starts no protocol, and does not fail either, exactly as long as connections are missing and all that have arrived are
certified. -/
theorem C83_waits {α : Type} (order : List Peer → List Peer) (roots : List Nat) (incoming : List Incoming) (p : Nat → Proc α) :
    kingTls order roots incoming p = none ↔ incoming.length < roots.length ∧ ∀ c ∈ incoming, Certified roots c := by
  rw [← (C83_accept roots incoming).1, kingTls]
  cases kingAccepts roots incoming <;> simp

/-- **C83** Whoever can reach the port ends set-up without any certificate, however many servers have connected before: the king fails and
never sends anything. -/
theorem C83_stranger {α : Type} (order : List Peer → List Peer) (roots : List Nat) (before after : List Incoming)
    (hb : before.length < roots.length) (c : Incoming) (hc : ¬ Certified roots c) (p : Nat → Proc α) :
    ∃ e, kingTls order roots (before ++ c :: after) p = some (.done (.error e)) := by
  have := ((C83_accept roots (before ++ c :: after)).2.2).2 ⟨c, by
    rw [List.take_append]
    refine List.mem_append_right _ ?_
    obtain ⟨k, hk⟩ : ∃ k, roots.length - before.length = k + 1 := ⟨roots.length - before.length - 1, by omega⟩
    rw [hk, List.take_succ_cons]
    exact List.mem_cons_self, hc⟩
  obtain ⟨e, he⟩ := this
  exact ⟨e, by rw [kingTls, he]⟩

/-- **C83** Certificates are not bound to ids. Whatever the certificates of the connections the king has accepted, be it the same one every
time, the session depends on the announced ids alone: whoever announces id `i` is dealt with as party `i`, and if each id is announced
once, all parties end with the results of the protocol. -/
theorem C83_certificates_ignored {α : Type} (order : List Peer → List Peer) (horder : ∀ l, (order l).Perm l) (roots : List Nat)
    (incoming : List Incoming) {L : List Incoming} (hL : kingAccepts roots incoming = .accepted L) (hc : roots.length < 2 ^ 32)
    (σ : Nat → Nat) (hσ : ((List.range roots.length).map σ).Perm ((List.range roots.length).map (· + 1))) (P : Nat → Nat → Proc α)
    (hstar : ∀ i < roots.length + 1, Star (roots.length + 1) i (P (roots.length + 1) i))
    (hwf : ∀ i < roots.length + 1, (P (roots.length + 1) i).WF fun _ => True) (rs : Nat → α)
    (h : AlwaysYields (Net.init fun i : Fin (roots.length + 1) => P (roots.length + 1) i) (fun i => rs i)) :
    ∃ king, kingTls order roots incoming (fun n => P n 0) = some king ∧
      AlwaysYields (Net.init fun q : Fin (roots.length + 1) =>
          if q.val = 0 then king else prodNode order (σ (q.val - 1)) 1 (P (roots.length + 1) (σ (q.val - 1))))
        (fun q => if q.val = 0 then rs 0 else rs (σ (q.val - 1))) := by
  obtain ⟨e1, e2, -⟩ := ((C83_accept roots incoming).2.1 L).1 hL
  have hlen : L.length = roots.length := by rw [e1, List.length_take]; omega
  refine ⟨prodNode order 0 roots.length (P (roots.length + 1) 0), by rw [kingTls, hL, ← hlen], ?_⟩
  exact C82_session order horder roots.length hc σ hσ (P (roots.length + 1)) hstar hwf rs h

/-- **C83** One certificate is enough to take the place of any party: its holder connects first and announces the id `v`, and if party `v` is
the last to arrive, it is not even accepted. For every other order of the others set-up is complete and the protocol runs to its end
with the intruder as party `v`. -/
theorem C83_impersonation {α : Type} (order : List Peer → List Peer) (horder : ∀ l, (order l).Perm l) (roots : List Nat)
    (hc : roots.length < 2 ^ 32) (x : Nat) (hx : x ∈ roots) (v : Nat) (others : List Nat)
    (hids : (v :: others).Perm ((List.range roots.length).map (· + 1))) (certs : Nat → Nat) (hcerts : ∀ i ∈ others, certs i ∈ roots)
    (P : Nat → Nat → Proc α) (hstar : ∀ i < roots.length + 1, Star (roots.length + 1) i (P (roots.length + 1) i))
    (hwf : ∀ i < roots.length + 1, (P (roots.length + 1) i).WF fun _ => True) (rs : Nat → α)
    (h : AlwaysYields (Net.init fun i : Fin (roots.length + 1) => P (roots.length + 1) i) (fun i => rs i)) :
    ∃ king, kingTls order roots (⟨some x⟩ :: others.map (fun i => ⟨some (certs i)⟩) ++ [⟨some (certs v)⟩]) (fun n => P n 0) = some king ∧
      AlwaysYields (Net.init fun q : Fin (roots.length + 1) => if q.val = 0 then king else
          prodNode order ((v :: others).getD (q.val - 1) 0) 1 (P (roots.length + 1) ((v :: others).getD (q.val - 1) 0)))
        (fun q => if q.val = 0 then rs 0 else rs ((v :: others).getD (q.val - 1) 0)) := by
  have hlen : others.length + 1 = roots.length := by simpa using hids.length_eq
  have htake : ((⟨some x⟩ : Incoming) :: others.map (fun i => (⟨some (certs i)⟩ : Incoming)) ++ [(⟨some (certs v)⟩ : Incoming)]).take roots.length =
      ⟨some x⟩ :: others.map fun i => ⟨some (certs i)⟩ := by
    rw [← hlen, List.take_append_of_le_length (by simp), List.take_of_length_le (by simp)]
  have hσ : ((List.range roots.length).map fun j => (v :: others).getD j 0) = v :: others := by
    rw [← hlen]
    refine List.ext_getElem (by simp) fun j h1 h2 => ?_
    have : j < (v :: others).length := h2
    rw [List.getElem_map, List.getElem_range, List.getD_eq_getElem _ _ this]
  refine C83_certificates_ignored order horder roots _ (((C83_accept roots _).2.1 _).2 ⟨rfl, by simp; omega, ?_⟩) hc
    (fun j => (v :: others).getD j 0) (by rw [hσ]; exact hids) P hstar hwf rs h
  rw [htake]
  simp only [List.mem_cons, List.mem_map, forall_eq_or_imp, forall_exists_index, and_imp, forall_apply_eq_imp_iff₂]
  exact ⟨⟨x, hx, rfl⟩, fun i hi => ⟨_, hcerts i hi, rfl⟩⟩

/-! ### Examples -/

/-- Example for C83: three certificates, two servers have connected. -/
example : kingAccepts [10, 20, 30] [⟨some 20⟩, ⟨some 20⟩] = .waiting :=
  (C83_accept [10, 20, 30] _).1.2 ⟨by decide, by simp [Certified]⟩

/-- Example for C83: the same king has no program yet. -/
example : kingTls id [10, 20, 30] [⟨some 20⟩, ⟨some 20⟩] (addIds true · 0) = none :=
  (C83_waits id [10, 20, 30] _ _).2 ⟨by decide, by simp [Certified]⟩

/-- Example for C83: the third connection has no certificate. -/
example : ∃ e, kingTls id [10, 20, 30] ([⟨some 20⟩, ⟨some 10⟩] ++ ⟨none⟩ :: [⟨some 30⟩]) (addIds true · 0) = some (.done (.error e)) :=
  C83_stranger id [10, 20, 30] [⟨some 20⟩, ⟨some 10⟩] [⟨some 30⟩] (by decide) ⟨none⟩ (by simp [Certified]) _

/-- Example for C83: the holder of certificate 20 is all three clients. -/
example : ∃ king, kingTls id [10, 20, 30] [⟨some 20⟩, ⟨some 20⟩, ⟨some 20⟩] (addIds true · 0) = some king ∧
    AlwaysYields (Net.init fun q : Fin (3 + 1) =>
        if q.val = 0 then king else prodNode id ((fun j => [2, 3, 1].getD j 0) (q.val - 1)) 1
          (addIds true (3 + 1) ((fun j => [2, 3, 1].getD j 0) (q.val - 1))))
      (fun q => if q.val = 0 then () else ()) :=
  C83_certificates_ignored id (fun _ => List.Perm.refl _) [10, 20, 30] _ (L := [⟨some 20⟩, ⟨some 20⟩, ⟨some 20⟩]) (by decide) (by decide)
    (fun j => [2, 3, 1].getD j 0) (by decide) (fun n i => addIds true n i) (fun _ _ => addIds_star _ _ _)
    (fun _ _ => addIds_wf _ (by decide) _) (fun _ => ()) (C66_add_ids true (by decide) (by decide) fun _ => by decide)

/-- Example for C83: the holder of certificate 30, which belongs to client 3, takes the place of client 1 as well. -/
example : ∃ king, kingTls id [10, 20, 30] (⟨some 30⟩ :: [3, 2].map (fun i => ⟨some (10 * i)⟩) ++ [⟨some (10 * 1)⟩]) (addIds true · 0) = some king ∧
    AlwaysYields (Net.init fun q : Fin (3 + 1) => if q.val = 0 then king else
        prodNode id ((1 :: [3, 2]).getD (q.val - 1) 0) 1 (addIds true (3 + 1) ((1 :: [3, 2]).getD (q.val - 1) 0)))
      (fun q => if q.val = 0 then () else ()) :=
  C83_impersonation id (fun _ => List.Perm.refl _) [10, 20, 30] (by decide) 30 (by decide) 1 [3, 2] (by decide) (fun i => 10 * i)
    (by decide) (fun n i => addIds true n i) (fun _ _ => addIds_star _ _ _) (fun _ _ => addIds_wf _ (by decide) _) (fun _ => ())
    (C66_add_ids true (by decide) (by decide) fun _ => by decide)

end ZkSaas.Properties
