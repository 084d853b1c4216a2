import Verif.Spec.Reuse
import Verif.Properties.Streams
import Verif.Properties.Routing
import Verif.Properties.SmallDomain

/-!
# C86: a network can be used again and again
-/

set_option linter.unusedSectionVars false

namespace ZkSaas

open Spec

variable {n : Nat} {α β : Type}

theorem inTurn_wf {S : Sid → Prop} {ps : List (Proc α)} (h : ∀ p ∈ ps, p.WF S) : (inTurn ps).WF S := by
  induction ps with
  | nil => exact .done _ _
  | cons p ps ih =>
    exact (h p (by simp)).bind fun _ => (ih fun q hq => h q (by simp [hq])).bind fun _ => .done _ _

theorem inTurn_star {me : Nat} {ps : List (Proc α)} (h : ∀ p ∈ ps, Star n me p) : Star n me (inTurn ps) := by
  induction ps with
  | nil => exact .done _
  | cons p ps ih =>
    exact (h p (by simp)).bind fun _ => (ih fun q hq => h q (by simp [hq])).bind fun _ => .done _

theorem inTurn_alt {me : Nat} {ps : List (Proc α)} (h : ∀ p ∈ ps, Alt (fun _ => True) (idle me) p (idle me)) :
    Alt (fun _ => True) (idle me) (inTurn ps) (idle me) := by
  induction ps with
  | nil => exact .ok _ fun _ _ _ => rfl
  | cons p ps ih =>
    exact (h p (by simp)).bind fun _ => (ih fun q hq => h q (by simp [hq])).bind fun _ => Alt.done _ _ _

/-- A run to the end, with nothing left over. -/
theorem clean_run {ps : Fin n → Proc α} {rs : Fin n → α} (h : AlwaysYields (Net.init ps) rs) (he : LeavesNothing (Net.init ps)) :
    Reach All (Net.init ps) ⟨fun i => .done (.ok (rs i)), fun _ => []⟩ := by
  obtain ⟨Q, k, hk⟩ := core_run_of_alwaysYields h
  have hQ : Q = fun _ => [] := by
    funext x
    exact he k _ (hk.mono fun _ ha => ha.1.1) (fun i => ⟨_, rfl⟩) x.1 x.2.1 x.2.2
  rw [hQ] at hk
  exact ⟨k, hk⟩

/-- The end state is the only one. -/
theorem leavesNothing_of_run {ps : Fin n → Proc α} {rs : Fin n → α} (hw : ∀ i, (ps i).WF fun _ => True)
    (h : Reach All (Net.init ps) ⟨fun i => .done (.ok (rs i)), fun _ => []⟩) : LeavesNothing (Net.init ps) := by
  obtain ⟨m, hm⟩ := h
  obtain ⟨-, h2⟩ := reliable_of_run (fun i => ⟨_, hw i⟩) hm
    (by
      rintro ⟨c', h⟩
      cases h with
      | mk procs Q Q' i a p' ha hstep hq => cases hstep)
    (fun i h => by cases h)
  intro k c' hk hd i j x
  rw [h2 k c' hk]
  rintro ⟨c'', hs⟩
  cases hs with
  | mk procs Q Q' i a p' ha hstep hq =>
    obtain ⟨v, hv⟩ := hd i
    rw [show procs i = _ from hv] at hstep
    cases hstep

namespace Properties

open Finset Polynomial

/-- **C86** Two protocols one after the other on the same streams, the second with inputs that each party has from its own result
of the first: if each always succeeds on a fresh network and the first leaves nothing behind, the two always succeed, with the
results of the second; for every schedule, in which some parties may be in the second while others are still in the first. -/
theorem C86_then {ps : Fin n → Proc α} {rs : Fin n → α} {f : Fin n → α → Proc β} {out : Fin n → β}
    (hw : ∀ i, (ps i).WF fun _ => True) (hwf : ∀ i a, (f i a).WF fun _ => True) (h : AlwaysYields (Net.init ps) rs)
    (he : LeavesNothing (Net.init ps)) (hf : AlwaysYields (Net.init fun i => f i (rs i)) out) :
    AlwaysYields (Net.init fun i => (ps i).bind (f i)) out := by
  obtain ⟨Q, h2⟩ := core_run_of_alwaysYields hf
  obtain ⟨m, hm⟩ := ((clean_run h he).bind f).trans h2
  exact alwaysYields_of_run (fun i => ⟨_, (hw i).bind (hwf i)⟩) hm

/-- **C86** Any number of protocols one after the other on the same streams: if each always succeeds on a fresh network and leaves
nothing behind, all of them always succeed with the same results, and nothing is left behind. -/
theorem C86_in_turn (K : Nat) (ps : Nat → Fin n → Proc α) (rs : Nat → Fin n → α) (hw : ∀ j < K, ∀ i, (ps j i).WF fun _ => True)
    (h : ∀ j < K, AlwaysYields (Net.init (ps j)) (rs j)) (he : ∀ j < K, LeavesNothing (Net.init (ps j))) :
    let c := Net.init fun i => inTurn ((List.range K).map fun j => ps j i)
    AlwaysYields c (fun i => (List.range K).map fun j => rs j i) ∧ LeavesNothing c := by
  have key : ∀ L : List Nat, (∀ j ∈ L, j < K) → Reach All (Net.init fun i => inTurn (L.map fun j => ps j i))
      ⟨fun i => .done (.ok (L.map fun j => rs j i)), fun _ => []⟩ := by
    intro L
    induction L with
    | nil => intro _; exact .refl _
    | cons j L ih =>
      intro hL
      have h1 := (clean_run (h j (hL j (by simp))) (he j (hL j (by simp)))).bind fun i a =>
        (inTurn (L.map fun j => ps j i)).bind fun l => Proc.done (.ok (a :: l))
      have h2 := (ih fun x hx => hL x (by simp [hx])).bind fun i l => Proc.done (.ok (rs j i :: l))
      exact h1.trans h2
  have hrun := key (List.range K) fun j hj => List.mem_range.1 hj
  have hwf : ∀ i, (inTurn ((List.range K).map fun j => ps j i)).WF fun _ => True := fun i => inTurn_wf fun p hp => by
    obtain ⟨j, hj, rfl⟩ := List.mem_map.1 hp
    exact hw j (List.mem_range.1 hj) i
  obtain ⟨m, hm⟩ := hrun
  exact ⟨alwaysYields_of_run (fun i => ⟨_, hwf i⟩) hm, leavesNothing_of_run hwf ⟨m, hm⟩⟩

theorem leavesNothing_of_alt {ps : Fin n → Proc α} (h : ∀ i : Fin n, Alt (fun _ => True) (idle i) (ps i) (idle i)) :
    LeavesNothing (Net.init ps) := fun _ _ hs hd => ((paced_init h).steps hs).empty hd

section protocols
variable {F : Type} [Field F] [DecidableEq F] [FftField F] [FixedWire F] {G1 G2 GT : Type} [AddCommGroup G1] [Module F G1]
  [DecidableEq G1] [FixedWire G1] [AddCommGroup G2] [Module F G2] [DecidableEq G2] [FixedWire G2] [AddCommGroup GT] [Module F GT]

/-- **C86** All protocols of the repository leave nothing behind when all parties have succeeded, whatever their inputs, masks and
parameters (be they those of another circuit, or nonsense) and the schedule. -/
theorem C86_leave_nothing (pp : PSS F) (dbg : Bool) (rng rng' : Nat → Nat → F) (rng3 : Nat → Nat → Nat → F) :
    (∀ (px : Nat → List F) (masks : Nat → FftMask F) rearrange dom sid,
      LeavesNothing (Net.init fun i : Fin n => pp.dFft dbg n i (px i) (masks i) rearrange dom sid rng)) ∧
    (∀ (px : Nat → List F) (masks : Nat → FftMask F) rearrange dom g sid,
      LeavesNothing (Net.init fun i : Fin n => pp.dIfft dbg n i (px i) (masks i) rearrange dom g sid rng)) ∧
    (∀ (x : Nat → List F) (masks : Nat → DegRedMask F) sid,
      LeavesNothing (Net.init fun i : Fin n => pp.degRed dbg n i (x i) (masks i) sid rng)) ∧
    (∀ (bases : Nat → List G1) (scalars : Nat → List F) (masks : Nat → MsmMask G1) sid,
      LeavesNothing (Net.init fun i : Fin n => pp.dMsm dbg n i (bases i) (scalars i) (masks i) sid)) ∧
    (∀ (num den : Nat → List F) (masks : Nat → DegRedMask F) sid,
      LeavesNothing (Net.init fun i : Fin n => pp.dPp dbg n i (num i) (den i) (masks i) sid rng rng')) ∧
    (∀ (q : Nat → PackedQAPShare F) (masks : Nat → Nat → FftMask F) (mask : Nat → DegRedMask F),
      LeavesNothing (Net.init fun i : Fin n => pp.circomH dbg n i (q i) (masks i) (mask i) rng3)) ∧
    (∀ (q : Nat → PackedQAPShare F) (masks : Nat → Nat → FftMask F),
      LeavesNothing (Net.init fun i : Fin n => pp.libsnarkH dbg n i (q i) (masks i) rng3)) ∧
    (∀ ins : Nat → ServerInput F G1 G2, LeavesNothing (Net.init fun i : Fin n => (ins i).run pp dbg n i rng3)) :=
  ⟨fun _ _ _ _ _ => leavesNothing_of_alt fun _ => (PSS.dFft_alt _ _ _ _ _ _ _ _ _).mono fun _ _ => trivial,
    fun _ _ _ _ _ _ => leavesNothing_of_alt fun _ => (PSS.dIfft_alt _ _ _ _ _ _ _ _ _ _).mono fun _ _ => trivial,
    fun _ _ _ => leavesNothing_of_alt fun _ => (PSS.degRed_alt _ _ _ _ _ _ _).mono fun _ _ => trivial,
    fun _ _ _ _ => leavesNothing_of_alt fun _ => (PSS.dMsm_alt _ _ _ _ _ _ _).mono fun _ _ => trivial,
    fun _ _ _ _ => leavesNothing_of_alt fun _ => (PSS.dPp_alt _ _ _ _ _ _ _ _ _).mono fun _ _ => trivial,
    fun _ _ _ => leavesNothing_of_alt fun _ => PSS.circomH_alt _ _ _ _ _ _ _,
    fun _ _ => leavesNothing_of_alt fun _ => PSS.libsnarkH_alt _ _ _ _ _ _,
    fun _ => leavesNothing_of_alt fun _ => ServerInput.run_alt _ _ _ _ _⟩

/-- What the client of the example needs for one proof. -/
structure Order (F G1 G2 : Type) where
  a : Nat
  mats : ConstraintMatrices F
  z : List F
  dom : Domain F
  dom2 : Domain F
  t : Toxic F
  g1 : G1
  g2 : G2
  pk : ProvingKey G1 G2
  gen1 : G1
  gen2 : G2
  r : F
  s : F
  tape : ClientTape F G1 G2
  rng : Nat → Nat → Nat → F

/-- A circuit that fits, an assignment that satisfies it and a key made for it. -/
structure Order.Valid (b : Nat) (o : Order F G1 G2) : Prop where
  small : o.a < 64
  circuit : Circuit o.a b o.mats o.z o.dom o.dom2
  sat : Satisfies o.mats.numConstraints o.mats.a o.mats.b o.mats.c o.z
  key : ∃ pa pb pc : Nat → F[X], IsQap o.mats o.z.length o.dom.groupGen (2 ^ (o.a + b)) pa pb pc ∧
    IsCircomKey o.t o.g1 o.g2 o.z.length o.mats.numInstanceVariables (2 ^ (o.a + b)) o.dom2.groupGen pa pb pc o.pk
  gamma : o.t.gamma ≠ 0
  delta : o.t.delta ≠ 0

/-- **C86** A production network that is set up once serves any number of proofs: the servers prove one statement after the other,
each with its own circuit, size, key, assignment and randomness, without any synchronisation in between. For every order of
connections, hash map order and schedule (in which one server may be several proofs ahead of another as far as the messages
allow) every proof is made and verifies. -/
theorem C86_proofs {dbg₀ : Bool} {b : Nat} {pp : PSS F} (hpp : PSS.new dbg₀ (2 ^ b) = .ok pp) (K : Nat) (o : Nat → Order F G1 G2)
    (ho : ∀ j < K, (o j).Valid b) {c : Nat} (hn : c + 1 = 4 * 2 ^ b) (hb : b ≤ 30) (order : List Peer → List Peer)
    (horder : ∀ l, (order l).Perm l) (σ : Nat → Nat) (hσ : ((List.range c).map σ).Perm ((List.range c).map (· + 1))) :
    ∃ (ins : Nat → Nat → ServerInput F G1 G2) (outs : Nat → Nat → G1 × G2 × G1),
      AlwaysYields (prodSession order c σ fun i => inTurn ((List.range K).map fun j => (ins j i).run pp false (c + 1) i (o j).rng))
        (fun q => (List.range K).map fun j => if q.val = 0 then outs j 0 else outs j (σ (q.val - 1))) ∧
      ∀ j < K, pp.deal false pp.n (o j).mats (o j).z (o j).pk (o j).gen1 (o j).gen2 (o j).r (o j).s (o j).tape =
          .ok ((List.range (c + 1)).map (ins j)) ∧
        ∃ pA pB pC, pp.openProof false ((List.range (c + 1)).map (outs j)) = .ok (pA, pB, pC) ∧
          ∀ e : G1 →ₗ[F] G2 →ₗ[F] GT, Verifies e (o j).pk.vk (((o j).z.take (o j).mats.numInstanceVariables).drop 1) pA pB pC := by
  have hex : ∀ j, ∃ (ins : Nat → ServerInput F G1 G2) (outs : Nat → G1 × G2 × G1), j < K →
      AlwaysYields (Net.init fun i : Fin (c + 1) => (ins i).run pp false (c + 1) i (o j).rng) (fun i => outs i) ∧
      pp.deal false pp.n (o j).mats (o j).z (o j).pk (o j).gen1 (o j).gen2 (o j).r (o j).s (o j).tape =
          .ok ((List.range (c + 1)).map ins) ∧
        ∃ pA pB pC, pp.openProof false ((List.range (c + 1)).map outs) = .ok (pA, pB, pC) ∧
          ∀ e : G1 →ₗ[F] G2 →ₗ[F] GT, Verifies e (o j).pk.vk (((o j).z.take (o j).mats.numInstanceVariables).drop 1) pA pB pC := by
    intro j
    by_cases hj : j < K
    · have v := ho j hj
      obtain ⟨pa, pb, pc, hqap, hk⟩ := v.key
      obtain ⟨ins, outs, pA, pB, pC, h1, h2, h3, h4⟩ := C35_example_release (GT := GT) hpp (o j).a v.small v.circuit v.sat hqap hk
        v.gamma v.delta (o j).gen1 (o j).gen2 (o j).r (o j).s (o j).tape (o j).rng
      rw [← hn] at h1 h2 h3
      exact ⟨ins, outs, fun _ => ⟨h2, h1, pA, pB, pC, h3, h4⟩⟩
    · exact ⟨fun _ => ⟨⟨[], [], [], [], [], 0, 0, 0, 0, 0, 0, 0, 0⟩, ⟨0, 0, [], [], [], (o j).dom⟩, [], [], 0, 0, [], ⟨[], []⟩, [], ⟨0, 0⟩⟩,
        fun _ => 0, fun h => absurd h hj⟩
  choose ins outs hio using hex
  have hturn := (C86_in_turn K (fun j (i : Fin (c + 1)) => (ins j i).run pp false (c + 1) i (o j).rng) (fun j i => outs j i)
    (fun j _ i => dsha256_wf _ (by omega) _ _ _ _ _ _ _ _ _ _ _ _) (fun j hj => (hio j hj).1)
    (fun j _ => (C86_leave_nothing (G1 := G1) (G2 := G2) pp false (fun _ _ => 0) (fun _ _ => 0) (o j).rng).2.2.2.2.2.2.2 (ins j))).1
  have hc : c < 2 ^ 32 := by
    have : 2 ^ b ≤ 2 ^ 30 := Nat.pow_le_pow_right (by norm_num) hb
    omega
  have hs := C82_session order horder c hc σ hσ
    (fun i => inTurn ((List.range K).map fun j => (ins j i).run pp false (c + 1) i (o j).rng))
    (fun i _ => inTurn_star fun p hp => by
      obtain ⟨j, -, rfl⟩ := List.mem_map.1 hp
      exact dsha256_star _ _ _ _ _ _ _ _ _ _ _ _ _ _)
    (fun i _ => inTurn_wf fun p hp => by
      obtain ⟨j, -, rfl⟩ := List.mem_map.1 hp
      exact dsha256_wf _ (by omega) _ _ _ _ _ _ _ _ _ _ _ _)
    (fun i => (List.range K).map fun j => outs j i) hturn
  refine ⟨ins, outs, ?_, fun j hj => (hio j hj).2⟩
  convert hs using 2 with q
  split <;> rfl

end protocols

/-- Two parties. -/
def two (p q : Proc α) : Fin 2 → Proc α := fun i => if i.val = 0 then p else q

theorem two_wf {p q : Proc α} (hp : p.WF fun _ => True) (hq : q.WF fun _ => True) (i : Fin 2) : (two p q i).WF fun _ => True := by
  unfold two; split <;> assumption

theorem two_send (p q : Proc α) (sid : Sid) (b : Bytes) (L : List Bytes) :
    Reach All ⟨two p (.send 0 sid b q), Function.update (fun _ => []) (1, 0, sid) L⟩
      ⟨two p q, Function.update (fun _ => []) (1, 0, sid) (L ++ [b])⟩ := by
  have s := Reach.step (P := All) (ps := two p (.send 0 sid b q)) (Q := Function.update (fun _ => []) (1, 0, sid) L) 1 (.send 0 sid b) q
    (core_send _ _ _) (.send _ _ _ _) rfl
  have e : Function.update (two p (.send 0 sid b q)) 1 q = two p q := by
    funext i; fin_cases i <;> simp [two]
  rw [e] at s
  convert s using 2
  simp

theorem two_recv (q : Proc α) (k : Bytes → Proc α) (sid : Sid) (b : Bytes) (L : List Bytes) :
    Reach All ⟨two (.recv 1 sid k) q, Function.update (fun _ => []) (1, 0, sid) (b :: L)⟩
      ⟨two (k b) q, Function.update (fun _ => []) (1, 0, sid) L⟩ := by
  have s := Reach.step (P := All) (ps := two (.recv 1 sid k) q) (Q := Function.update (fun _ => []) (1, 0, sid) (b :: L))
    (Q' := Function.update (fun _ => []) (1, 0, sid) L) 0 (.recv 1 sid b) (k b) (core_recv _ _ _) (.recv _ _ _ _) (by simp [qstep])
  have e : Function.update (two (.recv 1 sid k) q) 0 (k b) = two (k b) q := by
    funext i; fin_cases i <;> simp [two]
  rwa [e] at s

theorem two_start {p q : Proc α} (sid : Sid) {t : Net 2 α}
    (h : Reach All ⟨two p q, Function.update (fun _ => []) (1, 0, sid) []⟩ t) : Reach All (Net.init (two p q)) t := by
  have e : Function.update (fun _ => []) ((1, 0, sid) : Nat × Nat × Sid) ([] : List Bytes) = fun _ => [] := by
    funext x; simp [Function.update_apply]
  rw [e] at h
  exact h

theorem two_done (v w : α) (Q : Queues) : (⟨two (.done (.ok v)) (.done (.ok w)), Q⟩ : Net 2 α) =
    ⟨fun i => .done (.ok (if i.val = 0 then v else w)), Q⟩ := by
  congr 1
  funext i
  unfold two
  split <;> rfl

theorem two_yields {p q : Proc α} (hp : p.WF fun _ => True) (hq : q.WF fun _ => True) (sid : Sid) {v w : α} {Q : Queues}
    (h : Reach All ⟨two p q, Function.update (fun _ => []) (1, 0, sid) []⟩ ⟨two (.done (.ok v)) (.done (.ok w)), Q⟩) :
    AlwaysYields (Net.init (two p q)) (fun i => if i.val = 0 then v else w) := by
  obtain ⟨m, hm⟩ := two_start sid h
  rw [two_done] at hm
  exact alwaysYields_of_run (fun i => ⟨_, two_wf hp hq i⟩) hm

/-- **C86** That nothing is left behind matters: here a client sends its message twice and the king takes one of them, then the client
sends another message and the king takes one. Each protocol succeeds alone, but one after the other the king's second result is the
message left over from the first. -/
theorem C86_leftovers_matter (sid : Sid) (b b' : Bytes) :
    let take : Proc Bytes := .recv 1 sid fun m => .done (.ok m)
    let twice : Proc Bytes := .send 0 sid b (.send 0 sid b (.done (.ok [])))
    let once : Proc Bytes := .send 0 sid b' (.done (.ok []))
    AlwaysYields (Net.init fun i : Fin 2 => if i.val = 0 then take else twice) (fun i => if i.val = 0 then b else []) ∧
    AlwaysYields (Net.init fun i : Fin 2 => if i.val = 0 then take else once) (fun i => if i.val = 0 then b' else []) ∧
    ¬ LeavesNothing (Net.init fun i : Fin 2 => if i.val = 0 then take else twice) ∧
    AlwaysYields (Net.init fun i : Fin 2 => if i.val = 0 then inTurn [take, take] else inTurn [twice, once])
      (fun i => if i.val = 0 then [b, b] else [[], []]) := by
  intro take twice once
  have w0 : take.WF fun _ => True := .recv trivial fun _ => .done _ _
  have w1 : twice.WF fun _ => True := .send trivial (.send trivial (.done _ _))
  have w2 : once.WF fun _ => True := .send trivial (.done _ _)
  have h1 := ((two_send take (.send 0 sid b (.done (.ok []))) sid b []).trans (two_send _ (.done (.ok [])) sid b _)).trans
    (two_recv _ (fun m => .done (.ok m)) sid b [b])
  have h2 := (two_send take (.done (.ok [])) sid b' []).trans (two_recv _ (fun m => .done (.ok m)) sid b' [])
  refine ⟨two_yields w0 w1 sid h1, two_yields w0 w2 sid h2, fun h => ?_, ?_⟩
  · obtain ⟨k, hk⟩ := two_start sid h1
    have := h k _ (hk.mono fun _ ha => ha.1.1) (fun i => by fin_cases i <;> exact ⟨_, rfl⟩) 1 0 sid
    simp at this
  · refine two_yields (inTurn_wf fun p hp => ?_) (inTurn_wf fun p hp => ?_) sid (Q := Function.update (fun _ => []) (1, 0, sid) [b']) ?_
    · simp only [List.mem_cons, List.not_mem_nil, or_false, or_self] at hp; subst hp; exact w0
    · simp only [List.mem_cons, List.not_mem_nil, or_false] at hp
      rcases hp with rfl | rfl
      · exact w1
      · exact w2
    · refine (two_send _ _ sid b []).trans ((two_send _ _ sid b _).trans ((two_send _ _ sid b' _).trans ?_))
      exact (two_recv _ _ sid b [b, b']).trans (two_recv _ _ sid b [b'])

/-! ### Examples -/

/-- Example for C86: the client sends a message, then the king sends back what it has got, on the same stream. -/
example (sid : Sid) (b : Bytes) : AlwaysYields (Net.init fun i : Fin 2 =>
      (two (.recv 1 sid fun m => .done (.ok m)) (.send 0 sid b (.done (.ok []))) i).bind fun m =>
        if i.val = 0 then .send 1 sid m (.done (.ok m)) else .recv 0 sid fun m' => .done (.ok m')) (fun _ => b) := by
  have w0 : (Proc.recv 1 sid fun m => .done (.ok m) : Proc Bytes).WF fun _ => True := .recv trivial fun _ => .done _ _
  have w1 : (Proc.send 0 sid b (.done (.ok [])) : Proc Bytes).WF fun _ => True := .send trivial (.done _ _)
  have h := (two_send (.recv 1 sid fun m => .done (.ok m)) (.done (.ok [])) sid b []).trans (two_recv _ (fun m => .done (.ok m)) sid b [])
  have hr := two_start sid h
  have e : Function.update (fun _ => []) ((1, 0, sid) : Nat × Nat × Sid) ([] : List Bytes) = fun _ => [] := by
    funext x; simp [Function.update_apply]
  rw [two_done, e] at hr
  refine C86_then (two_wf w0 w1) (fun i a => ?_) (two_yields w0 w1 sid h) (leavesNothing_of_run (two_wf w0 w1) hr) ?_
  · split
    · exact .send trivial (.done _ _)
    · exact .recv trivial fun _ => .done _ _
  · have h2 := reach_transfer (ps := fun i : Fin 2 => if i.val = 0 then Proc.send 1 sid b (.done (.ok b)) else .recv 0 sid fun m' => .done (.ok m'))
      (Q := fun _ => []) 0 1 (by decide) sid b (.done (.ok b)) (fun m' => .done (.ok m')) rfl rfl rfl
    obtain ⟨m, hm⟩ := h2
    refine alwaysYields_of_run (P := All) (m := m) (Q := fun _ => []) (fun i => ⟨fun _ => True, ?_⟩) ?_
    · fin_cases i
      · exact .send trivial (.done _ _)
      · exact .recv trivial fun _ => .done _ _
    · have e' : (fun _ : Fin 2 => (Proc.done (.ok b) : Proc Bytes)) = Function.update (Function.update (fun i : Fin 2 => if i.val = 0 then
          Proc.send 1 sid b (.done (.ok b)) else .recv 0 sid fun m' => .done (.ok m')) 0 (.done (.ok b))) 1 (.done (.ok b)) := by
        funext i; fin_cases i <;> simp
      rw [e']
      convert hm using 1
      show (⟨_, _⟩ : Net 2 Bytes) = _
      congr 1
      funext i
      fin_cases i <;> rfl

theorem circuit17t : Circuit 0 1 mats17s [1, 1] dom17s dom17 :=
  ⟨dom17s_eq, rfl, dom17_eq, rfl, rfl, circuit17s.colsA, circuit17s.colsB, circuit17s.colsC, by decide, by decide, rfl⟩

/-- Example for C86: two proofs for circuits of four and of two rows, one after the other. -/
example (tape : ClientTape (ZMod 17) (ZMod 17) (ZMod 17)) : ∃ (o : Nat → Order (ZMod 17) (ZMod 17) (ZMod 17))
    (ins : Nat → Nat → ServerInput (ZMod 17) (ZMod 17) (ZMod 17)) (outs : Nat → Nat → ZMod 17 × ZMod 17 × ZMod 17),
    (o 0).mats = mats17 ∧ (o 1).mats = mats17s ∧
    AlwaysYields (prodSession List.reverse 7 (fun j => [7, 2, 5, 1, 6, 4, 3].getD j 0) fun i =>
        inTurn ((List.range 2).map fun j => (ins j i).run pp17 false (7 + 1) i (o j).rng))
      (fun q => (List.range 2).map fun j => if q.val = 0 then outs j 0 else outs j ([7, 2, 5, 1, 6, 4, 3].getD (q.val - 1) 0)) := by
  obtain ⟨pa, pb, pc, pk, h1, h2⟩ := C35_key_exists circuit17 (⟨2, 3, 4, 5, 6⟩ : Toxic (ZMod 17)) (1 : ZMod 17) (1 : ZMod 17)
  obtain ⟨pa', pb', pc', pk', h1', h2'⟩ := C35_key_exists circuit17t (⟨3, 3, 4, 5, 6⟩ : Toxic (ZMod 17)) (1 : ZMod 17) (1 : ZMod 17)
  let o : Nat → Order (ZMod 17) (ZMod 17) (ZMod 17) := fun j =>
    if j = 0 then ⟨1, mats17, z17, dom17, dom17b, ⟨2, 3, 4, 5, 6⟩, 1, 1, pk, 1, 1, 5, 6, tape, fun _ i j => i + j⟩
    else ⟨0, mats17s, [1, 1], dom17s, dom17, ⟨3, 3, 4, 5, 6⟩, 1, 1, pk', 1, 1, 7, 6, tape, fun _ i j => i * j⟩
  have hsat : Satisfies mats17s.numConstraints mats17s.a mats17s.b mats17s.c [1, 1] := by
    intro i hi
    have : i = 0 := by simp [mats17s] at hi; omega
    subst this; decide +kernel
  have g4 : (4 : ZMod 17) ≠ 0 := by decide
  have g5 : (5 : ZMod 17) ≠ 0 := by decide
  have l0 : 0 < 64 := by decide
  have l1 : 1 < 64 := by decide
  obtain ⟨ins, outs, h, -⟩ := C86_proofs (GT := ZMod 17) (pp17_eq true) 2 o (fun j _ => by
    by_cases e : j = 0
    · subst e; exact ⟨l1, circuit17, mats17_sat, ⟨pa, pb, pc, h1, h2⟩, g4, g5⟩
    · simp only [o, e, if_false]; exact ⟨l0, circuit17t, hsat, ⟨pa', pb', pc', h1', h2'⟩, g4, g5⟩)
    (c := 7) rfl (by norm_num) List.reverse List.reverse_perm (fun j => [7, 2, 5, 1, 6, 4, 3].getD j 0) (by decide)
  exact ⟨o, ins, outs, rfl, rfl, h⟩

end Properties

end ZkSaas
