import Verif.Properties.Statistical
import Verif.Properties.Cheaters
import Verif.Spec.CheatOdds

/-!
# C109: how much cheating servers learn

C107 pairs off the sessions on two assignments in which cheating servers have the same. Here the pairs are counted: outside the draws with a zero share
of `r`, everything the servers can have is exactly as likely with one assignment as with the other.
-/

namespace ZkSaas.Properties

open Spec Finset

/-- Two random variables are as close as the bad event is likely if every value has the same probability outside it. -/
theorem close_of_fibres {Ω O : Type} [Fintype Ω] [Nonempty Ω] {X Y : Ω → Option O} (B : Ω → Prop)
    (h : ∀ v, prob (fun ω => ¬ B ω ∧ X ω = some v) = prob (fun ω => ¬ B ω ∧ Y ω = some v)) : Close (prob B) X Y := by
  classical
  let U : (Ω → Option O) → Ω → Option (Option O) := fun Z ω => if B ω then none else some (Z ω)
  let S := univ.image (U X) ∪ univ.image (U Y) ∪ {some none}
  have hX : ∀ ω, U X ω ∈ S := fun ω => mem_union_left _ (mem_union_left _ (mem_image_of_mem _ (mem_univ _)))
  have hY : ∀ ω, U Y ω ∈ S := fun ω => mem_union_left _ (mem_union_right _ (mem_image_of_mem _ (mem_univ _)))
  have h0 : some none ∈ S := mem_union_right _ (mem_singleton_self _)
  have e1 : ∀ o, o ≠ some none → prob (fun ω => U X ω = o) = prob (fun ω => U Y ω = o) := by
    intro o ho
    have hn : ∀ Z, (fun ω => U Z ω = none) = B := fun Z => by
      funext ω
      by_cases hb : B ω <;> simp [U, hb]
    have hs : ∀ Z v, (fun ω => U Z ω = some (some v)) = fun ω => ¬ B ω ∧ Z ω = some v := fun Z v => by
      funext ω
      by_cases hb : B ω <;> simp [U, hb]
    rcases o with _ | _ | v
    · rw [hn, hn]
    · exact absurd rfl ho
    · rw [hs, hs, h]
  have e2 : prob (fun ω => U X ω = some none) = prob (fun ω => U Y ω = some none) := by
    have a1 := avg_comp (U X) S hX fun _ => 1
    have a2 := avg_comp (U Y) S hY fun _ => 1
    rw [avg_const] at a1 a2
    rw [← Finset.add_sum_erase _ _ h0] at a1 a2
    have := sum_congr rfl fun o (ho : o ∈ S.erase (some none)) => congrArg (1 * ·) (e1 o (ne_of_mem_erase ho))
    linarith
  have e3 : ∀ o, prob (fun ω => U X ω = o) = prob (fun ω => U Y ω = o) := fun o => if ho : o = some none then ho ▸ e2 else e1 o ho
  intro E
  let f : Option (Option O) → ℚ := fun o => match o with
    | none => 0
    | some o => if E o then 1 else 0
  have e4 : avg (fun ω => f (U X ω)) = avg fun ω => f (U Y ω) := by
    rw [avg_comp (U X) S hX, avg_comp (U Y) S hY]
    exact sum_congr rfl fun o _ => by rw [e3]
  have lo : ∀ Z, avg (fun ω => f (U Z ω)) ≤ prob fun ω => E (Z ω) := fun Z => by
    rw [prob_eq]
    refine avg_mono fun ω => ?_
    by_cases hb : B ω <;> simp only [U, f, hb, if_true, if_false]
    · split_ifs <;> norm_num
    · exact le_refl _
  have hi : ∀ Z, prob (fun ω => E (Z ω)) ≤ avg (fun ω => f (U Z ω)) + prob B := fun Z => by
    rw [prob_eq, prob_eq, ← avg_add]
    refine avg_mono fun ω => ?_
    by_cases hb : B ω <;> simp only [U, f, hb, if_true, if_false]
    · split_ifs <;> norm_num
    · simp
  have := lo X; have := lo Y; have := hi X; have := hi Y
  rw [abs_le]
  constructor <;> linarith

variable {F : Type} [Field F] [FftField F] [DecidableEq F] [FixedWire F] {G1 G2 : Type} [AddCommGroup G1] [Module F G1] [DecidableEq G1] [FixedWire G1]
  [AddCommGroup G2] [Module F G2] [DecidableEq G2] [FixedWire G2]

theorem pack_upto {dbg₀ : Bool} {b : Nat} {pp : PSS F} (hpp : PSS.new dbg₀ (2 ^ b) = .ok pp) (dbg : Bool) (s : List F) {rng rng' : Nat → F}
    (h : ∀ i < 2 ^ b, rng i = rng' i) : pp.pack dbg s rng = pp.pack dbg s rng' := by
  rw [← pack_seq hpp, ← pack_seq hpp dbg s rng']
  congr 1
  funext i
  split_ifs with hi
  · exact h i hi
  · rfl

omit [Module F G1] [DecidableEq G1] [FixedWire G1] [Module F G2] [DecidableEq G2] [FixedWire G2] in
/-- Whether some share of `r` is zero is a matter of what `pack` gives for it. -/
theorem zeroShare_iff {dbg₀ : Bool} {b : Nat} {pp : PSS F} (hpp : PSS.new dbg₀ (2 ^ b) = .ok pp) (dbg : Bool) {N : Nat} {x y : Draws F G1 G2 N}
    (h : pp.pack dbg (List.replicate (2 ^ b) x.1.1) (clientTape x).r = pp.pack dbg (List.replicate (2 ^ b) y.1.1) (clientTape y).r) :
    ZeroShare pp dbg b x ↔ ZeroShare pp dbg b y := by
  unfold ZeroShare
  simp only [shareOf, pack_seq hpp]
  simp only [clientTape] at h
  simp only [h]

omit [Module F G1] [DecidableEq G1] [FixedWire G1] [Module F G2] [DecidableEq G2] [FixedWire G2] in
theorem noZeroShare {dbg₀ : Bool} {b : Nat} {pp : PSS F} (hpp : PSS.new dbg₀ (2 ^ b) = .ok pp) {dbg : Bool} {N : Nat} {x : Draws F G1 G2 N}
    (hx : ¬ ZeroShare pp dbg b x) : NoZeroShare pp dbg b x := by
  refine fun rs hrs y hy hy0 => hx ?_
  obtain ⟨p, hp, hpe⟩ := List.getElem_of_mem hy
  have hl : rs.length = 4 * 2 ^ b := by
    rw [pack_fresh hpp] at hrs
    rw [← Except.ok.inj hrs]
    simp
  refine ⟨p, hl ▸ hp, ?_⟩
  have hrs' : pp.pack dbg (List.replicate (2 ^ b) x.1.1) (seq x.2.1.1) = .ok rs := hrs
  rw [shareOf, pack_seq hpp, hrs']
  simp only [List.getElem?_eq_getElem hp, hpe, hy0]

/-- **C109** A strategy that chooses the errors by what the servers are dealt decides the course of every session. -/
theorem C109_decided (pp : PSS F) (dbg : Bool) (b : Nat) (mats : ConstraintMatrices F) (z : List F) (pk : ProvingKey G1 G2) (gen1 : G1) (gen2 : G2)
    (rng : Nat → Nat → Nat → F) {k : Nat} (P : Fin k → Nat) (hlt : ∀ i, P i < 4 * 2 ^ b) (τ : (Fin k → ServerInput F G1 G2) → Nat → Errors F G1 G2)
    (N : Nat) : Decided pp dbg b mats z pk gen1 gen2 rng P (fun v => τ v.dealt) N := by
  rintro x v v' - ⟨ins, outs, views, hd, hy, q1, q2, q3⟩ ⟨ins', outs', views', hd', hy', q1', q2', q3'⟩
  have hI : ∀ p < 4 * 2 ^ b, ins p = ins' p := fun p hp => List.map_inj_left.1 (Except.ok.inj (hd.symm.trans hd')) p (List.mem_range.2 hp)
  have h1 : v.dealt = v'.dealt := funext fun i => by rw [q1, q1', hI _ (hlt i)]
  have hy'' : AlwaysYields (Net.init fun i : Fin (4 * 2 ^ b) => (((τ v.dealt i).spoil (ins i)).run pp dbg (4 * 2 ^ b) i rng).recorded)
      (fun i => (outs' i, views' i)) := by
    refine cast ?_ hy'
    congr 2
    funext i
    rw [hI i i.2, h1]
  have hu := AlwaysYields.unique hy hy''
  have h2 : v.sent = v'.sent := funext fun i => by
    rw [q2, q2']
    exact (Prod.mk.inj (congrFun hu ⟨P i, hlt i⟩)).2
  have h3 : v.answers = v'.answers := funext fun i => by
    rw [q3, q3']
    exact (Prod.mk.inj (congrFun hu ⟨P i, hlt i⟩)).1
  cases v
  cases v'
  simp only at h1 h2 h3
  rw [h1, h2, h3]

section
variable [Finite F] [Finite G1] [Finite G2] {dbg₀ : Bool} {b : Nat} {pp : PSS F} (hpp : PSS.new dbg₀ (2 ^ b) = .ok pp)
  (hgen : (FftField.GENERATOR : F) ^ (4 * 2 ^ b) ≠ 1) (dbg : Bool) (a : Nat) (ha : a < 64)
  {mats : ConstraintMatrices F} {z z' : List F} {dom dom2 : Domain F} (hcirc : Circuit a b mats z dom dom2)
  (hcirc' : Circuit a b mats z' dom dom2) (hz : z.length = z'.length) (pk : ProvingKey G1 G2)
  (hk : KeyFits z.length mats.numInstanceVariables (2 ^ (a + b)) pk) (hal : dbg = true → KeyAligned (2 ^ b) pk) (gen1 : G1) (gen2 : G2)
  (hspan1 : ∀ g : G1, ∃ c : F, c • gen1 = g) (hspan2 : ∀ g : G2, ∃ c : F, c • gen2 = g)
  (rng : Nat → Nat → Nat → F) (P : Fin (2 ^ b) → Nat) (hinj : Function.Injective P) (hlt : ∀ i, P i < 4 * 2 ^ b) (hking : ∀ i, P i ≠ 0)
  {N : Nat} (hN : 2 ^ (a + b) ≤ N) (hzN : z.length ≤ N)
include hpp hgen ha hcirc hcirc' hz hk hal hspan1 hspan2 hinj hlt hking hN hzN

/-- **C109** Let `σ` say which errors the servers make when the servers `P`, none of them the king, have `v`. Everything the servers `P` can have is
exactly as likely in sessions on the first assignment as in sessions on the second, among the draws for which no share of `r` is zero. -/
theorem C109_each (σ : Holding F G1 G2 (2 ^ b) → Nat → Errors F G1 G2) (hσ : dbg = true → ∀ v, Passes pp b (σ v)) (v : Holding F G1 G2 (2 ^ b)) :
    prob (fun x : Draws F G1 G2 N => ¬ ZeroShare pp dbg b x ∧ Comes pp dbg b mats z pk gen1 gen2 rng P σ x v) =
      prob (fun x : Draws F G1 G2 N => ¬ ZeroShare pp dbg b x ∧ Comes pp dbg b mats z' pk gen1 gen2 rng P σ x v) := by
  have := Fintype.ofFinite F
  have := Fintype.ofFinite G1
  have := Fintype.ofFinite G2
  obtain ⟨δ, hδ⟩ := C107_adaptive hpp hgen dbg a ha hcirc hcirc' hz pk hk hal gen1 gen2 hspan1 hspan2 P hinj hlt hking σ hσ v
  let φ : Draws F G1 G2 N ≃ Draws F G1 G2 N := Equiv.addRight (cut N 0 0 δ)
  rw [← prob_equiv φ fun x : Draws F G1 G2 N => ¬ ZeroShare pp dbg b x ∧ Comes pp dbg b mats z' pk gen1 gen2 rng P σ x v]
  congr 1
  funext x
  have hb : 2 ^ b ≤ N := le_trans (Nat.pow_le_pow_right (by norm_num) (by omega)) hN
  have h1 : (φ x).1.1 = x.1.1 := add_zero _
  have h2 : (φ x).1.2 = x.1.2 := add_zero _
  obtain ⟨k1, k2⟩ := hδ x.1.1 x.1.2 (clientTape x) rng
  have hs : ZeroShare pp dbg b (φ x) ↔ ZeroShare pp dbg b x := by
    refine zeroShare_iff hpp dbg ?_
    rw [h1, ← k1]
    exact pack_upto hpp dbg _ fun i hi => (agree_shift x 0 0 δ).r i (by omega)
  refine propext ?_
  rw [hs]
  refine and_congr_right fun hx => ?_
  refine (k2 fun rs hrs => .inl (noZeroShare hpp hx rs hrs)).trans ?_
  have e : pp.deal dbg (2 ^ b) mats z' pk gen1 gen2 x.1.1 x.1.2 (clientTape (φ x)) =
      pp.deal dbg (2 ^ b) mats z' pk gen1 gen2 x.1.1 x.1.2 ((clientTape x).add δ) :=
    deal_congr hpp dbg hcirc' (hz ▸ hk) hal hN (hz ▸ hzN) gen1 gen2 _ _ (agree_shift x 0 0 δ)
  unfold Comes ShowsWith
  rw [h1, h2, e]

/-- **C109** The servers `P` who cheat by a strategy tell two assignments apart with an advantage of at most `4l / |F|`, whatever test they make of
what they are dealt, what they are sent and what they end with. The assignments need not even satisfy the circuit or agree in the public inputs. -/
theorem C109_session (σ : Holding F G1 G2 (2 ^ b) → Nat → Errors F G1 G2) (hσ : dbg = true → ∀ v, Passes pp b (σ v))
    (hdec : Decided pp dbg b mats z pk gen1 gen2 rng P σ N) (hdec' : Decided pp dbg b mats z' pk gen1 gen2 rng P σ N) :
    Close (4 * 2 ^ b / Nat.card F) (gained (N := N) pp dbg b mats z pk gen1 gen2 rng P σ) (gained (N := N) pp dbg b mats z' pk gen1 gen2 rng P σ) := by
  have := Fintype.ofFinite F
  have := Fintype.ofFinite G1
  have := Fintype.ofFinite G2
  have hb : 2 ^ b ≤ N := le_trans (Nat.pow_le_pow_right (by norm_num) (by omega)) hN
  have hh : ∀ {z : List F}, Decided pp dbg b mats z pk gen1 gen2 rng P σ N → ∀ (x : Draws F G1 G2 N) v, ¬ ZeroShare pp dbg b x →
      (gained pp dbg b mats z pk gen1 gen2 rng P σ x = some v ↔ Comes pp dbg b mats z pk gen1 gen2 rng P σ x v) := by
    intro z hd x v hx
    unfold gained
    split_ifs with h
    · rw [Option.some.injEq]
      exact ⟨fun e => e ▸ h.choose_spec, fun e => hd x _ _ (noZeroShare hpp hx) h.choose_spec e⟩
    · exact ⟨fun e => by simp at e, fun e => absurd ⟨v, e⟩ h⟩
  have key := close_of_fibres (X := gained (N := N) pp dbg b mats z pk gen1 gen2 rng P σ) (Y := gained (N := N) pp dbg b mats z' pk gen1 gen2 rng P σ)
    (ZeroShare pp dbg b) fun v => by
      rw [show (fun x => ¬ ZeroShare pp dbg b x ∧ gained pp dbg b mats z pk gen1 gen2 rng P σ x = some v) = _ from
          funext fun x => propext (and_congr_right fun hx => hh hdec x v hx),
        show (fun x => ¬ ZeroShare pp dbg b x ∧ gained pp dbg b mats z' pk gen1 gen2 rng P σ x = some v) = _ from
          funext fun x => propext (and_congr_right fun hx => hh hdec' x v hx)]
      exact C109_each hpp hgen dbg a ha hcirc hcirc' hz pk hk hal gen1 gen2 hspan1 hspan2 rng P hinj hlt hking hN hzN σ hσ v
  exact fun E => (key E).trans (prob_zeroShare hpp hgen dbg hb)

omit hcirc' hz hking hzN in
/-- **C109** And the servers do have something: if they choose the errors by what they are dealt, sessions end but for a share of `4l / |F|` of the
draws. -/
theorem C109_ends (τ : (Fin (2 ^ b) → ServerInput F G1 G2) → Nat → Errors F G1 G2) (hτ : dbg = true → ∀ d, Passes pp b (τ d)) :
    prob (fun x => gained (N := N) pp dbg b mats z pk gen1 gen2 rng P (fun v => τ v.dealt) x = none) ≤ 4 * 2 ^ b / Nat.card F := by
  have := Fintype.ofFinite F
  have := Fintype.ofFinite G1
  have := Fintype.ofFinite G2
  have hb : 2 ^ b ≤ N := le_trans (Nat.pow_le_pow_right (by norm_num) (by omega)) hN
  refine (prob_mono fun x hx => ?_).trans (prob_zeroShare (G1 := G1) (G2 := G2) hpp hgen dbg hb)
  by_contra hn
  have key := fun E hE => C107_session hpp hgen dbg a ha hcirc hcirc rfl 0 0 pk hk hal gen1 gen2 hspan1 hspan2 E hE P hinj hlt
  obtain ⟨δ₀, h₀⟩ := key (fun _ => ⟨fun _ _ => 0, fun _ => 0, fun _ => 0, 0⟩) fun _ => ⟨by simp, by simp, by simp, by simp⟩
  obtain ⟨I, -, eI, -⟩ := h₀ x.1.1 x.1.2 (clientTape x) rng
  obtain ⟨δ, h⟩ := key (τ fun i => I (P i)) fun e => hτ e _
  obtain ⟨ins, ins', e, e', -, hrr, hrun⟩ := h x.1.1 x.1.2 (clientTape x) rng
  have hI : ∀ p < 4 * 2 ^ b, ins p = I p := fun p hp => List.map_inj_left.1 (Except.ok.inj (e.symm.trans eI)) p (List.mem_range.2 hp)
  have hne := shares_ne hpp rfl e hn
  obtain ⟨outs, -, views, -, hy, -⟩ := hrun (.inl hne) (.inl fun p hp => by rw [← hrr rfl]; exact hne p hp)
  have hc : ∃ v, Comes pp dbg b mats z pk gen1 gen2 rng P (fun v => τ v.dealt) x v := by
    refine ⟨⟨fun i => I (P i), fun i => views ⟨P i, hlt i⟩, fun i => outs (P i)⟩, ins, outs, fun p => if h : p < 4 * 2 ^ b then views ⟨p, h⟩ else [], e, ?_,
      fun i => (hI _ (hlt i)).symm, fun i => by dsimp only; rw [dif_pos (hlt i)], fun _ => rfl⟩
    refine cast ?_ hy
    congr 1
    funext i
    dsimp only
    rw [dif_pos i.2]
  rw [gained, dif_pos hc] at hx
  exact absurd hx (by simp)

end

/-- **C109** Any number of sessions one after the other with fresh draws, in each of which the servers cheat by a strategy of their choice. The circuit,
the key, both assignments, the servers and the strategy of each session may depend on all that was seen before. -/
theorem C109_sessions [Finite F] [Finite G1] [Finite G2] {dbg₀ : Bool} {b : Nat} {pp : PSS F} (hpp : PSS.new dbg₀ (2 ^ b) = .ok pp)
    (hgen : (FftField.GENERATOR : F) ^ (4 * 2 ^ b) ≠ 1) (dbg : Bool) (a : Nat) (ha : a < 64) {O : Type}
    {mats : List O → ConstraintMatrices F} {z z' : List O → List F} {dom dom2 : Domain F} (hcirc : ∀ h, Circuit a b (mats h) (z h) dom dom2)
    (hcirc' : ∀ h, Circuit a b (mats h) (z' h) dom dom2) (hz : ∀ h, (z h).length = (z' h).length) (pk : List O → ProvingKey G1 G2)
    (hk : ∀ h, KeyFits (z h).length (mats h).numInstanceVariables (2 ^ (a + b)) (pk h)) (hal : dbg = true → ∀ h, KeyAligned (2 ^ b) (pk h))
    (gen1 : G1) (gen2 : G2) (hspan1 : ∀ g : G1, ∃ c : F, c • gen1 = g) (hspan2 : ∀ g : G2, ∃ c : F, c • gen2 = g)
    (rng : List O → Nat → Nat → Nat → F) (P : List O → Fin (2 ^ b) → Nat) (hinj : ∀ h, Function.Injective (P h)) (hlt : ∀ h i, P h i < 4 * 2 ^ b)
    (hking : ∀ h i, P h i ≠ 0) {N : Nat} (hN : 2 ^ (a + b) ≤ N) (hzN : ∀ h, (z h).length ≤ N)
    (σ : List O → Holding F G1 G2 (2 ^ b) → Nat → Errors F G1 G2) (hσ : dbg = true → ∀ h v, Passes pp b (σ h v))
    (hdec : ∀ h, Decided pp dbg b (mats h) (z h) (pk h) gen1 gen2 (rng h) (P h) (σ h) N)
    (hdec' : ∀ h, Decided pp dbg b (mats h) (z' h) (pk h) gen1 gen2 (rng h) (P h) (σ h) N)
    (f : List O → Option (Holding F G1 G2 (2 ^ b)) → O) (k : Nat) :
    Close (k * (4 * 2 ^ b / Nat.card F))
      (observed (fun h x => f h (gained (N := N) pp dbg b (mats h) (z h) (pk h) gen1 gen2 (rng h) (P h) (σ h) x)) k [])
      (observed (fun h x => f h (gained (N := N) pp dbg b (mats h) (z' h) (pk h) gen1 gen2 (rng h) (P h) (σ h) x)) k []) := by
  have := Fintype.ofFinite F
  have := Fintype.ofFinite G1
  have := Fintype.ofFinite G2
  exact close_observed (fun h E => C109_session hpp hgen dbg a ha (hcirc h) (hcirc' h) (hz h) (pk h) (hk h) (fun e => hal e h) gen1 gen2 hspan1 hspan2
    (rng h) (P h) (hinj h) (hlt h) (hking h) hN (hzN h) (σ h) (fun e => hσ e h) (hdec h) (hdec' h) fun o => E (f h o)) k []

/-- C109: servers 3 and 6 of a release build spoil what they send by what they are dealt, in three sessions on one of two assignments. -/
example (rng : List (Option (Holding (ZMod 17) (ZMod 17) (ZMod 17) (2 ^ 1))) → Nat → Nat → Nat → ZMod 17) :
    ∃ pk : ProvingKey (ZMod 17) (ZMod 17),
      let σ : Holding (ZMod 17) (ZMod 17) (ZMod 17) (2 ^ 1) → Nat → Errors (ZMod 17) (ZMod 17) (ZMod 17) := fun v p => if p = 3 ∨ p = 6 then
        ⟨fun _ c => (v.dealt 0).a.getD c 0, fun c => (v.dealt 1).ax.getD c 0, fun _ => (v.dealt 0).r, (v.dealt 1).s⟩ else ⟨0, 0, 0, 0⟩
      prob (fun x => gained (N := 6) pp17 false 1 mats17 z17 pk 1 1 (rng []) pair17 σ x = none) ≤ 8 / 17 ∧
      Close (3 * (8 / 17)) (observed (fun h x => gained (N := 6) pp17 false 1 mats17 z17 pk 1 1 (rng h) pair17 σ x) 3 [])
        (observed (fun h x => gained (N := 6) pp17 false 1 mats17 [1, 9, 14] pk 1 1 (rng h) pair17 σ x) 3 []) ∧
      Close (8 / 17) (gained (N := 6) pp17 false 1 mats17 z17 pk 1 1 (rng []) pair17 σ)
        (gained (N := 6) pp17 false 1 mats17 [1, 9, 14] pk 1 1 (rng []) pair17 σ) := by
  obtain ⟨pa, pb, pc, pk, h1, h2⟩ := C35_key_exists circuit17 (⟨2, 3, 4, 5, 6⟩ : Toxic (ZMod 17)) (1 : ZMod 17) (1 : ZMod 17)
  let τ : (Fin (2 ^ 1) → ServerInput (ZMod 17) (ZMod 17) (ZMod 17)) → Nat → Errors (ZMod 17) (ZMod 17) (ZMod 17) := fun d p => if p = 3 ∨ p = 6 then
        ⟨fun _ c => (d 0).a.getD c 0, fun c => (d 1).ax.getD c 0, fun _ => (d 0).r, (d 1).s⟩ else ⟨0, 0, 0, 0⟩
  have e : (4 * 2 ^ 1 / (Nat.card (ZMod 17) : ℚ)) = 8 / 17 := by
    rw [Nat.card_eq_fintype_card, ZMod.card]
    norm_num
  refine ⟨pk, ?_, ?_, ?_⟩
  · rw [← e]
    exact C109_ends (pp17_eq true) gen17 false 1 (by norm_num) circuit17 pk (KeyFits.of_key h2) (by simp) 1 1
      (fun g => ⟨g, by simp⟩) (fun g => ⟨g, by simp⟩) (rng []) pair17 pair17_inj pair17_lt (by decide) τ (by simp)
  · rw [← e]
    exact C109_sessions (pp17_eq true) gen17 false 1 (by norm_num) (mats := fun _ => mats17) (z := fun _ => z17) (z' := fun _ => [1, 9, 14])
      (fun _ => circuit17) (fun _ => circuit17') (fun _ => rfl) (fun _ => pk) (fun _ => KeyFits.of_key h2) (by simp) 1 1
      (fun g => ⟨g, by simp⟩) (fun g => ⟨g, by simp⟩) rng (fun _ => pair17) (fun _ => pair17_inj) (fun _ => pair17_lt) (fun _ => by decide) (by decide)
      (fun _ => by decide) (fun _ v => τ v.dealt) (by simp) (fun h => C109_decided pp17 false 1 mats17 _ pk 1 1 (rng h) pair17 pair17_lt τ 6)
      (fun h => C109_decided pp17 false 1 mats17 _ pk 1 1 (rng h) pair17 pair17_lt τ 6) (fun _ o => o) 3
  · rw [← e]
    exact C109_session (pp17_eq true) gen17 false 1 (by norm_num) circuit17 circuit17' rfl pk (KeyFits.of_key h2) (by simp) 1 1
      (fun g => ⟨g, by simp⟩) (fun g => ⟨g, by simp⟩) (rng []) pair17 pair17_inj pair17_lt (by decide) (by decide) (by decide) (fun v => τ v.dealt)
      (by simp) (C109_decided pp17 false 1 mats17 _ pk 1 1 (rng []) pair17 pair17_lt τ 6) (C109_decided pp17 false 1 mats17 _ pk 1 1 (rng []) pair17 pair17_lt τ 6)

end ZkSaas.Properties
