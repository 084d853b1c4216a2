import Verif.Properties.Fresh
import Verif.Lemmas.LossyProtocols

/-! What more than `l` shares show of the secrets, exactly (C70). -/

set_option linter.unusedSectionVars false

namespace ZkSaas

open Finset Spec

section
variable {F : Type} [Field F] {T : Type} [AddCommGroup T] [Module F T]

/-- A root of a polynomial with coefficients in a module splits off. -/
theorem pval_factor (c : Nat → T) (d : Nat) (a : F) (h : pval c (d + 1) a = 0) :
    ∃ c' : Nat → T, ∀ x : F, pval c (d + 1) x = (x - a) • pval c' d x := by
  suffices H : ∃ c' : Nat → T, ∀ x : F, pval c (d + 1) x = (x - a) • pval c' d x + pval c (d + 1) a by
    obtain ⟨c', hc⟩ := H
    exact ⟨c', fun x => by rw [hc x, h, add_zero]⟩
  clear h
  induction d generalizing c with
  | zero => exact ⟨c, fun x => by simp [pval]⟩
  | succ d ih =>
    obtain ⟨c', hc⟩ := ih fun j => c (j + 1)
    refine ⟨fun j => if j = 0 then pval (fun j => c (j + 1)) (d + 1) a else c' (j - 1), fun x => ?_⟩
    have hs : ∀ (e : Nat → T) (m : Nat) (y : F), pval e (m + 1) y = e 0 + y • pval (fun j => e (j + 1)) m y := by
      intro e m y
      rw [pval, sum_range_succ', pval, smul_sum, add_comm]
      congr 1
      · simp
      · apply sum_congr rfl
        intro j _
        rw [smul_smul, pow_succ, mul_comm]
    rw [hs c (d + 1) x, hs c (d + 1) a, hc x, hs _ d x]
    simp only [if_true, Nat.add_sub_cancel, Nat.succ_ne_zero, if_false]
    module

/-- So do several roots. -/
theorem pval_factors (rs : List F) (hnd : rs.Nodup) (c : Nat → T) {d : Nat} (hd : rs.length ≤ d) (h : ∀ a ∈ rs, pval c d a = 0) :
    ∃ c' : Nat → T, ∀ x : F, pval c d x = (rs.map fun a => x - a).prod • pval c' (d - rs.length) x := by
  induction rs generalizing c d with
  | nil => exact ⟨c, fun x => by simp⟩
  | cons a rs ih =>
    obtain ⟨ha, hnd⟩ := List.nodup_cons.1 hnd
    obtain ⟨d, rfl⟩ : ∃ d', d = d' + 1 := ⟨d - 1, by simp at hd; omega⟩
    obtain ⟨c₁, h₁⟩ := pval_factor c d a (h a List.mem_cons_self)
    obtain ⟨c₂, h₂⟩ := ih hnd c₁ (by simpa using hd) fun b hb => by
      have := h b (List.mem_cons_of_mem _ hb)
      rw [h₁ b] at this
      exact (smul_eq_zero.1 this).resolve_left (sub_ne_zero.2 fun e => ha (e ▸ hb))
    refine ⟨c₂, fun x => ?_⟩
    rw [h₁ x, h₂ x, smul_smul, List.map_cons, List.prod_cons, List.length_cons, Nat.add_sub_add_right]

/-- A polynomial with more roots than its degree vanishes. -/
theorem pval_eq_zero_of_roots (rs : List F) (hnd : rs.Nodup) (c : Nat → T) {d : Nat} (hd : d ≤ rs.length)
    (h : ∀ a ∈ rs, pval c d a = 0) (x : F) : pval c d x = 0 := by
  obtain ⟨c', h'⟩ := pval_factors (rs.take d) (hnd.sublist (List.take_sublist _ _)) c (by simp) fun a ha => h a (List.mem_of_mem_take ha)
  rw [h' x, List.length_take, Nat.min_eq_left hd, Nat.sub_self]
  simp [pval]

/-- Multiplying with linear factors. -/
theorem pval_times (rs : List F) (c : Nat → T) (d : Nat) :
    ∃ c' : Nat → T, ∀ x : F, pval c' (d + rs.length) x = (rs.map fun a => x - a).prod • pval c d x := by
  classical
  induction rs with
  | nil => exact ⟨c, fun x => by simp⟩
  | cons a rs ih =>
    obtain ⟨c₁, h₁⟩ := ih
    obtain ⟨e, he⟩ := pval_roots [a] (d := 2) (by simp)
    by_cases h0 : d + rs.length = 0
    · refine ⟨fun _ => 0, fun x => ?_⟩
      have : d = 0 := by omega
      subst this
      simp [pval]
    · refine ⟨conv e 2 c₁ (d + rs.length), fun x => ?_⟩
      rw [List.map_cons, List.prod_cons, ← smul_smul, ← h₁ x]
      have := pval_mul e 2 c₁ (d + rs.length) x
      rw [he x] at this
      simp only [List.map_cons, List.map_nil, List.prod_cons, List.prod_nil, mul_one] at this
      rw [this, List.length_cons]
      congr 1
      omega

end

variable {F : Type} [Field F] [DecidableEq F] [FftField F]
variable {T : Type} [AddCommGroup T] [Module F T] [DecidableEq T]

/-- Every polynomial with `2l` coefficients is what `pack` uses for its values and some random values. -/
theorem PSS.pack_values {pp : PSS F} (hg : pp.Good) (dbg : Bool) (c : Nat → T) {x : List T} (hx : x.length = pp.l)
    (hv : ∀ k < pp.l, x.getD k 0 = pval c (2 * pp.l) (pp.secret.offset * (pp.share.groupGen ^ 2) ^ k)) :
    ∃ (r : Nat → T) (sx : List T), pp.pack dbg x r = .ok sx ∧
      ∀ i < 4 * pp.l, sx.getD i 0 = pval c (2 * pp.l) (pp.share.groupGen ^ i) := by
  let e : Nat → T := fun k => pval c (2 * pp.l) (pp.secret.offset * (pp.share.groupGen ^ 2) ^ k)
  refine ⟨fun i => e (pp.l + i), _, PSS.pack_eq hg dbg hx _, ?_⟩
  intro i hi
  have hco : pp.packCoeffs x (fun i => e (pp.l + i)) = (List.range pp.secret.size).map c := by
    apply Domain.ifft_evals hg.secret_wf
    intro i hi
    rw [hg.secret_size] at hi
    rw [hg.secret_element, hg.secret_size, getD_append', hx, hg.t_eq]
    have : e i = ∑ j ∈ range (2 * pp.l), (pp.secret.offset * (pp.share.groupGen ^ 2) ^ i) ^ j • c j := rfl
    rw [← this]
    split
    · rename_i h; exact hv i h
    · rename_i h
      rw [getD_map_range, if_pos (by omega), show pp.l + (i - pp.l) = i by omega]
  rw [hco, hg.secret_size, PSS.fft_share hg (d := 2 * pp.l) (by simp) (by omega) hi]
  apply pval_congr
  intro j hj
  rw [getD_map_range, if_pos hj]

namespace Properties

/-- The parties in `P` cannot tell the secrets `x` from `x'`: for every choice of random values for `x` there are random values
for `x'` that give each of them the same share. -/
def SameView (pp : PSS F) (dbg : Bool) (P : List Nat) (x x' : List T) : Prop :=
  ∀ r sh, pp.pack dbg x r = .ok sh → ∃ r' sh', pp.pack dbg x' r' = .ok sh' ∧ ∀ p ∈ P, sh'[p]? = sh[p]?

/-- The parties in `P` never see the same with the secrets `x` and `x'`, whatever the random values are. -/
def NeverSameView (pp : PSS F) (dbg : Bool) (P : List Nat) (x x' : List T) : Prop :=
  ∀ r r' sh sh', pp.pack dbg x r = .ok sh → pp.pack dbg x' r' = .ok sh' → ∃ p ∈ P, sh'[p]? ≠ sh[p]?

/-- The point at which the polynomial has the `k`-th secret as its value. -/
def slot (pp : PSS F) (k : Nat) : F := FftField.GENERATOR * (pp.share.groupGen ^ 2) ^ k

/-- `x' - x` is what a polynomial with `d` coefficients, multiplied with a factor for every party in `P`, has as its values. -/
def DiffersBy (pp : PSS F) (P : List Nat) (d : Nat) (x x' : List T) : Prop :=
  ∃ c : Nat → T, ∀ k < x.length, x'.getD k 0 - x.getD k 0 =
    (P.map fun p => slot pp k - pp.share.groupGen ^ p).prod • pval c d (slot pp k)

theorem share_eq {sh sh' : List T} {n : Nat} (h : sh.length = n) (h' : sh'.length = n) {p : Nat} (hp : p < n) :
    sh'[p]? = sh[p]? ↔ sh'.getD p 0 = sh.getD p 0 := by
  rw [List.getD_eq_getElem?_getD, List.getD_eq_getElem?_getD, List.getElem?_eq_getElem (by omega), List.getElem?_eq_getElem (by omega)]
  simp

/-- **C70** What at most `2l` parties see, exactly: the difference of two vectors of secrets is invisible to them if it is the values
of a polynomial with `2l - s` coefficients times the `s` factors of the parties, and always visible otherwise. -/
theorem C70_exact {dbg₀ : Bool} {b : Nat} {pp : PSS F} (hpp : PSS.new dbg₀ (2 ^ b) = .ok pp) (dbg : Bool) (P : List Nat)
    (hnd : P.Nodup) (hlt : ∀ p ∈ P, p < 4 * 2 ^ b) (hs : P.length ≤ 2 * 2 ^ b) (x x' : List T) (hx : x.length = 2 ^ b)
    (hx' : x'.length = 2 ^ b) :
    (DiffersBy pp P (2 * 2 ^ b - P.length) x x' → SameView pp dbg P x x') ∧
    (¬ DiffersBy pp P (2 * 2 ^ b - P.length) x x' → NeverSameView pp dbg P x x') := by
  have hg := PSS.good_of_new hpp
  have hle := l_eq hpp
  have hoff := offset_eq hpp
  rw [← hle] at hlt hs hx hx' ⊢
  have hpt : ∀ k, slot pp k = pp.secret.offset * (pp.share.groupGen ^ 2) ^ k := fun k => by rw [hoff]; rfl
  constructor
  · rintro ⟨c, hc⟩ r sh e
    obtain ⟨_, e', hlen, -, a, ha, hax⟩ := PSS.pack_shares hg dbg hx r
    rw [e] at e'; cases e'
    obtain ⟨z, hz⟩ := pval_times (P.map fun p => pp.share.groupGen ^ p) c (2 * pp.l - P.length)
    rw [List.length_map, Nat.sub_add_cancel hs] at hz
    obtain ⟨r', sh', e₁, h₁⟩ := PSS.pack_values hg dbg (fun j => a j + z j) hx' fun k hk => by
      rw [← pval_add, ← hax k hk, hz, ← hpt, List.map_map]
      have := hc k (by omega)
      rw [Function.comp_def, ← this]
      abel
    refine ⟨r', sh', e₁, fun p hp => ?_⟩
    have hlen' : sh'.length = 4 * pp.l := by
      obtain ⟨_, e₂, h₂⟩ := PSS.pack_shares hg dbg hx' r'
      rw [e₁] at e₂; cases e₂
      exact h₂.1
    rw [share_eq hlen hlen' (hlt p hp), h₁ p (hlt p hp), ← pval_add, ← ha p (hlt p hp), hz, List.map_map,
      List.prod_eq_zero, zero_smul, add_zero]
    exact List.mem_map.2 ⟨p, hp, sub_self _⟩
  · intro hno r r' sh sh' e e'
    by_contra hall
    push Not at hall
    apply hno
    obtain ⟨_, e₁, hlen, -, a, ha, hax⟩ := PSS.pack_shares hg dbg hx r
    rw [e] at e₁; cases e₁
    obtain ⟨_, e₁, hlen', -, a', ha', hax'⟩ := PSS.pack_shares hg dbg hx' r'
    rw [e'] at e₁; cases e₁
    obtain ⟨c, hc⟩ := pval_factors (P.map fun p => pp.share.groupGen ^ p)
      (hnd.map_on fun p hp q hq h => by
        apply hg.share_wf.prim.pow_inj _ _ h <;> rw [hg.share_size]
        · exact hlt p hp
        · exact hlt q hq)
      (fun j => a' j - a j) (d := 2 * pp.l) (by simpa using hs) (by
        intro y hy
        obtain ⟨p, hp, rfl⟩ := List.mem_map.1 hy
        rw [← pval_sub, ← ha p (hlt p hp), ← ha' p (hlt p hp), sub_eq_zero]
        exact (share_eq hlen hlen' (hlt p hp)).1 (hall p hp))
    refine ⟨c, fun k hk => ?_⟩
    have := hc (slot pp k)
    rw [List.map_map, List.length_map, ← pval_sub, hpt, ← hax k (by omega), ← hax' k (by omega)] at this
    rw [this, hpt]
    rfl

theorem factors_ne_zero {dbg₀ : Bool} {b : Nat} {pp : PSS F} (hpp : PSS.new dbg₀ (2 ^ b) = .ok pp) (P : List Nat)
    (hgen : (FftField.GENERATOR : F) ^ (4 * 2 ^ b) ≠ 1) (k : Nat) :
    (P.map fun p => slot pp k - pp.share.groupGen ^ p).prod ≠ 0 := by
  have hg := PSS.good_of_new hpp
  have hw1 : pp.share.groupGen ^ (4 * 2 ^ b) = 1 := by
    rw [← l_eq hpp, ← hg.share_size]; exact hg.share_wf.prim.pow_eq_one
  intro h
  obtain ⟨p, _, hp⟩ := List.mem_map.1 (List.prod_eq_zero_iff.1 h)
  rw [sub_eq_zero] at hp
  apply hgen
  have h1 : (pp.share.groupGen ^ p) ^ (4 * 2 ^ b) = 1 := by rw [pow_right_comm, hw1, one_pow]
  rw [← hp, slot, mul_pow, ← pow_mul pp.share.groupGen, pow_right_comm pp.share.groupGen, hw1, one_pow, mul_one] at h1
  exact h1

theorem slot_inj {dbg₀ : Bool} {b : Nat} {pp : PSS F} (hpp : PSS.new dbg₀ (2 ^ b) = .ok pp) :
    ∀ i < 2 ^ b, ∀ j < 2 ^ b, slot pp i = slot pp j → i = j := by
  have hg := PSS.good_of_new hpp
  have hle := l_eq hpp
  intro i hi j hj h
  have hs0 : (FftField.GENERATOR : F) ≠ 0 := by rw [← offset_eq hpp]; exact hg.secret_wf.offne
  have h := mul_left_cancel₀ hs0 h
  rw [← hg.secret_gen] at h
  apply hg.secret_wf.prim.pow_inj _ _ h <;> rw [hg.secret_size] <;> omega

/-- **C70** `l + m` parties always tell two vectors of secrets apart that differ in at least one and at most `m` slots. -/
theorem C70_few_changes_show {dbg₀ : Bool} {b : Nat} {pp : PSS F} (hpp : PSS.new dbg₀ (2 ^ b) = .ok pp) (dbg : Bool)
    (P : List Nat) (hnd : P.Nodup) (hlt : ∀ p ∈ P, p < 4 * 2 ^ b) (m : Nat) (hs : P.length = 2 ^ b + m) (hm : m ≤ 2 ^ b)
    (x x' : List T) (hx : x.length = 2 ^ b) (hx' : x'.length = 2 ^ b) (hne : x ≠ x')
    (hd : ((range (2 ^ b)).filter fun k => x.getD k 0 ≠ x'.getD k 0).card ≤ m)
    (hgen : (FftField.GENERATOR : F) ^ (4 * 2 ^ b) ≠ 1) : NeverSameView pp dbg P x x' := by
  refine (C70_exact hpp dbg P hnd hlt (by omega) x x' hx hx').2 ?_
  rintro ⟨c, hc⟩
  have hg := PSS.good_of_new hpp
  have hle := l_eq hpp
  have hz := factors_ne_zero hpp P hgen
  have hinj := slot_inj hpp
  have hzero : ∀ y : F, pval c (2 * 2 ^ b - P.length) y = 0 := by
    refine pval_eq_zero_of_roots (((List.range (2 ^ b)).filter fun k => x.getD k 0 = x'.getD k 0).map (slot pp)) ?_ c ?_ ?_
    · refine (List.nodup_range.filter _).map_on fun i hi j hj h => hinj i ?_ j ?_ h
      · exact List.mem_range.1 (List.mem_filter.1 hi).1
      · exact List.mem_range.1 (List.mem_filter.1 hj).1
    · rw [List.length_map]
      have h1 : ((List.range (2 ^ b)).filter fun k => x.getD k 0 = x'.getD k 0).length =
          ((range (2 ^ b)).filter fun k => x.getD k 0 = x'.getD k 0).card := rfl
      have h2 := card_filter_add_card_filter_not (s := range (2 ^ b)) (fun k => x.getD k 0 = x'.getD k 0)
      rw [card_range] at h2
      rw [h1]
      have h3 : ((range (2 ^ b)).filter fun k => ¬ x.getD k 0 = x'.getD k 0).card ≤ m := hd
      omega
    · intro y hy
      obtain ⟨k, hk, rfl⟩ := List.mem_map.1 hy
      obtain ⟨hk, he⟩ := List.mem_filter.1 hk
      have := hc k (by rw [hx]; exact List.mem_range.1 hk)
      rw [of_decide_eq_true he, sub_self] at this
      exact (smul_eq_zero.1 this.symm).resolve_left (hz k)
  apply hne
  refine list_ext_getD 0 (hx.trans hx'.symm) fun k hk => ?_
  have := hc k hk
  rw [hzero, smul_zero, sub_eq_zero] at this
  exact this.symm

/-- **C70** They cannot tell more: for every choice of `l - m - 1` slots and every value there is a vector with the same secrets in
these slots, another secret in every other slot, and the same view. -/
theorem C70_more_changes_hide {dbg₀ : Bool} {b : Nat} {pp : PSS F} (hpp : PSS.new dbg₀ (2 ^ b) = .ok pp) (dbg : Bool)
    (P : List Nat) (hnd : P.Nodup) (hlt : ∀ p ∈ P, p < 4 * 2 ^ b) (m : Nat) (hs : P.length = 2 ^ b + m)
    (S : List Nat) (hS : S.length + m + 1 ≤ 2 ^ b) (hSlt : ∀ k ∈ S, k < 2 ^ b) (x : List T) (hx : x.length = 2 ^ b) (v : T) (hv : v ≠ 0)
    (hgen : (FftField.GENERATOR : F) ^ (4 * 2 ^ b) ≠ 1) :
    ∃ x' : List T, x'.length = 2 ^ b ∧ (∀ k < 2 ^ b, x'.getD k 0 = x.getD k 0 ↔ k ∈ S) ∧ SameView pp dbg P x x' := by
  have hg := PSS.good_of_new hpp
  have hle := l_eq hpp
  have hz := factors_ne_zero hpp P hgen
  have hinj := slot_inj hpp
  obtain ⟨c, hc⟩ := pval_times (S.map (slot pp)) (fun _ => v) 1
  have hc1 : ∀ y : F, pval c (1 + S.length) y = ((S.map (slot pp)).map fun a => y - a).prod • v := by
    intro y
    have := hc y
    rw [List.length_map] at this
    rw [this]
    simp [pval]
  refine ⟨(List.range (2 ^ b)).map fun k => x.getD k 0 +
    (P.map fun p => slot pp k - pp.share.groupGen ^ p).prod • pval c (1 + S.length) (slot pp k), by simp, fun k hk => ?_, ?_⟩
  · rw [getD_map_range, if_pos hk, add_eq_left, smul_eq_zero, hc1, smul_eq_zero]
    constructor
    · rintro (h | h | h)
      · exact absurd h (hz k)
      · obtain ⟨a, ha, h⟩ := List.mem_map.1 (List.prod_eq_zero_iff.1 h)
        obtain ⟨j, hj, rfl⟩ := List.mem_map.1 ha
        rwa [hinj k hk j (hSlt j hj) (sub_eq_zero.1 h)]
      · exact absurd h hv
    · intro h
      refine .inr (.inl (List.prod_eq_zero ?_))
      rw [List.map_map]
      exact List.mem_map.2 ⟨k, h, sub_self _⟩
  · refine (C70_exact hpp dbg P hnd hlt (by omega) x _ hx (by simp)).1 ⟨fun j => if j < 1 + S.length then c j else 0, fun k hk => ?_⟩
    rw [hx] at hk
    rw [getD_map_range, if_pos hk, add_sub_cancel_left, ← pval_extend (by omega : 1 + S.length ≤ 2 * 2 ^ b - P.length)]

/-- Non-vacuity: with `l = 2`, three parties always see the change of one of the two secrets. -/
example : NeverSameView pp17 true [7, 0, 2] ([5, 7] : List (ZMod 17)) [5, 8] :=
  C70_few_changes_show (pp17_eq true) true [7, 0, 2] (by decide) (by decide) 1 rfl (by decide) _ _ rfl rfl (by decide) (by decide +kernel)
    (by decide +kernel)

/-- Non-vacuity: two parties do not see some change of both secrets. -/
example : ∃ x' : List (ZMod 17), x'.length = 2 ^ 1 ∧ (∀ k < 2 ^ 1, x'.getD k 0 = ([5, 7] : List (ZMod 17)).getD k 0 ↔ k ∈ ([] : List Nat)) ∧
    SameView pp17 false [7, 0] [5, 7] x' :=
  C70_more_changes_hide (pp17_eq true) false [7, 0] (by decide) (by decide) 0 rfl [] (by decide) (by simp) _ rfl 1 (by decide)
    (by decide +kernel)

/-- Non-vacuity: three parties do not see that `[5, 7]` becomes `[2, 13]`. -/
example : SameView pp17 true [7, 0, 2] ([5, 7] : List (ZMod 17)) [2, 13] :=
  (C70_exact (pp17_eq true) true [7, 0, 2] (by decide) (by decide) (by decide) _ _ rfl rfl).1
    ⟨fun _ => 1, by decide +kernel⟩

end Properties

end ZkSaas
