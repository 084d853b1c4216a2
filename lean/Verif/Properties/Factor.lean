import Verif.Properties.KingViewH
import Verif.Lemmas.Factor

/-!
# C74: who knows one factor of a product learns the other from `deg_red`
-/

set_option linter.unusedSectionVars false

namespace ZkSaas.Properties

open Finset Polynomial Spec

variable {F : Type} [Field F] [FftField F] [DecidableEq F] [FixedWire F]

/-- Position `c` of the vectors the king was sent. -/
def sentColumn (tr : Transcript) (c : Nat) : List F := tr.map fun m => ((Wire.dec (T := List F) m.2).getD []).getD c 0

/-- What `l` parties can compute from the king's transcript when they know one factor `x` of a product, from their shares `xs` and `ys` of
the factors: slot `k` of position `c` of the other factor. They divide the polynomial through the values sent to the king by the sharing
polynomial of `x`, and correct the constant with the share of the first of them. -/
noncomputable def learnFactor (pp : PSS F) (l : Nat) (P : Fin l → Nat) (tr : Transcript) (x : List F) (xs ys : Fin l → List F)
    (c k : Nat) : F :=
  if h : 0 < l then
    let f := throughPoints pp l P (fun k => x.getD (c * l + k) 0) fun i => (xs i).getD c 0
    let q := toPoly (pp.share.ifft (sentColumn tr c)) / f
    q.eval (pp.secret.offset * (pp.share.groupGen ^ 2) ^ k) - q.eval (pp.share.groupGen ^ P ⟨0, h⟩) + (ys ⟨0, h⟩).getD c 0
  else 0

theorem sentColumn_gathered {n N : Nat} (hN64 : N < 2 ^ 64) {v : Nat → List F} (hv : ∀ p < n, (v p).length = N) {p c : Nat} (hp : p < n) :
    (sentColumn (gathered n v) c : List F).getD p 0 = (v p).getD c 0 := by
  unfold sentColumn gathered
  rw [List.map_map, getD_map_range, if_pos hp]
  have : Wire.dec (Wire.enc (v p)) = some (v p) := Wire.ok_list _ (by rw [hv p hp]; exact hN64)
  simp only [Function.comp_def, this, Option.getD_some]

/-- What the king is sent in `deg_red`. -/
theorem degRed_king_view {dbg₀ : Bool} {b : Nat} {pp : PSS F} (hpp : PSS.new dbg₀ (2 ^ b) = .ok pp) (dbg : Bool) {N : Nat} (hN : 0 < N)
    (hN64 : N < 2 ^ 64) {sec sh : Nat → List F} (hsh : pp.SharedVec (4 * pp.l - 1) N sh sec) {t : VecTape F} {masks : Nat → DegRedMask F}
    (hm : DegRedMask.sample pp dbg (1 : F) N t.vals t.rngIn t.rngOut = .ok ((List.range (4 * 2 ^ b)).map masks))
    {sid : Sid} {rng : Nat → Nat → F} {outs : Nat → List F} {views : Fin (4 * 2 ^ b) → Transcript}
    (hr : AlwaysYields (Net.init fun i : Fin (4 * 2 ^ b) => (pp.degRed dbg (4 * 2 ^ b) i (sh i) (masks i) sid rng).recorded)
      (fun i => (outs i, views i))) : views ⟨0, by positivity⟩ = gathered (4 * 2 ^ b) fun p => addMask (sh p) (pp.degDealt N t p).inMask := by
  have hle := l_eq hpp
  have hg := PSS.good_of_new hpp
  have hl := hg.lpos
  have dm := DegRedMask.sample_dealt hg dbg hN t
  rw [hle] at dm
  have hm' := sampled_eq hm dm
  obtain ⟨r, -⟩ := PSS.degRed_view (n := 4 * 2 ^ b) hg dbg (by rw [hle]) hN hN64 (by omega) le_rfl hsh t sid rng
  have r' := (r.congr (ps' := fun i : Fin (4 * 2 ^ b) => pp.degRed dbg (4 * 2 ^ b) i (sh i) (masks i) sid rng)
    (fun i => by rw [hm' i i.2]) (fun _ => rfl) fun _ => rfl).alwaysYields fun i => PSS.degRed_wf _ (by positivity) _ _ _ _ _
  exact congrArg Prod.snd (congrFun (AlwaysYields.unique hr r') ⟨0, by positivity⟩)

theorem SharedVec.mulVec {pp : PSS F} {d e N : Nat} {x y sx sy : Nat → List F} (hx : pp.SharedVec d N x sx) (hy : pp.SharedVec e N y sy) :
    pp.SharedVec (d + e - 1) N (fun p => List.zipWith (· * ·) (x p) (y p)) (fun c => List.zipWith (· * ·) (sx c) (sy c)) := by
  refine ⟨fun p hp => by simp [hx.1 p hp, hy.1 p hp], fun c hc => ?_⟩
  have h := Shares.mul (hx.2 c hc) (hy.2 c hc)
  rw [List.zipWith_map_left, List.zipWith_map_right, List.zipWith_self] at h
  refine cast ?_ h
  congr 1
  apply List.map_congr_left
  intro p hp
  have hp := List.mem_range.1 hp
  rw [getD_zipWith _ _ _ _ 0 0 _ (by rw [hx.1 p hp]; exact hc) (by rw [hy.1 p hp]; exact hc), smul_eq_mul]

/-- What the division finds, for any column of values `f · h + m`. -/
theorem learnFactor_eq {dbg₀ : Bool} {b : Nat} {pp : PSS F} (hpp : PSS.new dbg₀ (2 ^ b) = .ok pp)
    (hgen : (FftField.GENERATOR : F) ^ (4 * 2 ^ b) ≠ 1) (P : Fin (2 ^ b) → Nat) (hinj : Function.Injective P) (hlt : ∀ i, P i < 4 * 2 ^ b)
    {N : Nat} (hN64 : N < 2 ^ 64) {x y : List F} {sx sy sm v : Nat → List F} {secM : Nat → List F}
    (hsx : Spec.SharedVec pp.share.groupGen pp.secret.offset (2 ^ b) (2 * 2 ^ b) N sx (chunks (2 ^ b) fun i => x.getD i 0))
    (hsy : Spec.SharedVec pp.share.groupGen pp.secret.offset (2 ^ b) (2 * 2 ^ b) N sy (chunks (2 ^ b) fun i => y.getD i 0))
    (hsm : Spec.SharedVec pp.share.groupGen pp.secret.offset (2 ^ b) (2 * 2 ^ b) N sm secM)
    (hvl : ∀ p < 4 * 2 ^ b, (v p).length = N)
    (hv : ∀ p < 4 * 2 ^ b, ∀ c < N, (v p).getD c 0 = (sx p).getD c 0 * (sy p).getD c 0 + (sm p).getD c 0) {c : Nat} (hc : c < N)
    (hfull : ¬ Sharing pp.share.groupGen pp.secret.offset (2 ^ b) (2 * 2 ^ b - 1) ((List.range (4 * 2 ^ b)).map fun p => (sx p).getD c 0)
      (chunks (2 ^ b) (fun i => x.getD i 0) c)) {k : Nat} (hk : k < 2 ^ b) :
    learnFactor pp (2 ^ b) P (gathered (4 * 2 ^ b) v) x (fun i => sx (P i)) (fun i => sy (P i)) c k = y.getD (c * 2 ^ b + k) 0 := by
  have hle := l_eq hpp
  have hg := PSS.good_of_new hpp
  have hl := hg.lpos
  have hb0 : 0 < 2 ^ b := by positivity
  -- the sharing polynomials of the factors and of the mask
  obtain ⟨-, -, f, hf, f1, f2⟩ := sharing_iff_poly.1 (hsx.2 c hc)
  obtain ⟨-, -, h, hh, h1, h2⟩ := sharing_iff_poly.1 (hsy.2 c hc)
  obtain ⟨-, -, m, hmd, m1, -⟩ := sharing_iff_poly.1 (hsm.2 c hc)
  have hlead : f.coeff (2 * 2 ^ b - 1) ≠ 0 := by
    intro h0
    apply hfull
    rw [sharing_iff_poly]
    refine ⟨by simp, chunks_length _ _ _, f, ?_, f1, f2⟩
    rw [degree_lt_iff_coeff_zero] at hf ⊢
    intro n hn
    by_cases hn' : n = 2 * 2 ^ b - 1
    · rw [hn', h0]
    · exact hf n (by omega)
  unfold learnFactor
  rw [dif_pos hb0]
  have hcol : ∀ p < 4 * 2 ^ b, (sentColumn (gathered (4 * 2 ^ b) v) c : List F).getD p 0 =
      f.eval (pp.share.groupGen ^ p) * h.eval (pp.share.groupGen ^ p) + m.eval (pp.share.groupGen ^ p) := by
    intro p hp
    rw [sentColumn_gathered hN64 hvl hp, hv p hp c hc]
    have a1 := f1 p hp
    have a2 := h1 p hp
    have a3 := m1 p hp
    rw [getD_map_range, if_pos hp] at a1 a2 a3
    rw [a1, a2, a3]
  obtain ⟨κ, hκ⟩ := factor_revealed hg hle hf hlead hh hmd hcol
  have hthrough : throughPoints pp (2 ^ b) P (fun k => x.getD (c * 2 ^ b + k) 0) (fun i => (sx (P i)).getD c 0) = f := by
    rw [← throughPoints_eq hg hle (by rwa [offset_eq hpp]) P hinj hlt hf]
    congr 1
    · funext k
      rw [← f2 k k.2, chunks, getD_map_range, if_pos k.2]
    · funext i
      have := f1 (P i) (hlt i)
      rw [getD_map_range, if_pos (hlt i)] at this
      exact this
  dsimp only
  rw [hthrough, hκ, eval_add, eval_add, eval_C, eval_C]
  have a1 := h1 (P ⟨0, hb0⟩) (hlt _)
  rw [getD_map_range, if_pos (hlt _)] at a1
  have a2 := h2 k hk
  rw [chunks, getD_map_range, if_pos hk] at a2
  rw [a1, a2]
  ring

/-- **C74** Who knows one factor learns the other. There is one function that the king and `l - 1` other servers can compute (`P` are the
`l` servers; the king may be one of them) such that, whenever `deg_red` is run on the products of shares of two vectors `x` and `y`, with
masks sampled from any tape and under any schedule, it recovers the secrets of `y` from the king's transcript, from `x`, and from the
shares the `l` servers hold: in every position in which the sharing polynomial of `x` has its full degree. -/
theorem C74_other_factor {dbg₀ : Bool} {b : Nat} {pp : PSS F} (hpp : PSS.new dbg₀ (2 ^ b) = .ok pp)
    (hgen : (FftField.GENERATOR : F) ^ (4 * 2 ^ b) ≠ 1) (P : Fin (2 ^ b) → Nat) (hinj : Function.Injective P) (hlt : ∀ i, P i < 4 * 2 ^ b) :
    ∃ learn : Transcript → List F → (Fin (2 ^ b) → List F) → (Fin (2 ^ b) → List F) → Nat → Nat → F,
      ∀ (dbg : Bool) {N : Nat}, 0 < N → N < 2 ^ 64 → ∀ (x y : List F) (sx sy : Nat → List F),
      Spec.SharedVec pp.share.groupGen pp.secret.offset (2 ^ b) (2 * 2 ^ b) N sx (chunks (2 ^ b) fun i => x.getD i 0) →
      Spec.SharedVec pp.share.groupGen pp.secret.offset (2 ^ b) (2 * 2 ^ b) N sy (chunks (2 ^ b) fun i => y.getD i 0) →
      ∀ (t : VecTape F) (masks : Nat → DegRedMask F),
      DegRedMask.sample pp dbg (1 : F) N t.vals t.rngIn t.rngOut = .ok ((List.range (4 * 2 ^ b)).map masks) →
      ∀ (sid : Sid) (rng : Nat → Nat → F) (outs : Nat → List F) (views : Fin (4 * 2 ^ b) → Transcript),
      AlwaysYields (Net.init fun i : Fin (4 * 2 ^ b) =>
        (pp.degRed dbg (4 * 2 ^ b) i (List.zipWith (· * ·) (sx i) (sy i)) (masks i) sid rng).recorded) (fun i => (outs i, views i)) →
      ∀ c < N, ¬ Sharing pp.share.groupGen pp.secret.offset (2 ^ b) (2 * 2 ^ b - 1) ((List.range (4 * 2 ^ b)).map fun p => (sx p).getD c 0)
        (chunks (2 ^ b) (fun i => x.getD i 0) c) →
      ∀ k < 2 ^ b, learn (views ⟨0, by positivity⟩) x (fun i => sx (P i)) (fun i => sy (P i)) c k = y.getD (c * 2 ^ b + k) 0 := by
  have hle := l_eq hpp
  have hg := PSS.good_of_new hpp
  have hl := hg.lpos
  refine ⟨learnFactor pp (2 ^ b) P, fun dbg N hN hN64 x y sx sy hsx hsy t masks hm sid rng outs views hr c hc hfull k hk => ?_⟩
  have hin : pp.SharedVec (2 * pp.l) N (fun p => (pp.degDealt N t p).inMask) (chunks pp.l t.vals) :=
    PSS.freshVec_shared hg (fun c _ => chunks_length _ _ _) _
  -- what the king is sent
  have hprod : pp.SharedVec (4 * pp.l - 1) N (fun p => List.zipWith (· * ·) (sx p) (sy p))
      (fun c => List.zipWith (· * ·) (chunks (2 ^ b) (fun i => x.getD i 0) c) (chunks (2 ^ b) (fun i => y.getD i 0) c)) := by
    rw [← hle] at hsx hsy ⊢
    have := SharedVec.mulVec hsx hsy
    rwa [show 2 * pp.l + 2 * pp.l - 1 = 4 * pp.l - 1 by omega] at this
  rw [degRed_king_view hpp dbg hN hN64 hprod hm hr]
  unfold PSS.SharedVec at hin
  rw [hle] at hin
  have hlen : ∀ p < 4 * 2 ^ b, (sx p).length = N ∧ (sy p).length = N ∧ (pp.degDealt N t p).inMask.length = N :=
    fun p hp => ⟨hsx.1 p hp, hsy.1 p hp, hin.1 p hp⟩
  refine learnFactor_eq hpp hgen P hinj hlt hN64 hsx hsy hin (fun p hp => ?_) (fun p hp c hc => ?_) hc hfull hk
  · obtain ⟨l1, l2, l3⟩ := hlen p hp
    simp [addMask, l1, l2, l3]
  · obtain ⟨l1, l2, l3⟩ := hlen p hp
    unfold addMask
    rw [getD_zipWith _ _ _ _ 0 0 _ (by simp [l1, l2, hc]) (by omega), getD_zipWith _ _ _ _ 0 0 _ (by omega) (by omega)]

/-- **C74** Almost all packings have full degree: of the random tapes of `pack`, at most one in `|F|` gives a sharing polynomial of lower
degree. -/
theorem C74_full_degree [Finite F] {dbg₀ : Bool} {b : Nat} {pp : PSS F} (hpp : PSS.new dbg₀ (2 ^ b) = .ok pp) (dbg : Bool) (secrets : List F)
    (hs : secrets.length = 2 ^ b) :
    Nat.card F * Nat.card {τ : Fin (2 ^ b) → F // ∃ shares, pp.pack dbg secrets (ext τ) = .ok shares ∧
      Sharing pp.share.groupGen pp.secret.offset (2 ^ b) (2 * 2 ^ b - 1) shares secrets} ≤ Nat.card (Fin (2 ^ b) → F) := by
  have hle := l_eq hpp
  have hg := PSS.good_of_new hpp
  have hl := hg.lpos
  have hb0 : 0 < 2 ^ b := by positivity
  let z : Fin (2 ^ b) := ⟨0, hb0⟩
  -- the sharing polynomial of a packing
  have key : ∀ τ : Fin (2 ^ b) → F, (∃ shares, pp.pack dbg secrets (ext τ) = .ok shares ∧
      Sharing pp.share.groupGen pp.secret.offset (2 ^ b) (2 * 2 ^ b - 1) shares secrets) →
      ∃ p : F[X], p.degree < (2 * 2 ^ b - 1 : Nat) ∧ (∀ k < 2 ^ b, p.eval (pp.secret.element k) = secrets.getD k 0) ∧
        ∀ i : Fin (2 ^ b), p.eval (pp.secret.element (2 ^ b + i)) = τ i := by
    rintro τ ⟨shares, e, hsh⟩
    obtain ⟨-, -, p, hp, h1, h2⟩ := sharing_iff_poly.1 hsh
    rw [PSS.pack_eq hg dbg (by rw [hs, hle])] at e
    have e := Except.ok.inj e
    have hq : toPoly (pp.packCoeffs secrets (ext τ)) = p := by
      apply eq_of_degrees_lt_of_eval_index_eq (s := Finset.range (4 * pp.l))
        (v := fun i => pp.share.groupGen ^ i) (share_points_injOn hg)
      · rw [Finset.card_range]
        refine lt_of_lt_of_le (toPoly_degree_lt _) ?_
        rw [PSS.packCoeffs, Domain.ifft_length, hg.secret_size]
        exact_mod_cast (by omega : 2 * pp.l ≤ 4 * pp.l)
      · rw [Finset.card_range]
        refine lt_trans hp ?_
        exact_mod_cast (by omega : 2 * 2 ^ b - 1 < 4 * pp.l)
      · intro i hi
        have hi := Finset.mem_range.1 hi
        rw [← h1 i (by omega), ← e, PSS.fft_share hg (d := 2 * pp.l) (by simp [PSS.packCoeffs, hg.secret_size]) (by omega) hi, toPoly_eval,
          PSS.packCoeffs, Domain.ifft_length, hg.secret_size]
        rfl
    refine ⟨p, hp, fun k hk => by rw [h2 k hk, ← hg.secret_element], fun i => ?_⟩
    have := Domain.eval_ifft hg.secret_wf (secrets ++ (List.range pp.t).map (ext τ)) (i := 2 ^ b + i) (by rw [hg.secret_size]; omega)
    rw [getD_append', if_neg (by omega), hs, Nat.add_sub_cancel_left, getD_map_range, if_pos (by rw [hg.t_eq]; omega), ext_fin _ i.2] at this
    rw [← this, ← hq, toPoly_eval, PSS.packCoeffs, Domain.ifft_length]
    rfl
  have hnode : Set.InjOn pp.secret.element (Finset.range (2 * pp.l)) := by
    intro i hi j hj h
    have hi := Finset.mem_range.1 hi
    have hj := Finset.mem_range.1 hj
    unfold Domain.element at h
    exact hg.secret_wf.prim.pow_inj (by rw [hg.secret_size]; exact hi) (by rw [hg.secret_size]; exact hj)
      (mul_left_cancel₀ hg.secret_wf.offne h)
  -- two such tapes that differ in the first value only are equal
  have uniq : ∀ τ τ' : Fin (2 ^ b) → F,
      (∃ shares, pp.pack dbg secrets (Spec.ext τ) = .ok shares ∧
        Spec.Sharing pp.share.groupGen pp.secret.offset (2 ^ b) (2 * 2 ^ b - 1) shares secrets) →
      (∃ shares, pp.pack dbg secrets (Spec.ext τ') = .ok shares ∧
        Spec.Sharing pp.share.groupGen pp.secret.offset (2 ^ b) (2 * 2 ^ b - 1) shares secrets) →
      (∀ i, i ≠ z → τ i = τ' i) → τ = τ' := by
    intro τ τ' h h' hag
    obtain ⟨p, hp, p1, p2⟩ := key τ h
    obtain ⟨p', hp', p1', p2'⟩ := key τ' h'
    have hpp' : p = p' := by
      refine eq_of_degrees_lt_of_eval_index_eq (s := (Finset.range (2 * pp.l)).erase (2 ^ b)) (v := pp.secret.element)
        (hnode.mono (by exact_mod_cast Finset.erase_subset _ _)) ?_ ?_ ?_
      · rwa [Finset.card_erase_of_mem (Finset.mem_range.2 (by omega)), Finset.card_range, hle]
      · rwa [Finset.card_erase_of_mem (Finset.mem_range.2 (by omega)), Finset.card_range, hle]
      · intro i hi
        obtain ⟨hi0, hi⟩ := Finset.mem_erase.1 hi
        have hi := Finset.mem_range.1 hi
        by_cases hil : i < 2 ^ b
        · rw [p1 i hil, p1' i hil]
        · obtain ⟨j, rfl⟩ : ∃ j, i = 2 ^ b + j := ⟨i - 2 ^ b, by omega⟩
          have hj : j < 2 ^ b := by omega
          rw [p2 ⟨j, hj⟩, p2' ⟨j, hj⟩]
          exact hag _ fun e => hi0 (by have := congrArg Fin.val e; simp only [z] at this; omega)
    funext i
    rw [← p2 i, ← p2' i, hpp']
  rw [← Nat.card_prod]
  refine Nat.card_le_card_of_injective (fun q => Function.update q.2.1 z (q.2.1 z + q.1)) ?_
  rintro ⟨a, τ, h⟩ ⟨a', τ', h'⟩ e
  dsimp only at e
  obtain rfl : τ = τ' := uniq τ τ' h h' fun i hi => by
    have := congrFun e i
    rwa [Function.update_of_ne hi, Function.update_of_ne hi] at this
  have := congrFun e z
  rw [Function.update_self, Function.update_self] at this
  rw [add_left_cancel this]

/-- The king and party 3, who know that `X^3` shares `[10, 6]`, learn the other factor `[y₀, y₁]` whatever it is and whatever the
randomness. -/
example : ∃ learn : Transcript → List (ZMod 17) → (Fin (2 ^ 1) → List (ZMod 17)) → (Fin (2 ^ 1) → List (ZMod 17)) → Nat → Nat → ZMod 17,
    ∀ (y₀ y₁ : ZMod 17) (ρ : Nat → Nat → ZMod 17) (t : VecTape (ZMod 17)), ∃ (sy : Nat → List (ZMod 17)) (masks : Nat → DegRedMask (ZMod 17))
      (outs : Nat → List (ZMod 17)) (views : Fin (4 * 2 ^ 1) → Transcript), HoldsChunks pp17 1 sy [y₀, y₁] ∧
      pp17.packFromWitness true [y₀, y₁] ρ = .ok ((List.range (4 * 2 ^ 1)).map sy) ∧
      DegRedMask.sample pp17 true (1 : ZMod 17) 1 t.vals t.rngIn t.rngOut = .ok ((List.range (4 * 2 ^ 1)).map masks) ∧
      AlwaysYields (Net.init fun i : Fin (4 * 2 ^ 1) =>
        (pp17.degRed true (4 * 2 ^ 1) i (List.zipWith (· * ·) [9 ^ (3 * i.val)] (sy i)) (masks i) .zero fun i j => i + j).recorded)
        (fun i => (outs i, views i)) ∧
      learn (views 0) [10, 6] (fun i => [9 ^ (3 * king17 i)]) (fun i => sy (king17 i)) 0 0 = y₀ ∧
      learn (views 0) [10, 6] (fun i => [9 ^ (3 * king17 i)]) (fun i => sy (king17 i)) 0 1 = y₁ := by
  obtain ⟨learn, hlearn⟩ := C74_other_factor (pp17_eq true) gen17 king17 king17_inj king17_lt
  refine ⟨learn, fun y₀ y₁ ρ t => ?_⟩
  obtain ⟨sy, hpk, hy⟩ := packFromWitness_holds (b := 1) (pp17_eq true) true ([y₀, y₁] : List (ZMod 17)) ρ
  have hprod := SharedVec.mulVec (pp := pp17) cubic17 hy
  obtain ⟨sh', -, -, δ, hδ⟩ := C61_deg_red_secrets (pp17_eq true) gen17 true one_pos (by norm_num) king17 king17_inj king17_lt hprod
    (sec' := fun _ => [0, 1]) fun _ _ => rfl
  obtain ⟨masks, masks', hm, -, -, hr⟩ := hδ t
  obtain ⟨outs, outs', views, h1, -, -⟩ := hr .zero fun i j => i + j
  have hfull : ¬ Spec.Sharing pp17.share.groupGen pp17.secret.offset (2 ^ 1) (2 * 2 ^ 1 - 1)
      ((List.range (4 * 2 ^ 1)).map fun p => ([(9 : ZMod 17) ^ (3 * p)] : List (ZMod 17)).getD 0 0)
      (chunks (2 ^ 1) (fun i => ([10, 6] : List (ZMod 17)).getD i 0) 0) := by
    intro h
    have hg := PSS.good_of_new (pp17_eq true)
    obtain ⟨-, -, p, hp, p1, -⟩ := sharing_iff_poly.1 h
    have : p = X ^ 3 := by
      apply eq_of_degrees_lt_of_eval_index_eq (s := Finset.range (4 * pp17.l)) (v := fun i => pp17.share.groupGen ^ i) (share_points_injOn hg)
      · rw [Finset.card_range]
        exact lt_trans hp (by norm_cast)
      · rw [Finset.card_range, degree_X_pow]
        norm_cast
      · intro i hi
        have hi : i < 4 * 2 ^ 1 := Finset.mem_range.1 hi
        rw [← p1 i hi, eval_pow, eval_X, getD_map_range, if_pos hi]
        have : pp17.share.groupGen = 9 := by decide +kernel
        rw [this, ← pow_mul, mul_comm]
        rfl
    rw [this, degree_X_pow] at hp
    exact absurd hp (by norm_cast)
  have hy' : Spec.SharedVec pp17.share.groupGen pp17.secret.offset (2 ^ 1) (2 * 2 ^ 1) 1 sy (chunks (2 ^ 1) fun i => [y₀, y₁].getD i 0) := by
    unfold HoldsChunks at hy
    simpa using hy
  have hl := hlearn true (N := 1) one_pos (by norm_num) [10, 6] [y₀, y₁] _ sy cubic17 hy' t masks hm .zero (fun i j => i + j) outs views h1 0 one_pos hfull
  exact ⟨sy, masks, outs, views, hy, hpk, hm, h1, hl 0 (by norm_num), hl 1 (by norm_num)⟩

/-- At most 17 of the 289 tapes share `[10, 6]` by a polynomial of degree below 3. -/
example : 17 * Nat.card {τ : Fin (2 ^ 1) → ZMod 17 // ∃ shares, pp17.pack true [10, 6] (ext τ) = .ok shares ∧
    Sharing pp17.share.groupGen pp17.secret.offset (2 ^ 1) (2 * 2 ^ 1 - 1) shares [10, 6]} ≤ Nat.card (Fin (2 ^ 1) → ZMod 17) := by
  have h := C74_full_degree (pp17_eq true) true ([10, 6] : List (ZMod 17)) rfl
  rwa [Nat.card_zmod] at h

end ZkSaas.Properties
