import Verif.Model.Qap
import Verif.Spec.R1cs
import Verif.Lemmas.Opened

/-! `qap`, `QAP::pss`. -/

set_option linter.unusedSectionVars false

namespace ZkSaas

open Finset Spec

variable {F : Type} [Field F] [DecidableEq F]

theorem evaluateConstraint_aux (terms : List (F × Nat)) (z : List F) (h : ∀ t ∈ terms, t.2 < z.length) (acc : F) :
    terms.foldlM (fun sum t => do
      let v ← rd z t.2
      pure (if t.1 = 1 then sum + v else sum + v * t.1)) acc = (.ok (acc + dot terms z) : Res F) := by
  induction terms generalizing acc with
  | nil => simp [dot]
  | cons t ts ih =>
    rw [List.foldlM_cons, rd_ok (h t (by simp)) 0, ok_bind, pure_ok, ok_bind, ih (fun t ht => h t (by simp [ht]))]
    unfold dot
    simp only [List.map_cons, List.sum_cons]
    congr 1
    split
    · rename_i h1; rw [h1]; ring
    · ring

theorem evaluateConstraint_ok (terms : List (F × Nat)) (z : List F) (h : ∀ t ∈ terms, t.2 < z.length) :
    evaluateConstraint terms z = .ok (dot terms z) := by
  rw [evaluateConstraint, evaluateConstraint_aux terms z h, zero_add]

theorem evaluateConstraint_panic (terms : List (F × Nat)) (z : List F) (h : ∃ t ∈ terms, z.length ≤ t.2) :
    evaluateConstraint terms z = panic' := by
  unfold evaluateConstraint
  generalize (0 : F) = acc
  induction terms generalizing acc with
  | nil => simp at h
  | cons t ts ih =>
    rw [List.foldlM_cons]
    by_cases ht : z.length ≤ t.2
    · rw [rd_panic ht]; rfl
    · rw [rd_ok (by omega) 0, ok_bind, pure_ok, ok_bind]
      apply ih
      obtain ⟨u, hu, hz⟩ := h
      rcases List.mem_cons.1 hu with rfl | hu
      · exact absurd hz ht
      · exact ⟨u, hu, hz⟩

theorem column_ok {T : Type} {rows : List (List T)} {i : Nat} (d : T) (h : ∀ x ∈ rows, i < x.length) :
    column rows i = .ok (rows.map fun x => x.getD i d) :=
  mapM_ok fun x hx => rd_ok (h x hx) d

section
variable {T : Type} [AddCommGroup T] [Module F T] [DecidableEq T]

theorem SharedVec.of_columns {pp : PSS F} {d N : Nat} {rows : List (List T)} {sec : Nat → List T} (hlen : rows.length = N)
    (h : ∀ c < N, pp.Shares d (rows.getD c []) (sec c)) :
    (∀ p < 4 * pp.l, column rows p = .ok (rows.map fun x => x.getD p 0)) ∧
      pp.SharedVec d N (fun p => rows.map fun x => x.getD p 0) sec := by
  refine ⟨fun p hp => column_ok 0 fun x hx => ?_, fun p hp => by simp [hlen], fun c hc => ?_⟩
  · obtain ⟨c, hc, rfl⟩ := List.getElem_of_mem hx
    have := (h c (by omega)).1
    rw [List.getD_eq_getElem _ _ hc] at this
    omega
  · refine cast ?_ (h c hc)
    congr 1
    rw [list_eq_map_range (rows.getD c []) 0, (h c hc).1]
    apply List.map_congr_left
    intro p _
    rw [getD_map_of_lt _ _ _ [] _ (by omega)]

end

/-- Packing a QAP vector leaves party `p` with column `p`, in the input layout of the transforms. -/
theorem PSS.packQapVec_shares {pp : PSS F} (hg : pp.Good) (dbg : Bool) {a b : Nat} (hlb : pp.l = 2 ^ b) (v : List F)
    (hv : v.length = 2 ^ (a + b)) (rng : Nat → Nat → F) :
    ∃ rows, pp.packQapVec dbg v rng = .ok rows ∧
      (∀ p < 4 * pp.l, column rows p = .ok (rows.map fun x => x.getD p 0)) ∧
      pp.SharedVec (2 * pp.l) (2 ^ a) (fun p => rows.map fun x => x.getD p 0) (packed true a b fun i => v.getD i 0) := by
  unfold PSS.packQapVec
  rw [fftInPlaceRearrange_eq (a + b) _ 0 hv, ok_bind]
  obtain ⟨rows, e, hl, h⟩ := PSS.packStrided_shares hg dbg (N := 2 ^ a)
    (v := (List.range (2 ^ (a + b))).map fun i => v.getD (bitRev (a + b) i) 0)
    (by rw [List.length_map, List.length_range, hlb, pow_add]) rng
  obtain ⟨h1, h2⟩ := SharedVec.of_columns hl h
  refine ⟨rows, e, h1, SharedVec.congr h2 (fun _ _ => rfl) fun c hc => ?_⟩
  unfold strided packed
  rw [hlb]
  apply List.map_congr_left
  intro j hj
  have hj := List.mem_range.1 hj
  rw [getD_map_range, if_pos (stride_lt hc hj), slot, if_pos rfl]

theorem QAP.pss_ok {pp : PSS F} (hg : pp.Good) (dbg : Bool) {a b : Nat} (hlb : pp.l = 2 ^ b) (q : QAP F)
    (ha : q.a.length = 2 ^ (a + b)) (hb : q.b.length = 2 ^ (a + b)) (hc : q.c.length = 2 ^ (a + b))
    (rngA rngB rngC : Nat → Nat → F) :
    ∃ sa sb sc : Nat → List F,
      q.pss pp dbg rngA rngB rngC = .ok ((List.range (4 * pp.l)).map fun p =>
        ⟨q.numInputs, q.numConstraints, sa p, sb p, sc p, q.domain⟩) ∧
      pp.SharedVec (2 * pp.l) (2 ^ a) sa (packed true a b fun i => q.a.getD i 0) ∧
      pp.SharedVec (2 * pp.l) (2 ^ a) sb (packed true a b fun i => q.b.getD i 0) ∧
      pp.SharedVec (2 * pp.l) (2 ^ a) sc (packed true a b fun i => q.c.getD i 0) := by
  obtain ⟨ra, ea, ca, ha⟩ := PSS.packQapVec_shares hg dbg hlb q.a ha rngA
  obtain ⟨rb, eb, cb, hb⟩ := PSS.packQapVec_shares hg dbg hlb q.b hb rngB
  obtain ⟨rc, ec, cc, hc⟩ := PSS.packQapVec_shares hg dbg hlb q.c hc rngC
  refine ⟨_, _, _, ?_, ha, hb, hc⟩
  unfold QAP.pss
  rw [ea, ok_bind, eb, ok_bind, ec, ok_bind, hg.n_eq]
  refine mapM_ok fun p hp => ?_
  have hp := List.mem_range.1 hp
  rw [ca p hp, ok_bind, cb p hp, ok_bind, cc p hp, ok_bind]
  rfl

/-- What `qap` returns. -/
theorem qap_ok [FftField F] (mats : ConstraintMatrices F) (z : List F) {dom : Domain F}
    (hdom : Domain.new (mats.numConstraints + mats.numInstanceVariables) = some dom)
    (hA : mats.a.length = mats.numConstraints) (hB : mats.b.length = mats.numConstraints)
    (hcA : ColumnsBelow z.length mats.a) (hcB : ColumnsBelow z.length mats.b) (hz : mats.numInstanceVariables ≤ z.length) :
    ∃ a b c, qap mats z = .ok (some ⟨mats.numInstanceVariables, mats.numConstraints, a, b, c, dom⟩) ∧
      a = (List.range dom.size).map (fun i => if i < mats.numConstraints then dot (mats.a.getD i []) z
        else if i < mats.numConstraints + mats.numInstanceVariables then z.getD (i - mats.numConstraints) 0 else 0) ∧
      b = (List.range dom.size).map (fun i => if i < mats.numConstraints then dot (mats.b.getD i []) z else 0) ∧
      c = (List.range dom.size).map (fun i => if i < mats.numConstraints then
        dot (mats.a.getD i []) z * dot (mats.b.getD i []) z else 0) := by
  set nc := mats.numConstraints with hnc
  set ni := mats.numInstanceVariables with hni
  have hsz : nc + ni ≤ dom.size := by
    rw [Domain.new] at hdom
    split at hdom
    · cases hdom
    · cases hdom; exact Nat.le_pow_clog (by omega) _
  unfold qap
  dsimp only
  rw [← hnc, ← hni, hdom, hA, hB, min_self, min_self]
  dsimp only
  obtain ⟨⟨a1, b1⟩, e1, ha1, hb1⟩ := forUp_inv (n := nc)
    (body := fun i (st : List F × List F) => do
      let at_i ← rd mats.a i
      let bt_i ← rd mats.b i
      let x ← evaluateConstraint at_i z
      let y ← evaluateConstraint bt_i z
      let a ← wr st.1 i x
      let b ← wr st.2 i y
      pure (a, b)) (s := (List.replicate dom.size (0 : F), List.replicate dom.size (0 : F)))
    (fun k st => st.1 = (List.range dom.size).map (fun i => if i < k then dot (mats.a.getD i []) z else 0) ∧
      st.2 = (List.range dom.size).map (fun i => if i < k then dot (mats.b.getD i []) z else 0))
    (by simp)
    (by
      rintro k hk ⟨a, b⟩ ⟨rfl, rfl⟩
      have hm : ∀ M : List (List (F × Nat)), M.length = nc → ColumnsBelow z.length M →
          rd M k = .ok (M.getD k []) ∧ evaluateConstraint (M.getD k []) z = .ok (dot (M.getD k []) z) := by
        intro M hM hc
        refine ⟨rd_ok (by omega) [], evaluateConstraint_ok _ _ fun t ht => hc (M.getD k []) ?_ t ht⟩
        rw [List.getD_eq_getElem _ _ (by omega)]
        exact List.getElem_mem _
      obtain ⟨r1, r2⟩ := hm mats.a hA hcA
      obtain ⟨r3, r4⟩ := hm mats.b hB hcB
      rw [r1, ok_bind, r3, ok_bind, r2, ok_bind, r4, ok_bind, wr_ok (by simp; omega), ok_bind, wr_ok (by simp; omega), ok_bind]
      refine ⟨_, rfl, ?_, ?_⟩
      all_goals
        dsimp only
        apply list_ext_getD 0 (by simp)
        intro i hi
        simp only [List.length_set, List.length_map, List.length_range] at hi
        rw [getD_set, getD_map_range, getD_map_range, if_pos hi, if_pos hi]
        simp only [List.length_map, List.length_range]
        by_cases h1 : i = k
        · subst h1; simp [hi]
        · rw [if_neg (by rintro ⟨h, -⟩; exact h1 h.symm)]
          by_cases h2 : i < k
          · rw [if_pos h2, if_pos (by omega)]
          · rw [if_neg h2, if_neg (by omega)])
  rw [e1, ok_bind]
  dsimp only at ha1 hb1 ⊢
  subst ha1 hb1
  obtain ⟨a2, e2, ha2⟩ := forUp_inv (n := ni)
    (body := fun j (a : List F) => do
      let x ← rd z j
      wr a (nc + j) x)
    (s := (List.range dom.size).map (fun i => if i < nc then dot (mats.a.getD i []) z else 0))
    (fun k st => st = (List.range dom.size).map (fun i => if i < nc then dot (mats.a.getD i []) z
        else if i < nc + k then z.getD (i - nc) 0 else 0))
    (by
      apply List.map_congr_left
      intro i _
      by_cases h : i < nc
      · rw [if_pos h, if_pos h]
      · rw [if_neg h, if_neg h, if_neg (by omega)])
    (by
      rintro k hk a rfl
      rw [rd_ok (by omega) 0, ok_bind, wr_ok (by simp; omega)]
      refine ⟨_, rfl, ?_⟩
      apply list_ext_getD 0 (by simp)
      intro i hi
      simp only [List.length_set, List.length_map, List.length_range] at hi
      rw [getD_set, getD_map_range, getD_map_range, if_pos hi, if_pos hi]
      simp only [List.length_map, List.length_range]
      by_cases h1 : i = nc + k
      · subst h1; simp [hi]
      · rw [if_neg (by rintro ⟨h, -⟩; exact h1 h.symm)]
        by_cases h2 : i < nc
        · rw [if_pos h2, if_pos h2]
        · rw [if_neg h2, if_neg h2]
          by_cases h3 : i < nc + k
          · rw [if_pos h3, if_pos (by omega)]
          · rw [if_neg h3, if_neg (by omega)])
  rw [e2, ok_bind]
  subst ha2
  obtain ⟨c2, e3, hc2⟩ := forUp_inv (n := nc)
    (body := fun i (c : List F) => do
      let x ← rd ((List.range dom.size).map (fun i => if i < nc then dot (mats.a.getD i []) z
        else if i < nc + ni then z.getD (i - nc) 0 else 0)) i
      let y ← rd ((List.range dom.size).map (fun i => if i < nc then dot (mats.b.getD i []) z else 0)) i
      wr c i (x * y))
    (s := List.replicate dom.size (0 : F))
    (fun k st => st = (List.range dom.size).map (fun i => if i < k then
        dot (mats.a.getD i []) z * dot (mats.b.getD i []) z else 0))
    (by simp)
    (by
      rintro k hk c rfl
      rw [rd_ok (by simp; omega) 0, ok_bind, rd_ok (by simp; omega) 0, ok_bind, wr_ok (by simp; omega)]
      simp only [getD_map_range, if_pos hk, if_pos (show k < dom.size by omega)]
      refine ⟨_, rfl, ?_⟩
      apply list_ext_getD 0 (by simp)
      intro i hi
      simp only [List.length_set, List.length_map, List.length_range] at hi
      rw [getD_set, getD_map_range, getD_map_range, if_pos hi, if_pos hi]
      simp only [List.length_map, List.length_range]
      by_cases h1 : i = k
      · subst h1; simp [hi]
      · rw [if_neg (by rintro ⟨h, -⟩; exact h1 h.symm)]
        by_cases h2 : i < k
        · rw [if_pos h2, if_pos (by omega)]
        · rw [if_neg h2, if_neg (by omega)])
  rw [e3, ok_bind]
  exact ⟨_, _, _, rfl, rfl, rfl, hc2⟩

end ZkSaas
