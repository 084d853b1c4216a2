import Verif.Model.Prove
import Verif.Lemmas.Qap
import Verif.Lemmas.ExtWit

/-! Packing of keys and witnesses, sharings of one value, the local parts of the prover. -/

set_option linter.unusedSectionVars false

namespace ZkSaas

open Finset Spec

variable {F : Type} [Field F] [DecidableEq F]

section chunks
variable {T : Type} [AddCommGroup T] [Module F T] [DecidableEq T]

theorem resize_chunk (v : List T) (l c : Nat) : resize (chunk v l c) l 0 = chunks l (fun i => v.getD i 0) c := by
  apply list_ext_getD 0 (by simp [chunks])
  intro i hi
  simp at hi
  rw [getD_resize, if_pos hi, chunk, chunk_getD _ _ _ _ _ hi, chunks, getD_map_range, if_pos hi]

theorem numChunks_mul (v : List T) {l : Nat} (hl : 0 < l) : v.length ≤ numChunks v l * l := by
  unfold numChunks
  have h1 := Nat.div_add_mod (v.length + l - 1) l
  have h2 := Nat.mod_lt (v.length + l - 1) hl
  rw [Nat.mul_comm] at h1
  omega

theorem numChunks_lt {v : List T} {l c : Nat} (hl : 0 < l) (hc : c < numChunks v l) : c * l < v.length := by
  unfold numChunks at hc
  have := (Nat.lt_div_iff_mul_lt hl).1 hc
  have h3 : l * c = c * l := Nat.mul_comm _ _
  omega

theorem chunk_length_of_dvd {v : List T} {l c : Nat} (hl : 0 < l) (hd : l ∣ v.length) (hc : c < numChunks v l) :
    (chunk v l c).length = l := by
  obtain ⟨N, hN⟩ := hd
  rw [Nat.mul_comm] at hN
  rw [numChunks_eq hl hN] at hc
  exact chunk_length hN hc

theorem numChunks_congr {T' : Type} {v : List T} {w : List T'} {l : Nat} (h : v.length = w.length) :
    numChunks v l = numChunks w l := by unfold numChunks; rw [h]

/-- Deterministic packing of a vector in consecutive chunks. -/
theorem PSS.detPackChunks_shares {pp : PSS F} (hg : pp.Good) (dbg : Bool) (v : List T) (hd : dbg = true → pp.l ∣ v.length) :
    ∃ rows, pp.detPackChunks dbg v = .ok rows ∧
      (∀ p < 4 * pp.l, column rows p = .ok (rows.map fun x => x.getD p 0)) ∧
      pp.SharedVec (2 * pp.l) (numChunks v pp.l) (fun p => rows.map fun x => x.getD p 0) (chunks pp.l fun i => v.getD i 0) := by
  have hl := hg.lpos
  unfold PSS.detPackChunks
  rw [assert_of (by simp; omega), ok_bind]
  obtain ⟨rows, e, hlen, h⟩ := mapM_exists (xs := List.range (numChunks v pp.l))
    (f := fun c => pp.detPack dbg (chunk v pp.l c))
    (R := fun c shares => pp.Shares (2 * pp.l) shares (chunks pp.l (fun i => v.getD i 0) c))
    (fun c hc => by
      have hc := List.mem_range.1 hc
      obtain ⟨sh, e, h⟩ := PSS.detPack_shares hg dbg (secrets := chunk v pp.l c)
        (fun hdb => chunk_length_of_dvd hl (hd hdb) hc)
      rw [resize_chunk] at h
      exact ⟨sh, e, h⟩)
  obtain ⟨h1, h2⟩ := SharedVec.of_columns (by simpa using hlen) fun c hc => by
    have := h c (by simpa using hc)
    rw [List.getElem_range] at this
    exact this
  exact ⟨rows, e, h1, h2⟩

theorem PSS.detPackChunks_panic {pp : PSS F} (hl : 0 < pp.l) (v : List T) (hd : ¬ pp.l ∣ v.length) :
    pp.detPackChunks true v = panic' := by
  unfold PSS.detPackChunks
  rw [assert_of (by simp; omega), ok_bind]
  have h0 := numChunks_mul v hl
  have hpos : 0 < numChunks v pp.l := by
    by_contra h
    rw [show numChunks v pp.l = 0 by omega] at h0
    exact hd ⟨0, by omega⟩
  refine mapM_panic (x := numChunks v pp.l - 1) (List.mem_range.2 (by omega)) ?_ fun c _ => ?_
  · have : (chunk v pp.l (numChunks v pp.l - 1)).length ≠ pp.l := by
      intro h
      rw [chunk, List.length_take, List.length_drop] at h
      have h1 := numChunks_lt hl (show numChunks v pp.l - 1 < numChunks v pp.l by omega)
      have h2 : numChunks v pp.l * pp.l = (numChunks v pp.l - 1) * pp.l + pp.l := by
        rw [← Nat.succ_mul]; congr 1; omega
      exact hd ⟨numChunks v pp.l, by rw [Nat.mul_comm]; omega⟩
    unfold PSS.detPack
    rw [show debugAssert true ((chunk v pp.l (numChunks v pp.l - 1)).length == pp.l) = panic' by simp [debugAssert, this]]
    rfl
  · by_cases h : (chunk v pp.l c).length = pp.l
    · exact .inr ⟨_, PSS.detPack_eq true fun _ => h⟩
    · left
      unfold PSS.detPack
      rw [show debugAssert true ((chunk v pp.l c).length == pp.l) = panic' by simp [debugAssert, h]]
      rfl

/-- The inner product of two vectors cut into chunks. -/
theorem sum_chunks {l N : Nat} (x : Nat → F) (y : Nat → T) :
    ∑ k ∈ range l, ∑ c ∈ range N, (chunks l x c).getD k 0 • (chunks l y c).getD k 0 = ∑ i ∈ range (N * l), x i • y i := by
  rw [sum_comm]
  have : ∀ N, ∑ i ∈ range (N * l), x i • y i = ∑ c ∈ range N, ∑ k ∈ range l, x (c * l + k) • y (c * l + k) := by
    intro N
    induction N with
    | zero => simp
    | succ N ih => rw [Nat.add_mul, Nat.one_mul, sum_range_add, ih, sum_range_succ]
  rw [this]
  apply sum_congr rfl
  intro c _
  apply sum_congr rfl
  intro k hk
  have hk := mem_range.1 hk
  unfold chunks
  rw [getD_map_range, if_pos hk, getD_map_range, if_pos hk]

theorem sum_padded {k N : Nat} (x : Nat → F) (y : List T) (hy : y.length = k) (hN : k ≤ N) :
    ∑ i ∈ range N, x i • y.getD i 0 = ∑ i ∈ range k, x i • y.getD i 0 := by
  symm
  apply sum_subset
  · intro i hi
    exact mem_range.2 (lt_of_lt_of_le (mem_range.1 hi) hN)
  · intro i _ hi
    have hi : k ≤ i := by by_contra h; exact hi (mem_range.2 (by omega))
    rw [List.getD_eq_getElem?_getD, List.getElem?_eq_none (by omega), Option.getD_none, smul_zero]

end chunks

/-- `pack_from_witness`. -/
theorem PSS.packFromWitness_shares {pp : PSS F} (hg : pp.Good) (dbg : Bool) (v : List F) (rng : Nat → Nat → F) :
    ∃ sh : Nat → List F, pp.packFromWitness dbg v rng = .ok ((List.range (4 * pp.l)).map sh) ∧
      pp.SharedVec (2 * pp.l) (numChunks v pp.l) sh (chunks pp.l fun i => v.getD i 0) := by
  have hl := hg.lpos
  unfold PSS.packFromWitness
  rw [assert_of (by simp; omega), ok_bind]
  obtain ⟨rows, e, hlen, h⟩ := mapM_exists (xs := List.range (numChunks v pp.l))
    (f := fun c =>
      let ch := chunk v pp.l c
      let secrets := if ch.length < pp.l then resize ch pp.l 0 else ch
      pp.pack dbg secrets (rng c))
    (R := fun c shares => pp.Shares (2 * pp.l) shares (chunks pp.l (fun i => v.getD i 0) c))
    (fun c _ => by
      have : (if (chunk v pp.l c).length < pp.l then resize (chunk v pp.l c) pp.l 0 else chunk v pp.l c) =
          chunks pp.l (fun i => v.getD i 0) c := by
        split
        · exact resize_chunk _ _ _
        · rename_i hlt
          have h1 : (chunk v pp.l c).length = pp.l := by
            have : (chunk v pp.l c).length ≤ pp.l := by rw [chunk, List.length_take]; omega
            omega
          rw [← resize_chunk, resize_eq_of_length 0 h1]
      dsimp only
      rw [this]
      exact PSS.pack_shares hg dbg (by simp [chunks]) (rng c))
  obtain ⟨h1, h2⟩ := SharedVec.of_columns (by simpa using hlen) fun c hc => by
    have := h c (by simpa using hc)
    rw [List.getElem_range] at this
    exact this
  refine ⟨_, ?_, h2⟩
  rw [e, ok_bind, hg.n_eq]
  exact mapM_ok fun p hp => h1 p (List.mem_range.1 hp)

/-! ### Sharings of one value -/

section value
variable {T : Type} [AddCommGroup T] [Module F T] [DecidableEq T]

/-- The parties hold a sharing of `l` copies of `v`. -/
abbrev PSS.SharedValue (pp : PSS F) (d : Nat) (out : Nat → T) (v : T) : Prop :=
  Spec.SharedValue pp.share.groupGen pp.secret.offset pp.l d out v

theorem map_range_const {α : Type} (n : Nat) (v : α) : (List.range n).map (fun _ => v) = List.replicate n v := by
  simp

theorem SharedValue.const {pp : PSS F} {d : Nat} (hd : 0 < d) (v : T) : pp.SharedValue d (fun _ => v) v := by
  have := Shares.const (pp := pp) hd v
  rw [PSS.SharedValue, Spec.SharedValue, map_range_const]
  exact this

theorem SharedValue.mono {pp : PSS F} {d d' : Nat} (h : d ≤ d') {x : Nat → T} {v : T} (hx : pp.SharedValue d x v) :
    pp.SharedValue d' x v := Shares.mono h hx

theorem SharedValue.add {pp : PSS F} {d : Nat} {x y : Nat → T} {v w : T} (hx : pp.SharedValue d x v) (hy : pp.SharedValue d y w) :
    pp.SharedValue d (fun p => x p + y p) (v + w) := by
  have := Shares.add hx hy
  rw [List.zipWith_map_left, List.zipWith_map_right, List.zipWith_self] at this
  rw [List.zipWith_replicate, min_self] at this
  exact this

theorem SharedValue.smul {pp : PSS F} {d : Nat} {x : Nat → T} {v : T} (k : F) (hx : pp.SharedValue d x v) :
    pp.SharedValue d (fun p => k • x p) (k • v) := by
  have := Shares.smul k hx
  rw [List.map_map] at this
  rw [List.map_replicate] at this
  exact this

theorem SharedValue.sub {pp : PSS F} {d : Nat} {x y : Nat → T} {v w : T} (hx : pp.SharedValue d x v) (hy : pp.SharedValue d y w) :
    pp.SharedValue d (fun p => x p - y p) (v - w) := by
  have := SharedValue.add hx (SharedValue.smul (-1) hy)
  simp only [neg_smul, one_smul, ← sub_eq_add_neg] at this
  exact this

theorem SharedValue.mul {pp : PSS F} {d1 d2 : Nat} {x : Nat → F} {y : Nat → T} {v : F} {w : T} (hx : pp.SharedValue d1 x v)
    (hy : pp.SharedValue d2 y w) : pp.SharedValue (d1 + d2 - 1) (fun p => x p • y p) (v • w) := by
  have := Shares.mul hx hy
  rw [List.zipWith_map_left, List.zipWith_map_right, List.zipWith_self] at this
  rw [List.zipWith_replicate, min_self] at this
  exact this

theorem SharedValue.mulConst {pp : PSS F} {d : Nat} {x : Nat → F} {v : F} (hx : pp.SharedValue d x v) (w : T) :
    pp.SharedValue d (fun p => x p • w) (v • w) := by
  have := SharedValue.mul hx (SharedValue.const (d := 1) (by omega) w)
  rwa [Nat.add_sub_cancel] at this

end value

end ZkSaas
