import Verif.Lemmas.Frame
import Verif.Lemmas.Robust
import Verif.Model.Example

/-!
# Domains smaller than the packing factor

Local computations fail only by panicking; a domain with fewer points than a packed vector has slots gives empty shares.
-/

set_option linter.unusedSectionVars false

namespace ZkSaas

/-- The computation does not fail otherwise than by a panic. -/
def OnlyPanics {α : Type _} (r : Res α) : Prop := ∀ e, r = .error e → e = .panic

theorem OnlyPanics.ok {α : Type _} (x : α) : OnlyPanics (.ok x : Res α) := fun _ h => by cases h

theorem OnlyPanics.pure {α : Type _} (x : α) : OnlyPanics (Pure.pure x : Res α) := fun _ h => by cases h

theorem OnlyPanics.panic {α : Type _} : OnlyPanics (panic' : Res α) := fun _ h => by cases h; rfl

theorem OnlyPanics.bind {α β : Type} {r : Res α} {f : α → Res β} (h : OnlyPanics r) (hf : ∀ x, OnlyPanics (f x)) :
    OnlyPanics (r >>= f) := by
  rcases r with e | x
  · intro e' h'
    cases h'
    exact h _ rfl
  · exact hf x

theorem OnlyPanics.ite {α : Type _} {c : Prop} [Decidable c] {r s : Res α} (h : OnlyPanics r) (hs : OnlyPanics s) :
    OnlyPanics (if c then r else s) := by
  split <;> assumption

theorem OnlyPanics.assert (b : Bool) : OnlyPanics (assert b) := by
  unfold ZkSaas.assert
  exact .ite (.ok _) .panic

theorem OnlyPanics.debugAssert (dbg b : Bool) : OnlyPanics (debugAssert dbg b) := by
  unfold ZkSaas.debugAssert
  exact .ite .panic (.ok _)

theorem OnlyPanics.rd {α : Type _} (v : List α) (i : Nat) : OnlyPanics (rd v i) := by
  unfold ZkSaas.rd
  split
  · exact .ok _
  · exact .panic

theorem OnlyPanics.wr {α : Type _} (v : List α) (i : Nat) (x : α) : OnlyPanics (wr v i x) := by
  unfold ZkSaas.wr
  exact .ite (.ok _) .panic

theorem OnlyPanics.unwrap {α : Type _} (x : Option α) : OnlyPanics (unwrap x) := by
  cases x
  · exact .panic
  · exact .ok _

theorem OnlyPanics.forUp {σ : Type} {n : Nat} {body : Nat → σ → Res σ} (h : ∀ i s, OnlyPanics (body i s)) (s : σ) :
    OnlyPanics (forUp n body s) := by
  induction n with
  | zero => exact .ok _
  | succ n ih =>
    rw [forUp_succ]
    exact ih.bind fun x => h _ _

theorem OnlyPanics.forDown {σ : Type} {n : Nat} {body : Nat → σ → Res σ} (h : ∀ i s, OnlyPanics (body i s)) (s : σ) :
    OnlyPanics (forDown n body s) := by
  induction n generalizing s with
  | zero => exact .ok _
  | succ n ih =>
    rw [forDown_succ]
    exact (h _ _).bind fun x => ih x

theorem OnlyPanics.mapM {α β : Type} {f : α → Res β} (h : ∀ x, OnlyPanics (f x)) (l : List α) : OnlyPanics (l.mapM f) := by
  induction l with
  | nil => exact .ok _
  | cons x l ih =>
    rw [List.mapM_cons]
    exact (h x).bind fun y => ih.bind fun ys => .pure _

theorem OnlyPanics.foldlM {α β : Type} {f : β → α → Res β} (h : ∀ x y, OnlyPanics (f x y)) (b : β) (l : List α) :
    OnlyPanics (l.foldlM f b) := by
  induction l generalizing b with
  | nil => exact .ok _
  | cons x l ih =>
    rw [List.foldlM_cons]
    exact (h _ _).bind fun y => ih y

/-- Closes a goal `OnlyPanics` on a program written with the operations above. -/
macro "only_panics" : tactic => `(tactic| repeat' first
  | exact OnlyPanics.ok _ | exact OnlyPanics.pure _ | exact OnlyPanics.panic | exact OnlyPanics.assert _
  | exact OnlyPanics.debugAssert _ _ | exact OnlyPanics.rd _ _ | exact OnlyPanics.wr _ _ _ | exact OnlyPanics.unwrap _
  | assumption
  | refine OnlyPanics.bind ?_ ?_ | refine OnlyPanics.ite ?_ ?_ | refine OnlyPanics.forUp ?_ _ | refine OnlyPanics.forDown ?_ _
  | refine OnlyPanics.mapM ?_ _ | refine OnlyPanics.foldlM ?_ _ _ | (intro _; try dsimp only))

variable {F : Type} [Field F] [DecidableEq F]

theorem transpose_onlyPanics {T : Type} (m : List (List T)) : OnlyPanics (transpose m) := by
  unfold transpose
  only_panics

theorem fftInPlaceRearrange_onlyPanics {T : Type} (v : List T) : OnlyPanics (fftInPlaceRearrange v) := by
  unfold fftInPlaceRearrange swap
  only_panics

theorem PSS.fft2InPlace_onlyPanics (pp : PSS F) (v : List F) (gen : F) : OnlyPanics (pp.fft2InPlace v gen) := by
  unfold PSS.fft2InPlace
  refine (OnlyPanics.forDown (fun _ _ => by only_panics) _).bind fun x => ?_
  unfold rotateRight1
  dsimp only
  split
  · exact .panic
  · exact .ok _

theorem column_onlyPanics {T : Type} (rows : List (List T)) (i : Nat) : OnlyPanics (column rows i) := by
  unfold column
  only_panics

section
variable {T : Type} [AddCommGroup T] [Module F T] [DecidableEq T]

theorem PSS.pack_onlyPanics (pp : PSS F) (dbg : Bool) (v : List T) (rng : Nat → T) : OnlyPanics (pp.pack dbg v rng) := by
  unfold PSS.pack
  only_panics

theorem PSS.packVec_onlyPanics (pp : PSS F) (dbg : Bool) (v : List T) (rng : Nat → Nat → T) : OnlyPanics (pp.packVec dbg v rng) := by
  exact (OnlyPanics.debugAssert _ _).bind fun _ => (OnlyPanics.assert _).bind fun _ => OnlyPanics.mapM (fun _ => PSS.pack_onlyPanics _ _ _ _) _

theorem PSS.packStrided_onlyPanics (pp : PSS F) (dbg : Bool) (v : List T) (rng : Nat → Nat → T) :
    OnlyPanics (pp.packStrided dbg v rng) := by
  exact (OnlyPanics.assert _).bind fun _ => OnlyPanics.mapM (fun _ => PSS.pack_onlyPanics _ _ _ _) _

end

theorem PSS.fft2Finish_onlyPanics (pp : PSS F) (dbg : Bool) (v : List F) (g gen : F) (re : Bool) (post : F → F) (rng : Nat → Nat → F) :
    OnlyPanics (pp.fft2Finish dbg v g gen re post rng) := by
  unfold PSS.fft2Finish
  refine (PSS.fft2InPlace_onlyPanics _ _ _).bind fun _ => ?_
  dsimp only
  refine .ite ((fftInPlaceRearrange_onlyPanics _).bind fun _ => (PSS.packStrided_onlyPanics _ _ _ _).bind fun _ => transpose_onlyPanics _)
    ((PSS.packVec_onlyPanics _ _ _ _).bind fun _ => transpose_onlyPanics _)

theorem FftMask.sample_onlyPanics (pp : PSS F) (dbg re : Bool) (g gen : F) (m : Nat) (vals : Nat → F) (rngIn rngOut : Nat → Nat → F) :
    OnlyPanics (FftMask.sample pp dbg re g gen m vals rngIn rngOut) :=
  (PSS.packVec_onlyPanics _ _ _ _).bind fun _ => (transpose_onlyPanics _).bind fun _ =>
    (PSS.fft2Finish_onlyPanics _ _ _ _ _ _ _ _).bind fun _ => .pure _

theorem qap_onlyPanics [FftField F] (mats : ConstraintMatrices F) (z : List F) : OnlyPanics (qap mats z) := by
  unfold qap evaluateConstraint
  dsimp only
  split
  · exact .ok _
  · only_panics

theorem QAP.pss_onlyPanics (q : QAP F) (pp : PSS F) (dbg : Bool) (rngA rngB rngC : Nat → Nat → F) :
    OnlyPanics (q.pss pp dbg rngA rngB rngC) := by
  unfold QAP.pss PSS.packQapVec
  only_panics

variable {G1 G2 : Type} [AddCommGroup G1] [Module F G1] [DecidableEq G1] [AddCommGroup G2] [Module F G2] [DecidableEq G2]

theorem packFromArkworksProvingKey_onlyPanics (pp : PSS F) (dbg : Bool) (pk : ProvingKey G1 G2) :
    OnlyPanics (packFromArkworksProvingKey dbg pk pp) := by
  unfold packFromArkworksProvingKey PSS.detPackChunks PSS.detPack
  only_panics

theorem PSS.packFromWitness_onlyPanics (pp : PSS F) (dbg : Bool) (v : List F) (rng : Nat → Nat → F) :
    OnlyPanics (pp.packFromWitness dbg v rng) := by
  unfold PSS.packFromWitness
  only_panics

theorem DegRedMask.sample_onlyPanics {T : Type} [AddCommGroup T] [Module F T] [DecidableEq T] (pp : PSS F) (dbg : Bool) (gen : T)
    (num : Nat) (vals : Nat → F) (rngIn rngOut : Nat → Nat → T) : OnlyPanics (DegRedMask.sample pp dbg gen num vals rngIn rngOut) := by
  unfold DegRedMask.sample DegRedMask.new
  only_panics

theorem MsmMask.sample_onlyPanics {G : Type} [AddCommGroup G] [Module F G] [DecidableEq G] (pp : PSS F) (dbg : Bool) (gen : G)
    (vals : Nat → F) (rngIn rngOut : Nat → G) : OnlyPanics (MsmMask.sample pp dbg gen vals rngIn rngOut) := by
  unfold MsmMask.sample
  only_panics

set_option maxHeartbeats 1600000 in
/-- Dealing does not fail otherwise than by a panic. -/
theorem PSS.deal_onlyPanics [FftField F] (pp : PSS F) (dbg : Bool) (copies : Nat) (mats : ConstraintMatrices F) (z : List F)
    (pk : ProvingKey G1 G2) (gen1 : G1) (gen2 : G2) (r s : F) (t : ClientTape F G1 G2) :
    OnlyPanics (pp.deal dbg copies mats z pk gen1 gen2 r s t) := by
  unfold PSS.deal
  refine (qap_onlyPanics _ _).bind fun _ => (OnlyPanics.unwrap _).bind fun _ => (PSS.pack_onlyPanics _ _ _ _).bind fun _ =>
    (PSS.pack_onlyPanics _ _ _ _).bind fun _ => (QAP.pss_onlyPanics _ _ _ _ _ _).bind fun _ =>
    (packFromArkworksProvingKey_onlyPanics _ _ _).bind fun _ => (OnlyPanics.assert _).bind fun _ =>
    (PSS.packFromWitness_onlyPanics _ _ _ _).bind fun _ => (OnlyPanics.assert _).bind fun _ =>
    (PSS.packFromWitness_onlyPanics _ _ _ _).bind fun _ => (OnlyPanics.rd _ _).bind fun _ => (OnlyPanics.unwrap _).bind fun _ =>
    (FftMask.sample_onlyPanics _ _ _ _ _ _ _ _ _).bind fun _ => (FftMask.sample_onlyPanics _ _ _ _ _ _ _ _ _).bind fun _ =>
    (FftMask.sample_onlyPanics _ _ _ _ _ _ _ _ _).bind fun _ => (FftMask.sample_onlyPanics _ _ _ _ _ _ _ _ _).bind fun _ =>
    (FftMask.sample_onlyPanics _ _ _ _ _ _ _ _ _).bind fun _ => (FftMask.sample_onlyPanics _ _ _ _ _ _ _ _ _).bind fun _ =>
    (DegRedMask.sample_onlyPanics _ _ _ _ _ _ _).bind fun _ => (MsmMask.sample_onlyPanics _ _ _ _ _ _).bind fun _ =>
    (MsmMask.sample_onlyPanics _ _ _ _ _ _).bind fun _ => (MsmMask.sample_onlyPanics _ _ _ _ _ _).bind fun _ =>
    (MsmMask.sample_onlyPanics _ _ _ _ _ _).bind fun _ => (MsmMask.sample_onlyPanics _ _ _ _ _ _).bind fun _ => ?_
  refine OnlyPanics.mapM (fun _ => ?_) _
  only_panics

/-! ### What becomes of a domain with fewer points than slots -/

/-- Reading the first entry of an empty row. -/
theorem transpose_empty_row {T : Type} (rows : List (List T)) : transpose ([] :: rows) = panic' := rfl

theorem PSS.fft2InPlace_length {pp : PSS F} {v w : List F} {gen : F} (h : pp.fft2InPlace v gen = .ok w) : w.length = v.length := by
  unfold PSS.fft2InPlace at h
  obtain ⟨⟨s1, s2⟩, e1, e2⟩ := bind_ok_inv h
  have hs : s1.length = v.length ∧ s2.length = v.length := by
    refine forDown_preserves (fun st : List F × List F => st.1.length = v.length ∧ st.2.length = v.length)
      (fun i st st' hst h0 => ?_) e1 ⟨rfl, by simp⟩
    obtain ⟨⟨u, f⟩, e3, e4⟩ := bind_ok_inv hst
    cases e4
    refine ⟨?_, h0.1⟩
    refine forUp_preserves (fun st : List F × F => st.1.length = v.length) (fun k st1 st1' hst1 h1 => ?_) e3 h0.2
    obtain ⟨u1, e5, e6⟩ := bind_ok_inv hst1
    cases e6
    refine forUp_preserves (fun u : List F => u.length = v.length) (fun j u u' hu h2 => ?_) e5 h1
    obtain ⟨x, -, hu⟩ := bind_ok_inv hu
    obtain ⟨y, -, hu⟩ := bind_ok_inv hu
    obtain ⟨u3, e7, hu⟩ := bind_ok_inv hu
    rw [wr_length hu, wr_length e7, h2]
  unfold rotateRight1 at e2
  dsimp only at e2
  split at e2
  · cases e2
  · next x hx =>
    cases e2
    have : s1 ≠ [] := by
      rintro rfl
      cases hx
    have := List.length_pos_of_ne_nil this
    rw [List.length_cons, List.length_dropLast, ← hs.1]
    omega

theorem swap_length {T : Type} {v w : List T} {i j : Nat} (h : swap v i j = .ok w) : w.length = v.length := by
  unfold swap at h
  obtain ⟨x, -, h⟩ := bind_ok_inv h
  obtain ⟨y, -, h⟩ := bind_ok_inv h
  obtain ⟨u, e, h⟩ := bind_ok_inv h
  rw [wr_length h, wr_length e]

theorem fftInPlaceRearrange_length {T : Type} {v w : List T} (h : fftInPlaceRearrange v = .ok w) : w.length = v.length := by
  unfold fftInPlaceRearrange at h
  obtain ⟨⟨u, t⟩, e, h⟩ := bind_ok_inv h
  cases h
  refine forUp_preserves (fun st : List T × Nat => st.1.length = v.length) (fun i st st' hst h0 => ?_) e rfl
  dsimp only at hst
  split at hst
  · obtain ⟨u, e, hst⟩ := bind_ok_inv hst
    cases hst
    rw [swap_length e, h0]
  · obtain ⟨u, e, hst⟩ := bind_ok_inv hst
    cases e
    cases hst
    exact h0

section
variable {T : Type} [AddCommGroup T] [Module F T] [DecidableEq T]

theorem PSS.packStrided_short {pp : PSS F} {v : List T} (h : v.length < pp.l) (dbg : Bool) (rng : Nat → Nat → T) :
    pp.packStrided dbg v rng = .ok [] := by
  have h0 : v.length / pp.l = 0 := Nat.div_eq_of_lt h
  have hl : (pp.l != 0) = true := by
    rw [bne_iff_ne]
    omega
  unfold PSS.packStrided
  rw [h0, hl]
  rfl

end

theorem onlyPanics_eq {α : Type _} {r : Res α} (h : OnlyPanics r) (hne : ∀ x, r ≠ .ok x) : r = panic' := by
  rcases r with e | x
  · rw [h e rfl]
    rfl
  · exact absurd rfl (hne x)

theorem PSS.fft2Finish_short {pp : PSS F} {v : List F} (h : v.length < pp.l) (dbg : Bool) (g gen : F) (post : F → F)
    (rng : Nat → Nat → F) : pp.fft2Finish dbg v g gen true post rng = panic' := by
  refine onlyPanics_eq (PSS.fft2Finish_onlyPanics _ _ _ _ _ _ _ _) fun x hx => ?_
  unfold PSS.fft2Finish at hx
  obtain ⟨s1, e1, hx⟩ := bind_ok_inv hx
  have h1 := PSS.fft2InPlace_length e1
  dsimp only at hx
  rw [if_pos rfl] at hx
  obtain ⟨s2, e2, hx⟩ := bind_ok_inv hx
  have h2 := fftInPlaceRearrange_length e2
  rw [PSS.packStrided_short] at hx
  · cases hx
  · rw [h2, List.length_map]
    split
    · unfold distributePowers
      simpa using h1.symm ▸ h
    · exact h1.symm ▸ h

/-- Masks of a rearranging transform cannot be sampled for fewer values than slots. -/
theorem FftMask.sample_short {pp : PSS F} {m : Nat} (hm : m < pp.l) (dbg : Bool) (g gen : F) (vals : Nat → F)
    (rngIn rngOut : Nat → Nat → F) : FftMask.sample pp dbg true g gen m vals rngIn rngOut = panic' := by
  refine onlyPanics_eq (FftMask.sample_onlyPanics _ _ _ _ _ _ _ _ _) fun x hx => ?_
  unfold FftMask.sample at hx
  obtain ⟨_, -, hx⟩ := bind_ok_inv hx
  obtain ⟨_, -, hx⟩ := bind_ok_inv hx
  obtain ⟨_, e, hx⟩ := bind_ok_inv hx
  rw [PSS.fft2Finish_short (by simpa using hm)] at e
  cases e

end ZkSaas
