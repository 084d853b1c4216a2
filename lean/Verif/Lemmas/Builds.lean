import Verif.Lemmas.Traffic
import Verif.Model.Machine
import Verif.Spec.Builds

/-!
# What a debug build computes, a release build computes too
-/

set_option linter.unusedSectionVars false

namespace ZkSaas

open Spec (Panicked)

/-- `r` panics or is `r'`. -/
def Weaker {α : Type} (r r' : Res α) : Prop := r = panic' ∨ r = r'

theorem Weaker.refl {α : Type} (r : Res α) : Weaker r r := .inr rfl

theorem Weaker.panic {α : Type} (r : Res α) : Weaker panic' r := .inl rfl

theorem Weaker.bind {α β : Type} {r r' : Res α} (h : Weaker r r') {f f' : α → Res β} (hf : ∀ a, Weaker (f a) (f' a)) :
    Weaker (r >>= f) (r' >>= f') := by
  rcases h with rfl | rfl
  · exact .inl rfl
  · cases r with
    | error e => exact .inr rfl
    | ok a => exact hf a

theorem Weaker.map {α β : Type} {r r' : Res α} (h : Weaker r r') (f : α → β) : Weaker (r.map f) (r'.map f) := by
  rcases h with rfl | rfl
  · exact .inl rfl
  · exact .inr rfl

theorem Weaker.mapM {α β : Type} {f f' : α → Res β} (hf : ∀ a, Weaker (f a) (f' a)) (l : List α) : Weaker (l.mapM f) (l.mapM f') := by
  induction l with
  | nil => exact .inr rfl
  | cons a l ih =>
    rw [List.mapM_cons, List.mapM_cons]
    exact (hf a).bind fun _ => ih.bind fun _ => .refl _

theorem Weaker.foldlM {α σ : Type} {f f' : σ → α → Res σ} (hf : ∀ s a, Weaker (f s a) (f' s a)) (l : List α) (s : σ) :
    Weaker (l.foldlM f s) (l.foldlM f' s) := by
  induction l generalizing s with
  | nil => exact .inr rfl
  | cons a l ih =>
    rw [List.foldlM_cons, List.foldlM_cons]
    exact (hf s a).bind fun _ => ih _

theorem Weaker.forUp {σ : Type} {n : Nat} {f f' : Nat → σ → Res σ} (hf : ∀ i s, Weaker (f i s) (f' i s)) (s : σ) :
    Weaker (ZkSaas.forUp n f s) (ZkSaas.forUp n f' s) := Weaker.foldlM (fun s i => hf i s) _ _

theorem Weaker.forDown {σ : Type} {n : Nat} {f f' : Nat → σ → Res σ} (hf : ∀ i s, Weaker (f i s) (f' i s)) (s : σ) :
    Weaker (ZkSaas.forDown n f s) (ZkSaas.forDown n f' s) := Weaker.foldlM (fun s i => hf i s) _ _

/-- `d` is at least as strict a build as `d'`. -/
def Stricter (d d' : Bool) : Prop := d' = true → d = true

theorem debugAssert_weaker {d d' : Bool} (hd : Stricter d d') (b : Bool) : Weaker (debugAssert d b) (debugAssert d' b) := by
  cases d <;> cases d' <;> cases b <;> first | exact .inr rfl | exact .inl rfl | cases hd rfl

theorem usize_weaker {d d' : Bool} (hd : Stricter d d') (x : Nat) : Weaker (usize d x) (usize d' x) := by
  unfold usize
  split
  · exact .inr rfl
  · cases d <;> cases d' <;> first | exact .inr rfl | exact .inl rfl | cases hd rfl

theorem usub_weaker {d d' : Bool} (hd : Stricter d d') (x y : Nat) : Weaker (usub d x y) (usub d' x y) := by
  unfold usub
  split
  · exact .inr rfl
  · cases d <;> cases d' <;> first | exact .inr rfl | exact .inl rfl | cases hd rfl

syntax "weaken" "[" term,* "]" : tactic

macro_rules
  | `(tactic| weaken [$ts,*]) => do
    let alts ← ts.getElems.mapM fun t => `(tactic| with_reducible exact $t)
    `(tactic| repeat' first
      | with_reducible exact Weaker.refl _
      | with_reducible exact debugAssert_weaker ‹_› _
      | with_reducible exact usize_weaker ‹_› _
      | with_reducible exact usub_weaker ‹_› _ _
      $[| $alts:tactic]*
      | with_reducible refine Weaker.mapM (fun _ => ?_) _
      | with_reducible refine Weaker.forUp (fun _ _ => ?_) _
      | with_reducible refine Weaker.forDown (fun _ _ => ?_) _
      | with_reducible refine Weaker.bind ?_ fun _ => ?_
      | split)

variable {F : Type} [Field F] [DecidableEq F]

theorem PSS.new_weaker [FftField F] {d d' : Bool} (hd : Stricter d d') (l : Nat) : Weaker (PSS.new (F := F) d l) (PSS.new d' l) := by
  unfold PSS.new
  dsimp only
  weaken []

theorem ConstraintDomain.new_weaker [FftField F] {d d' : Bool} (hd : Stricter d d') (m : Nat) :
    Weaker (ConstraintDomain.new (F := F) d m) (ConstraintDomain.new d' m) := by
  unfold ConstraintDomain.new
  weaken []

section
variable {T : Type} [AddCommGroup T] [Module F T] [DecidableEq T] {d d' : Bool}

theorem PSS.detPack_weaker {T : Type} [AddCommGroup T] [Module F T] (hd : Stricter d d') (pp : PSS F) (s : List T) :
    Weaker (pp.detPack d s) (pp.detPack d' s) := by
  unfold PSS.detPack
  weaken []

theorem PSS.pack_weaker (hd : Stricter d d') (pp : PSS F) (s : List T) (rng : Nat → T) : Weaker (pp.pack d s rng) (pp.pack d' s rng) := by
  unfold PSS.pack
  dsimp only
  weaken []

theorem PSS.unpack2_weaker (hd : Stricter d d') (pp : PSS F) (s : List T) : Weaker (pp.unpack2 d s) (pp.unpack2 d' s) := by
  unfold PSS.unpack2
  dsimp only
  weaken []

theorem PSS.lagrangeUnpack_weaker (hd : Stricter d d') (pp : PSS F) (s : List T) (ps : List Nat) :
    Weaker (pp.lagrangeUnpack d s ps) (pp.lagrangeUnpack d' s ps) := by
  unfold PSS.lagrangeUnpack
  dsimp only
  weaken []

theorem PSS.unpackMissingShares_weaker (hd : Stricter d d') (pp : PSS F) (s : List T) (ps : List Nat) :
    Weaker (pp.unpackMissingShares d s ps) (pp.unpackMissingShares d' s ps) := by
  unfold PSS.unpackMissingShares
  weaken [PSS.unpack2_weaker hd _ _, PSS.lagrangeUnpack_weaker hd _ _ _]

theorem PSS.packVec_weaker (hd : Stricter d d') (pp : PSS F) (s : List T) (rng : Nat → Nat → T) : Weaker (pp.packVec d s rng) (pp.packVec d' s rng) := by
  unfold PSS.packVec
  weaken [PSS.pack_weaker hd _ _ _]

theorem PSS.packStrided_weaker (hd : Stricter d d') (pp : PSS F) (s : List T) (rng : Nat → Nat → T) :
    Weaker (pp.packStrided d s rng) (pp.packStrided d' s rng) := by
  unfold PSS.packStrided
  weaken [PSS.pack_weaker hd _ _ _]

theorem DegRedMask.new_weaker (hd : Stricter d d') (i o : List T) : Weaker (DegRedMask.new d i o) (DegRedMask.new d' i o) := by
  unfold DegRedMask.new
  weaken []

theorem DegRedMask.sample_weaker (hd : Stricter d d') (pp : PSS F) (gen : T) (num : Nat) (vals : Nat → F) (rngIn rngOut : Nat → Nat → T) :
    Weaker (DegRedMask.sample pp d gen num vals rngIn rngOut) (DegRedMask.sample pp d' gen num vals rngIn rngOut) := by
  unfold DegRedMask.sample
  dsimp only
  weaken [PSS.packVec_weaker hd _ _ _, DegRedMask.new_weaker hd _ _]

theorem PSS.degRedKing_weaker (hd : Stricter d d') (pp : PSS F) (s : List (List T)) (ps : List Nat) (rng : Nat → Nat → T) :
    Weaker (pp.degRedKing d s ps rng) (pp.degRedKing d' s ps rng) := by
  unfold PSS.degRedKing
  weaken [PSS.pack_weaker hd _ _ _, PSS.unpackMissingShares_weaker hd _ _ _]

theorem MsmMask.sample_weaker (hd : Stricter d d') (pp : PSS F) (gen : T) (vals : Nat → F) (rngIn rngOut : Nat → T) :
    Weaker (MsmMask.sample pp d gen vals rngIn rngOut) (MsmMask.sample pp d' gen vals rngIn rngOut) := by
  unfold MsmMask.sample
  dsimp only
  weaken [PSS.pack_weaker hd _ _ _]

theorem PSS.msmKing_weaker (hd : Stricter d d') (pp : PSS F) (n : Nat) (s : List T) (ps : List Nat) :
    Weaker (pp.msmKing d n s ps) (pp.msmKing d' n s ps) := by
  unfold PSS.msmKing
  weaken [PSS.unpackMissingShares_weaker hd _ _ _]

end

section
variable {d d' : Bool}

theorem PSS.fft2Finish_weaker (hd : Stricter d d') (pp : PSS F) (s1 : List F) (g gen : F) (r : Bool) (post : F → F) (rng : Nat → Nat → F) :
    Weaker (pp.fft2Finish d s1 g gen r post rng) (pp.fft2Finish d' s1 g gen r post rng) := by
  unfold PSS.fft2Finish
  dsimp only
  weaken [PSS.packVec_weaker hd _ _ _, PSS.packStrided_weaker hd _ _ _]

theorem FftMask.sample_weaker (hd : Stricter d d') (pp : PSS F) (r : Bool) (g gen : F) (m : Nat) (vals : Nat → F) (rngIn rngOut : Nat → Nat → F) :
    Weaker (FftMask.sample pp d r g gen m vals rngIn rngOut) (FftMask.sample pp d' r g gen m vals rngIn rngOut) := by
  unfold FftMask.sample
  dsimp only
  weaken [PSS.packVec_weaker hd _ _ _, PSS.fft2Finish_weaker hd _ _ _ _ _ _ _]

theorem PSS.fft2King_weaker (hd : Stricter d d') (pp : PSS F) (outLen mbyl : Nat) (g gen : F) (r : Bool) (s : List (List F)) (ps : List Nat)
    (rng : Nat → Nat → F) : Weaker (pp.fft2King d outLen mbyl g gen r s ps rng) (pp.fft2King d' outLen mbyl g gen r s ps rng) := by
  unfold PSS.fft2King
  dsimp only
  weaken [PSS.unpackMissingShares_weaker hd _ _ _, PSS.fft2Finish_weaker hd _ _ _ _ _ _ _]

theorem PSS.ppKing_weaker (hd : Stricter d d') (pp : PSS F) (s : List (List F)) (ps : List Nat) (rng : Nat → Nat → F) :
    Weaker (pp.ppKing d s ps rng) (pp.ppKing d' s ps rng) := by
  unfold PSS.ppKing
  weaken [PSS.unpackMissingShares_weaker hd _ _ _, PSS.packVec_weaker hd _ _ _]

theorem PSS.packQapVec_weaker (hd : Stricter d d') (pp : PSS F) (x : List F) (rng : Nat → Nat → F) :
    Weaker (pp.packQapVec d x rng) (pp.packQapVec d' x rng) := by
  unfold PSS.packQapVec
  weaken [PSS.packStrided_weaker hd _ _ _]

theorem QAP.pss_weaker (hd : Stricter d d') (pp : PSS F) (q : QAP F) (ra rb rc : Nat → Nat → F) :
    Weaker (q.pss pp d ra rb rc) (q.pss pp d' ra rb rc) := by
  unfold QAP.pss
  weaken [PSS.packQapVec_weaker hd _ _ _]

theorem PSS.packFromWitness_weaker (hd : Stricter d d') (pp : PSS F) (x : List F) (rng : Nat → Nat → F) :
    Weaker (pp.packFromWitness d x rng) (pp.packFromWitness d' x rng) := by
  unfold PSS.packFromWitness
  dsimp only
  weaken [PSS.pack_weaker hd _ _ _]

variable {G1 G2 : Type} [AddCommGroup G1] [Module F G1] [AddCommGroup G2] [Module F G2]

theorem PSS.detPackChunks_weaker (hd : Stricter d d') (pp : PSS F) (v : List G1) : Weaker (pp.detPackChunks d v) (pp.detPackChunks d' v) := by
  unfold PSS.detPackChunks
  weaken [PSS.detPack_weaker hd _ _]

theorem packFromArkworksProvingKey_weaker (hd : Stricter d d') (pp : PSS F) (pk : ProvingKey G1 G2) :
    Weaker (packFromArkworksProvingKey d pk pp) (packFromArkworksProvingKey d' pk pp) := by
  unfold packFromArkworksProvingKey
  weaken [PSS.detPackChunks_weaker hd _ _]

variable [DecidableEq G1] [DecidableEq G2]

theorem PSS.deal_weaker [FftField F] (hd : Stricter d d') (pp : PSS F) (copies : Nat) (mats : ConstraintMatrices F) (z : List F) (pk : ProvingKey G1 G2)
    (gen1 : G1) (gen2 : G2) (r s : F) (t : ClientTape F G1 G2) :
    Weaker (pp.deal d copies mats z pk gen1 gen2 r s t) (pp.deal d' copies mats z pk gen1 gen2 r s t) := by
  unfold PSS.deal
  dsimp only
  weaken [PSS.pack_weaker hd _ _ _, QAP.pss_weaker hd _ _ _ _ _, packFromArkworksProvingKey_weaker hd _ _, PSS.packFromWitness_weaker hd _ _ _,
    FftMask.sample_weaker hd _ _ _ _ _ _ _ _, DegRedMask.sample_weaker hd _ _ _ _ _ _, MsmMask.sample_weaker hd _ _ _ _ _]

theorem PSS.openProof_weaker (hd : Stricter d d') (pp : PSS F) (rs : List (G1 × G2 × G1)) : Weaker (pp.openProof d rs) (pp.openProof d' rs) := by
  unfold PSS.openProof
  weaken [PSS.unpack2_weaker hd _ _]

end

/-! ### Programs -/

/-- `p` does the same as `q`, except that it may panic on the way. -/
inductive Weak : {α : Type} → Proc α → Proc α → Prop where
  | panic {α : Type} (q : Proc α) : Weak (.done panic') q
  | done {α : Type} (r : Res α) : Weak (.done r) (.done r)
  | send {α : Type} (dst : Nat) (sid : Sid) (b : Bytes) {k k' : Proc α} (h : Weak k k') : Weak (.send dst sid b k) (.send dst sid b k')
  | recv {α : Type} (frm : Nat) (sid : Sid) {k k' : Bytes → Proc α} (h : ∀ b, Weak (k b) (k' b)) : Weak (.recv frm sid k) (.recv frm sid k')
  | gather {α : Type} (sid : Sid) (n : Nat) (own : Bytes) (got : Nat → Option Bytes) {k k' : List (Nat × Bytes) → Proc α}
      (h : ∀ L, Weak (k L) (k' L)) : Weak (.gather sid n own got k) (.gather sid n own got k')
  | par {α β γ : Type} {p p' : Proc β} {q q' : Proc γ} {k k' : β → γ → Proc α} (hp : Weak p p')
      (hq : Weak q q') (h : ∀ x y, Weak (k x y) (k' x y)) : Weak (.par p q k) (.par p' q' k')

theorem Weak.refl {α : Type} (p : Proc α) : Weak p p := by
  induction p with
  | done r => exact .done r
  | send dst sid b k ih => exact .send dst sid b ih
  | recv frm sid k ih => exact .recv frm sid ih
  | gather sid n own got k ih => exact .gather sid n own got ih
  | par p q k ih1 ih2 ih => exact .par ih1 ih2 ih

theorem Weak.bind {α β : Type} {p p' : Proc α} (h : Weak p p') {f f' : α → Proc β} (hf : ∀ a, Weak (f a) (f' a)) :
    Weak (p.bind f) (p'.bind f') := by
  induction h with
  | panic q => exact .panic _
  | done r =>
    cases r with
    | error e => exact .done _
    | ok a => exact hf a
  | send dst sid b _ ih => exact .send dst sid b (ih hf)
  | recv frm sid _ ih => exact .recv frm sid fun b => ih b hf
  | gather sid n own got _ ih => exact .gather sid n own got fun L => ih L hf
  | par hp hq _ _ _ ih => exact .par hp hq fun x y => ih x y hf

/-- A local computation. -/
theorem Weak.lift {α β : Type} {r r' : Res α} (h : Weaker r r') {f f' : α → Proc β} (hf : ∀ a, Weak (f a) (f' a)) :
    Weak ((Proc.done r).bind f) ((Proc.done r').bind f') := by
  rcases h with rfl | rfl
  · exact .panic _
  · exact Weak.bind (.done _) hf

theorem Weak.tryJoin3 {α β γ δ : Type} {p p' : Proc α} {q q' : Proc β} {u u' : Proc γ}
    {k k' : α → β → γ → Proc δ} (hp : Weak p p') (hq : Weak q q') (hu : Weak u u') (h : ∀ x y z, Weak (k x y z) (k' x y z)) :
    Weak (ZkSaas.tryJoin3 p q u k) (ZkSaas.tryJoin3 p' q' u' k') :=
  .par (.par hp hq fun _ _ => .done _) hu fun xy z => h xy.1 xy.2 z

/-- The stricter program can follow, or has panicked. -/
theorem Weak.back {α : Type} {p q q' : Proc α} {a : Act} (h : Weak p q) (hs : LStep q a q') : Panicked p ∨ ∃ p', LStep p a p' ∧ Weak p' q' := by
  induction hs with
  | send dst sid b k =>
    cases h with
    | panic => exact .inl .done
    | send _ _ _ h => exact .inr ⟨_, .send .., h⟩
  | recv frm sid b k =>
    cases h with
    | panic => exact .inl .done
    | recv _ _ h => exact .inr ⟨_, .recv .., h b⟩
  | gatherRecv sid n own got k i b h1 h2 h3 =>
    cases h with
    | panic => exact .inl .done
    | gather _ _ _ _ h => exact .inr ⟨_, .gatherRecv _ _ _ _ _ i b h1 h2 h3, .gather _ _ _ _ h⟩
  | gatherDone sid n own got k L hfull hL =>
    cases h with
    | panic => exact .inl .done
    | gather _ _ _ _ h => exact .inr ⟨_, .gatherDone _ _ _ _ _ L hfull hL, h L⟩
  | gatherExpire sid n own got k L hL =>
    cases h with
    | panic => exact .inl .done
    | gather _ _ _ _ h => exact .inr ⟨_, .gatherExpire _ _ _ _ _ L hL, h L⟩
  | sendFail dst sid b k e =>
    cases h with
    | panic => exact .inl .done
    | send _ _ _ h => exact .inr ⟨_, .sendFail _ _ _ _ e, .done _⟩
  | recvFail frm sid k e =>
    cases h with
    | panic => exact .inl .done
    | recv _ _ h => exact .inr ⟨_, .recvFail _ _ _ e, .done _⟩
  | parL p p' q k a hs ih =>
    cases h with
    | panic => exact .inl .done
    | par hp hq h =>
      rcases ih hp with h0 | ⟨q', h1, h2⟩
      · exact .inl (.parL _ _ h0)
      · exact .inr ⟨_, .parL _ _ _ _ _ h1, .par h2 hq h⟩
  | parR p q q' k a hs ih =>
    cases h with
    | panic => exact .inl .done
    | par hp hq h =>
      rcases ih hq with h0 | ⟨q', h1, h2⟩
      · exact .inl (.parR _ _ h0)
      · exact .inr ⟨_, .parR _ _ _ _ _ h1, .par hp h2 h⟩
  | join r s k =>
    cases h with
    | panic => exact .inl .done
    | par hp hq h =>
      cases hp with
      | panic => exact .inl (.parL _ _ .done)
      | done =>
        cases hq with
        | panic => exact .inl (.parR _ _ .done)
        | done => exact .inr ⟨_, .join .., h r s⟩
  | abortL e q k =>
    cases h with
    | panic => exact .inl .done
    | par hp hq h =>
      cases hp with
      | panic => exact .inl (.parL _ _ .done)
      | done => exact .inr ⟨_, .abortL .., .done _⟩
  | abortR e p k =>
    cases h with
    | panic => exact .inl .done
    | par hp hq h =>
      cases hq with
      | panic => exact .inl (.parR _ _ .done)
      | done => exact .inr ⟨_, .abortR .., .done _⟩

/-- An error or a panic has happened in the program or in a branch of it. -/
inductive Failing : {α : Type} → Proc α → Prop where
  | done {α : Type} (e : Fault) : Failing (.done (.error e) : Proc α)
  | parL {α β γ : Type} {p : Proc β} (q : Proc γ) (k : β → γ → Proc α) (h : Failing p) : Failing (.par p q k)
  | parR {α β γ : Type} (p : Proc β) {q : Proc γ} (k : β → γ → Proc α) (h : Failing q) : Failing (.par p q k)

theorem Spec.Panicked.failing {α : Type} {p : Proc α} (h : Panicked p) : Failing p := by
  induction h with
  | done => exact .done _
  | parL q k _ ih => exact .parL q k ih
  | parR p k _ ih => exact .parR p k ih

theorem Failing.step {α : Type} {p p' : Proc α} {a : Act} (h : Failing p) (hs : LStep p a p') : Failing p' := by
  induction hs with
  | parL p p' q k a hs ih =>
    cases h with
    | parL _ _ h => exact .parL _ _ (ih h)
    | parR _ _ h => exact .parR _ _ h
  | parR p q q' k a hs ih =>
    cases h with
    | parL _ _ h => exact .parL _ _ h
    | parR _ _ h => exact .parR _ _ (ih h)
  | join r s k =>
    cases h with
    | parL _ _ h => cases h
    | parR _ _ h => cases h
  | abortL e q k => exact .done _
  | abortR e p k => exact .done _
  | _ => cases h

/-- As long as the stricter program has not panicked, the more lenient one can follow. -/
theorem Weak.forth {α : Type} {p q p' : Proc α} {a : Act} (h : Weak p q) (hp : ¬ Panicked p) (hs : LStep p a p') :
    ∃ q', LStep q a q' ∧ Weak p' q' := by
  induction hs with
  | send dst sid b k => cases h with | send _ _ _ h => exact ⟨_, .send .., h⟩
  | recv frm sid b k => cases h with | recv _ _ h => exact ⟨_, .recv .., h b⟩
  | gatherRecv sid n own got k i b h1 h2 h3 =>
    cases h with | gather _ _ _ _ h => exact ⟨_, .gatherRecv _ _ _ _ _ i b h1 h2 h3, .gather _ _ _ _ h⟩
  | gatherDone sid n own got k L hfull hL => cases h with | gather _ _ _ _ h => exact ⟨_, .gatherDone _ _ _ _ _ L hfull hL, h L⟩
  | gatherExpire sid n own got k L hL => cases h with | gather _ _ _ _ h => exact ⟨_, .gatherExpire _ _ _ _ _ L hL, h L⟩
  | sendFail dst sid b k e => cases h with | send _ _ _ h => exact ⟨_, .sendFail _ _ _ _ e, .done _⟩
  | recvFail frm sid k e => cases h with | recv _ _ h => exact ⟨_, .recvFail _ _ _ e, .done _⟩
  | parL p p' q k a hs ih =>
    cases h with
    | par h1 h2 h =>
      obtain ⟨q', g1, g2⟩ := ih h1 fun h0 => hp (.parL _ _ h0)
      exact ⟨_, .parL _ _ _ _ _ g1, .par g2 h2 h⟩
  | parR p q q' k a hs ih =>
    cases h with
    | par h1 h2 h =>
      obtain ⟨q', g1, g2⟩ := ih h2 fun h0 => hp (.parR _ _ h0)
      exact ⟨_, .parR _ _ _ _ _ g1, .par h1 g2 h⟩
  | join r s k => cases h with | par hp hq h => cases hp with | done => cases hq with | done => exact ⟨_, .join .., h r s⟩
  | abortL e q k =>
    cases h with
    | par h1 h2 h =>
      cases h1 with
      | panic => exact absurd (.parL _ _ .done) hp
      | done => exact ⟨_, .abortL .., .done _⟩
  | abortR e p k =>
    cases h with
    | par h1 h2 h =>
      cases h2 with
      | panic => exact absurd (.parR _ _ .done) hp
      | done => exact ⟨_, .abortR .., .done _⟩

variable {n : Nat} {α : Type}

theorem GSteps.failing {ok : Act → Prop} {k : Nat} {c c' : Net n α} (h : GSteps ok k c c') {i : Fin n} (hf : Failing (c.procs i)) :
    Failing (c'.procs i) := by
  induction h with
  | refl => exact hf
  | step h1 _ ih =>
    cases h1 with
    | mk procs Q Q' j a p' ha hl hq =>
      apply ih
      show Failing (Function.update procs j p' i)
      by_cases hj : i = j
      · subst hj; rw [Function.update_self]; exact hf.step hl
      · rw [Function.update_of_ne hj]; exact hf

theorem weak_back {ok : Act → Prop} {k : Nat} {c d d' : Net n α} (hq : c.queues = d.queues) (h : ∀ i, Weak (c.procs i) (d.procs i))
    (hs : GSteps ok k d d') : (∃ j ≤ k, ∃ c' i, GSteps ok j c c' ∧ Panicked (c'.procs i)) ∨
      ∃ c', GSteps ok k c c' ∧ c'.queues = d'.queues ∧ ∀ i, Weak (c'.procs i) (d'.procs i) := by
  induction hs generalizing c with
  | refl d => exact .inr ⟨c, .refl c, hq, h⟩
  | step hstep _ ih =>
    cases hstep with
    | mk procs Q Q' i a p' ha hl hqs =>
      rcases (h i).back hl with h0 | ⟨q', h1, h2⟩
      · exact .inl ⟨0, Nat.zero_le _, c, i, .refl c, h0⟩
      · obtain ⟨cp, cQ⟩ := c
        have hq : cQ = Q := hq
        subst hq
        rcases ih (c := ⟨Function.update cp i q', Q'⟩) rfl (fun j => by
          show Weak (Function.update cp i q' j) (Function.update procs i p' j)
          by_cases hj : j = i
          · subst hj; rw [Function.update_self, Function.update_self]; exact h2
          · rw [Function.update_of_ne hj, Function.update_of_ne hj]; exact h j) with ⟨j, hj, c', m, h3, h4⟩ | ⟨c', h3, h4, h5⟩
        · exact .inl ⟨j + 1, by omega, c', m, .step (.mk cp cQ Q' i a q' ha h1 hqs) h3, h4⟩
        · exact .inr ⟨c', .step (.mk cp cQ Q' i a q' ha h1 hqs) h3, h4, h5⟩

theorem weak_forth {ok : Act → Prop} {k : Nat} {c d c' : Net n α} (hq : c.queues = d.queues) (h : ∀ i, Weak (c.procs i) (d.procs i))
    (hs : GSteps ok k c c') : (∃ j ≤ k, ∃ c' i, GSteps ok j c c' ∧ Panicked (c'.procs i)) ∨
      ∃ d', GSteps ok k d d' ∧ c'.queues = d'.queues ∧ ∀ i, Weak (c'.procs i) (d'.procs i) := by
  induction hs generalizing d with
  | refl c => exact .inr ⟨d, .refl d, hq, h⟩
  | step hstep hrest ih =>
    cases hstep with
    | mk procs Q Q' i a p' ha hl hqs =>
      by_cases h0 : Panicked (procs i)
      · exact .inl ⟨0, Nat.zero_le _, _, i, .refl _, h0⟩
      · obtain ⟨q', h1, h2⟩ := (h i).forth h0 hl
        obtain ⟨dp, dQ⟩ := d
        have hq : Q = dQ := hq
        subst hq
        rcases ih (d := ⟨Function.update dp i q', Q'⟩) rfl (fun j => by
          show Weak (Function.update procs i p' j) (Function.update dp i q' j)
          by_cases hj : j = i
          · subst hj; rw [Function.update_self, Function.update_self]; exact h2
          · rw [Function.update_of_ne hj, Function.update_of_ne hj]; exact h j) with ⟨j, hj, c', m, h3, h4⟩ | ⟨d', h3, h4, h5⟩
        · exact .inl ⟨j + 1, by omega, c', m, .step (.mk procs Q Q' i a p' ha hl hqs) h3, h4⟩
        · exact .inr ⟨d', .step (.mk dp Q Q' i a q' ha h1 hqs) h3, h4, h5⟩

/-! ### The protocols -/

variable {d d' : Bool}

theorem kingDo_weaker {T U : Type} {K K' : ReceivedShares T → Res U} (h : ∀ rs, Weaker (K rs) (K' rs)) (o : Option (ReceivedShares T)) :
    Weaker (kingDo K o) (kingDo K' o) := by
  cases o with
  | none => exact .refl _
  | some rs => exact (h rs).map _

section
variable {T : Type} [AddCommGroup T] [Module F T] [DecidableEq T] [FixedWire T]

theorem PSS.degRed_weak (hd : Stricter d d') (pp : PSS F) (n me : Nat) (x : List T) (mask : DegRedMask T) (sid : Sid) (rng : Nat → Nat → T) :
    Weak (pp.degRed d n me x mask sid rng) (pp.degRed d' n me x mask sid rng) := by
  unfold PSS.degRed
  exact Weak.lift (debugAssert_weaker hd _) fun _ => Weak.lift (debugAssert_weaker hd _) fun _ => Weak.bind (.refl _) fun rec =>
    Weak.lift (kingDo_weaker (fun rs => PSS.degRedKing_weaker hd _ _ _ _) _) fun _ => .refl _

theorem PSS.dMsm_weak (hd : Stricter d d') (pp : PSS F) (n me : Nat) (bases : List T) (scalars : List F) (mask : MsmMask T) (sid : Sid) :
    Weak (pp.dMsm d n me bases scalars mask sid) (pp.dMsm d' n me bases scalars mask sid) := by
  unfold PSS.dMsm
  exact Weak.lift (debugAssert_weaker hd _) fun _ => Weak.lift (.refl _) fun _ => Weak.bind (.refl _) fun rec =>
    Weak.lift (kingDo_weaker (fun rs => PSS.msmKing_weaker hd _ _ _ _) _) fun _ => .refl _

end

variable [FixedWire F]

theorem PSS.fft2WithRearrange_weak (hd : Stricter d d') (pp : PSS F) (n me : Nat) (px : List F) (mask : FftMask F) (r : Bool) (g gen : F) (sid : Sid)
    (rng : Nat → Nat → F) : Weak (pp.fft2WithRearrange d n me px mask r g gen sid rng) (pp.fft2WithRearrange d' n me px mask r g gen sid rng) := by
  unfold PSS.fft2WithRearrange
  exact Weak.bind (.refl _) fun rec => Weak.lift (kingDo_weaker (fun rs => PSS.fft2King_weaker hd _ _ _ _ _ _ _ _ _) _) fun _ => .refl _

theorem PSS.dFft_weak (hd : Stricter d d') (pp : PSS F) (n me : Nat) (px : List F) (mask : FftMask F) (r : Bool) (dom : Domain F) (sid : Sid)
    (rng : Nat → Nat → F) : Weak (pp.dFft d n me px mask r dom sid rng) (pp.dFft d' n me px mask r dom sid rng) := by
  unfold PSS.dFft
  exact Weak.lift (debugAssert_weaker hd _) fun _ => Weak.lift (.refl _) fun _ => PSS.fft2WithRearrange_weak hd _ _ _ _ _ _ _ _ _ _

theorem PSS.dIfft_weak (hd : Stricter d d') (pp : PSS F) (n me : Nat) (px : List F) (mask : FftMask F) (r : Bool) (dom : Domain F) (g : F) (sid : Sid)
    (rng : Nat → Nat → F) : Weak (pp.dIfft d n me px mask r dom g sid rng) (pp.dIfft d' n me px mask r dom g sid rng) := by
  unfold PSS.dIfft
  exact Weak.lift (debugAssert_weaker hd _) fun _ => Weak.lift (.refl _) fun _ => PSS.fft2WithRearrange_weak hd _ _ _ _ _ _ _ _ _ _

theorem PSS.dPp_weak (hd : Stricter d d') (pp : PSS F) (n me : Nat) (num den : List F) (mask : DegRedMask F) (sid : Sid) (rng rng' : Nat → Nat → F) :
    Weak (pp.dPp d n me num den mask sid rng rng') (pp.dPp d' n me num den mask sid rng rng') := by
  unfold PSS.dPp
  exact Weak.lift (.refl _) fun _ => Weak.bind (.refl _) fun rec => Weak.lift (kingDo_weaker (fun rs => PSS.ppKing_weaker hd _ _ _ _) _) fun _ =>
    Weak.bind (.refl _) fun _ => PSS.degRed_weak hd _ _ _ _ _ _ _

variable [FftField F]

theorem PSS.circomH_weak (hd : Stricter d d') (pp : PSS F) (n me : Nat) (q : PackedQAPShare F) (mask : Nat → FftMask F) (degredMask : DegRedMask F)
    (rng : Nat → Nat → Nat → F) : Weak (pp.circomH d n me q mask degredMask rng) (pp.circomH d' n me q mask degredMask rng) := by
  unfold PSS.circomH
  exact Weak.lift (.refl _) fun _ => Weak.tryJoin3 (PSS.dIfft_weak hd _ _ _ _ _ _ _ _ _ _) (PSS.dIfft_weak hd _ _ _ _ _ _ _ _ _ _)
    (PSS.dIfft_weak hd _ _ _ _ _ _ _ _ _ _) fun _ _ _ => Weak.tryJoin3 (PSS.dFft_weak hd _ _ _ _ _ _ _ _ _) (PSS.dFft_weak hd _ _ _ _ _ _ _ _ _)
    (PSS.dFft_weak hd _ _ _ _ _ _ _ _ _) fun _ _ _ => PSS.degRed_weak hd _ _ _ _ _ _ _

theorem PSS.libsnarkH_weak (hd : Stricter d d') (pp : PSS F) (n me : Nat) (q : PackedQAPShare F) (mask : Nat → FftMask F)
    (rng : Nat → Nat → Nat → F) : Weak (pp.libsnarkH d n me q mask rng) (pp.libsnarkH d' n me q mask rng) := by
  unfold PSS.libsnarkH
  exact Weak.lift (.refl _) fun _ => Weak.tryJoin3 (PSS.dIfft_weak hd _ _ _ _ _ _ _ _ _ _) (PSS.dIfft_weak hd _ _ _ _ _ _ _ _ _ _)
    (PSS.dIfft_weak hd _ _ _ _ _ _ _ _ _ _) fun _ _ _ => Weak.tryJoin3 (PSS.dFft_weak hd _ _ _ _ _ _ _ _ _) (PSS.dFft_weak hd _ _ _ _ _ _ _ _ _)
    (PSS.dFft_weak hd _ _ _ _ _ _ _ _ _) fun _ _ _ => Weak.lift (.refl _) fun _ => PSS.dIfft_weak hd _ _ _ _ _ _ _ _ _ _

variable {G1 G2 : Type} [AddCommGroup G1] [Module F G1] [DecidableEq G1] [FixedWire G1]
  [AddCommGroup G2] [Module F G2] [DecidableEq G2] [FixedWire G2]

theorem ServerInput.run_weak (hd : Stricter d d') (pp : PSS F) (n me : Nat) (x : ServerInput F G1 G2) (rng : Nat → Nat → Nat → F) :
    Weak (x.run pp d n me rng) (x.run pp d' n me rng) := by
  unfold ServerInput.run PSS.dsha256
  refine Weak.bind (PSS.circomH_weak hd _ _ _ _ _ _ _) fun h => Weak.bind ?_ fun piA => Weak.bind ?_ fun piB1 => Weak.bind ?_ fun piB2 =>
    Weak.bind ?_ fun piC => .done _
  · exact Weak.bind (PSS.dMsm_weak hd _ _ _ _ _ _ _) fun _ => .done _
  · unfold PSS.proveBInG1
    split
    · exact .done _
    · exact Weak.bind (PSS.dMsm_weak hd _ _ _ _ _ _ _) fun _ => .done _
  · exact Weak.bind (PSS.dMsm_weak hd _ _ _ _ _ _ _) fun _ => .done _
  · exact .par (PSS.dMsm_weak hd _ _ _ _ _ _ _) (PSS.dMsm_weak hd _ _ _ _ _ _ _) fun _ _ => .done _

end ZkSaas
