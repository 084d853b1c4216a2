import Verif.Lemmas.Runs
import Verif.Model.Prove

/-!
# Messages that are too long

A client of a protocol whose first message is over the limit of the network does not finish (C53).
-/

set_option linter.unusedSectionVars false

namespace ZkSaas

variable {σ : Type}

/-- What every round of a loop preserves, the loop preserves. -/
theorem forUp_preserves (P : σ → Prop) {n : Nat} {body : Nat → σ → Res σ} (h : ∀ i s s', body i s = .ok s' → P s → P s') {s s' : σ}
    (hs : forUp n body s = .ok s') (h0 : P s) : P s' := by
  induction n generalizing s' with
  | zero => cases hs; exact h0
  | succ n ih =>
    rw [forUp_succ] at hs
    rcases e : forUp n body s with err | s1
    · rw [e] at hs; cases hs
    · rw [e] at hs; exact h _ _ _ hs (ih e)

theorem forDown_preserves (P : σ → Prop) {n : Nat} {body : Nat → σ → Res σ} (h : ∀ i s s', body i s = .ok s' → P s → P s') {s s' : σ}
    (hs : forDown n body s = .ok s') (h0 : P s) : P s' := by
  induction n generalizing s with
  | zero => cases hs; exact h0
  | succ n ih =>
    rw [forDown_succ] at hs
    rcases e : body n s with err | s1
    · rw [e] at hs; cases hs
    · rw [e] at hs; exact ih hs (h _ _ _ e h0)

theorem bind_ok_inv {α β : Type} {r : Res α} {f : α → Res β} {y : β} (h : (r >>= f) = .ok y) : ∃ x, r = .ok x ∧ f x = .ok y := by
  rcases r with e | x
  · cases h
  · exact ⟨x, rfl, h⟩

theorem wr_length {α : Type} {v w : List α} {i : Nat} {x : α} (h : wr v i x = .ok w) : w.length = v.length := by
  unfold wr at h
  split at h
  · cases h; simp
  · cases h

variable {F : Type} [Field F] [DecidableEq F]

theorem PSS.fft1InPlace_length {pp : PSS F} {px w : List F} {gen : F} (h : pp.fft1InPlace px gen = .ok w) : w.length = px.length := by
  refine forDown_preserves (fun v : List F => v.length = px.length) (fun i v v' hv h0 => ?_) h rfl
  obtain ⟨⟨v1, x1⟩, e1, e2⟩ := bind_ok_inv hv
  cases e2
  refine forUp_preserves (fun v : List F × F => v.1.length = px.length) (fun k st st' hst h0 => ?_) e1 h0
  obtain ⟨v2, e2, e3⟩ := bind_ok_inv hst
  cases e3
  refine forUp_preserves (fun v : List F => v.length = px.length) (fun j u u' hu h0 => ?_) e2 h0
  obtain ⟨x, -, hu⟩ := bind_ok_inv hu
  obtain ⟨y, -, hu⟩ := bind_ok_inv hu
  obtain ⟨u1, e4, hu⟩ := bind_ok_inv hu
  rw [wr_length hu, wr_length e4, h0]

theorem blocked_lift {α β : Type} {lim : Nat} {r : Res α} {f : α → Proc β} (h : ∀ x, r = .ok x → Blocked lim (f x)) :
    Blocked lim ((Proc.done r).bind f) := by
  rcases r with e | x
  · exact .error e
  · exact h x rfl

variable {lim n me : Nat}

section field
variable [FixedWire F]

theorem PSS.fft2WithRearrange_blocked (pp : PSS F) (dbg : Bool) (hme : me ≠ 0) (px : List F) (mask : FftMask F) (rearrange : Bool)
    (g gen : F) (sid : Sid) (rng : Nat → Nat → F) (h : lim < 8 + min px.length mask.inMask.length * FixedWire.width F) :
    Blocked lim (pp.fft2WithRearrange dbg n me px mask rearrange g gen sid rng) :=
  blocked_round hme _ _ _ (by rw [Wire.enc_list_length, addMask, List.length_zipWith]; exact h) _

theorem PSS.dFft_blocked (pp : PSS F) (dbg : Bool) (hme : me ≠ 0) (sh : List F) (mask : FftMask F) (rearrange : Bool) (dom : Domain F)
    (sid : Sid) (rng : Nat → Nat → F) (h : lim < 8 + min sh.length mask.inMask.length * FixedWire.width F) :
    Blocked lim (pp.dFft dbg n me sh mask rearrange dom sid rng) :=
  blocked_lift fun _ _ => blocked_lift fun px hpx =>
    PSS.fft2WithRearrange_blocked pp dbg hme _ _ _ _ _ _ _ (by rw [PSS.fft1InPlace_length hpx]; exact h)

theorem PSS.dIfft_blocked (pp : PSS F) (dbg : Bool) (hme : me ≠ 0) (sh : List F) (mask : FftMask F) (rearrange : Bool) (dom : Domain F)
    (g : F) (sid : Sid) (rng : Nat → Nat → F) (h : lim < 8 + min sh.length mask.inMask.length * FixedWire.width F) :
    Blocked lim (pp.dIfft dbg n me sh mask rearrange dom g sid rng) :=
  blocked_lift fun _ _ => blocked_lift fun px hpx =>
    PSS.fft2WithRearrange_blocked pp dbg hme _ _ _ _ _ _ _ (by rw [PSS.fft1InPlace_length hpx, List.length_map]; exact h)

theorem PSS.dPp_blocked (pp : PSS F) (dbg : Bool) (hme : me ≠ 0) (num den : List F) (mask : DegRedMask F) (sid : Sid)
    (rng rng' : Nat → Nat → F) (h : lim < 8 + (num.length + den.length) * FixedWire.width F) :
    Blocked lim (pp.dPp dbg n me num den mask sid rng rng') :=
  blocked_lift fun _ _ => blocked_round hme _ _ _ (by simpa only [Wire.enc_list_length, List.length_append, List.length_map] using h) _

theorem PSS.circomH_blocked [FftField F] (pp : PSS F) (dbg : Bool) (hme : me ≠ 0) (q : PackedQAPShare F) (mask : Nat → FftMask F)
    (degredMask : DegRedMask F) (rng : Nat → Nat → Nat → F)
    (h : lim < 8 + min q.a.length (mask 0).inMask.length * FixedWire.width F) :
    Blocked lim (pp.circomH dbg n me q mask degredMask rng) :=
  blocked_lift fun _ _ => .parL _ _ _ (.parL _ _ _ (PSS.dIfft_blocked pp dbg hme _ _ _ _ _ _ _ h))

theorem PSS.libsnarkH_blocked [FftField F] (pp : PSS F) (dbg : Bool) (hme : me ≠ 0) (q : PackedQAPShare F) (mask : Nat → FftMask F)
    (rng : Nat → Nat → Nat → F) (h : lim < 8 + min q.a.length (mask 0).inMask.length * FixedWire.width F) :
    Blocked lim (pp.libsnarkH dbg n me q mask rng) :=
  blocked_lift fun _ _ => .parL _ _ _ (.parL _ _ _ (PSS.dIfft_blocked pp dbg hme _ _ _ _ _ _ _ h))

theorem PSS.dsha256_blocked {G1 G2 : Type} [AddCommGroup G1] [Module F G1] [DecidableEq G1] [FixedWire G1]
    [AddCommGroup G2] [Module F G2] [DecidableEq G2] [FixedWire G2] [FftField F] (pp : PSS F) (dbg : Bool) (hme : me ≠ 0)
    (crs : PackedProvingKeyShare G1 G2) (q : PackedQAPShare F) (a ax : List F) (r s : F) (fftMask : Nat → FftMask F)
    (degredMask : DegRedMask F) (g1Mask : Nat → MsmMask G1) (g2Mask : MsmMask G2) (rng : Nat → Nat → Nat → F)
    (h : lim < 8 + min q.a.length (fftMask 0).inMask.length * FixedWire.width F) :
    Blocked lim (pp.dsha256 dbg n me crs q a ax r s fftMask degredMask g1Mask g2Mask rng) :=
  Blocked.bind (PSS.circomH_blocked pp dbg hme q fftMask degredMask rng h) _

end field

theorem PSS.degRed_blocked {T : Type} [AddCommGroup T] [Module F T] [DecidableEq T] [FixedWire T] (pp : PSS F) (dbg : Bool)
    (hme : me ≠ 0) (xShare : List T) (mask : DegRedMask T) (sid : Sid) (rng : Nat → Nat → T)
    (h : lim < 8 + min xShare.length mask.inMask.length * FixedWire.width T) :
    Blocked lim (pp.degRed dbg n me xShare mask sid rng) :=
  blocked_lift fun _ _ => blocked_lift fun _ _ =>
    blocked_round hme _ _ _ (by rw [Wire.enc_list_length, addMask, List.length_zipWith]; exact h) _

end ZkSaas
