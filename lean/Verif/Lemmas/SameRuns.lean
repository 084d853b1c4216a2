import Verif.Lemmas.Machine

/-!
# Programs that do the same
-/

namespace ZkSaas

/-- `p` and `q` do the same, step by step, as long as the king's gathers return at most one message per party; their results satisfy `R`. -/
inductive Same : {α : Type} → (α → Prop) → Proc α → Proc α → Prop where
  | done {α : Type} {R : α → Prop} (r : Res α) (h : ∀ a, r = .ok a → R a) : Same R (.done r) (.done r)
  | send {α : Type} {R : α → Prop} (dst : Nat) (sid : Sid) (b : Bytes) {k k' : Proc α} (h : Same R k k') :
      Same R (.send dst sid b k) (.send dst sid b k')
  | recv {α : Type} {R : α → Prop} (frm : Nat) (sid : Sid) {k k' : Bytes → Proc α} (h : ∀ b, Same R (k b) (k' b)) :
      Same R (.recv frm sid k) (.recv frm sid k')
  | gather {α : Type} {R : α → Prop} (sid : Sid) (n : Nat) (own : Bytes) (got : Nat → Option Bytes) {k k' : List (Nat × Bytes) → Proc α}
      (h : ∀ L : List (Nat × Bytes), L.length ≤ max n 1 → Same R (k L) (k' L)) : Same R (.gather sid n own got k) (.gather sid n own got k')
  | par {α β γ : Type} {R : α → Prop} (S : β → Prop) (U : γ → Prop) {p p' : Proc β} {q q' : Proc γ} {k k' : β → γ → Proc α} (hp : Same S p p')
      (hq : Same U q q') (h : ∀ x y, S x → U y → Same R (k x y) (k' x y)) : Same R (.par p q k) (.par p' q' k')

theorem Same.symm {α : Type} {R : α → Prop} {p q : Proc α} (h : Same R p q) : Same R q p := by
  induction h with
  | done r h => exact .done r h
  | send dst sid b _ ih => exact .send dst sid b ih
  | recv frm sid _ ih => exact .recv frm sid ih
  | gather sid n own got _ ih => exact .gather sid n own got ih
  | par S U _ _ _ ih1 ih2 ih => exact .par S U ih1 ih2 ih

theorem Same.bind {α β : Type} {R : α → Prop} {S : β → Prop} {p p' : Proc α} (h : Same R p p') {f f' : α → Proc β}
    (hf : ∀ a, R a → Same S (f a) (f' a)) : Same S (p.bind f) (p'.bind f') := by
  induction h with
  | done r h =>
    cases r with
    | error e => exact .done _ fun a ha => by cases ha
    | ok a => exact hf a (h a rfl)
  | send dst sid b _ ih => exact .send dst sid b (ih hf)
  | recv frm sid _ ih => exact .recv frm sid fun b => ih b hf
  | gather sid n own got _ ih => exact .gather sid n own got fun L hL => ih L hL hf
  | par S U hp hq _ _ _ ih => exact .par S U hp hq fun x y hx hy => ih x y hx hy hf

theorem Same.mono {α : Type} {R S : α → Prop} {p q : Proc α} (h : Same R p q) (hS : ∀ a, R a → S a) : Same S p q := by
  induction h with
  | done r h => exact .done r fun a ha => hS a (h a ha)
  | send dst sid b _ ih => exact .send dst sid b (ih hS)
  | recv frm sid _ ih => exact .recv frm sid fun b => ih b hS
  | gather sid n own got _ ih => exact .gather sid n own got fun L hL => ih L hL hS
  | par _ _ hp hq _ _ _ ih => exact .par _ _ hp hq fun x y hx hy => ih x y hx hy hS

theorem Same.refl {α : Type} (p : Proc α) : Same (fun _ => True) p p := by
  induction p with
  | done r => exact .done r fun _ _ => trivial
  | send dst sid b k ih => exact .send dst sid b ih
  | recv frm sid k ih => exact .recv frm sid ih
  | gather sid n own got k ih => exact .gather sid n own got fun L _ => ih L
  | par p q k ih1 ih2 ih => exact .par _ _ ih1 ih2 fun x y _ _ => ih x y

/-- A local computation. -/
theorem Same.lift {α β : Type} {S : β → Prop} {r r' : Res α} (e : r = r') {f f' : α → Proc β}
    (hf : ∀ a, r' = .ok a → Same S (f a) (f' a)) : Same S ((Proc.done r).bind f) ((Proc.done r').bind f') := by
  subst e
  exact Same.bind (R := fun a => r = .ok a) (.done r fun _ h => h) hf

theorem Enumerates.length_le {n : Nat} {own : Bytes} {got : Nat → Option Bytes} {L : List (Nat × Bytes)} (h : Enumerates n own got L) :
    L.length ≤ max n 1 := by
  have h1 : (L.map Prod.fst).toFinset ⊆ Finset.range (max n 1) := by
    intro i hi
    rw [List.mem_toFinset, List.mem_map] at hi
    obtain ⟨⟨i, b⟩, hm, rfl⟩ := hi
    rw [Finset.mem_range]
    rcases (h.2 i b).1 hm with ⟨rfl, -⟩ | ⟨-, hi, -⟩
    · exact lt_max_of_lt_right one_pos
    · exact lt_max_of_lt_left hi
  have h2 := Finset.card_le_card h1
  rwa [List.toFinset_card_of_nodup h.1, List.length_map, Finset.card_range] at h2

theorem Same.step {α : Type} {R : α → Prop} {p q p' : Proc α} {a : Act} (h : Same R p q) (hs : LStep p a p') :
    ∃ q', LStep q a q' ∧ Same R p' q' := by
  induction hs with
  | send dst sid b k => cases h with | send _ _ _ h => exact ⟨_, .send .., h⟩
  | recv frm sid b k => cases h with | recv _ _ h => exact ⟨_, .recv .., h b⟩
  | gatherRecv sid n own got k i b h1 h2 h3 => cases h with | gather _ _ _ _ h => exact ⟨_, .gatherRecv _ _ _ _ _ i b h1 h2 h3, .gather _ _ _ _ h⟩
  | gatherDone sid n own got k L hfull hL => cases h with | gather _ _ _ _ h => exact ⟨_, .gatherDone _ _ _ _ _ L hfull hL, h L hL.length_le⟩
  | gatherExpire sid n own got k L hL => cases h with | gather _ _ _ _ h => exact ⟨_, .gatherExpire _ _ _ _ _ L hL, h L hL.length_le⟩
  | sendFail dst sid b k e => cases h with | send _ _ _ h => exact ⟨_, .sendFail _ _ _ _ e, .done _ fun a ha => by cases ha⟩
  | recvFail frm sid k e => cases h with | recv _ _ h => exact ⟨_, .recvFail _ _ _ e, .done _ fun a ha => by cases ha⟩
  | parL p p' q k a hs ih =>
    cases h with
    | par S U hp hq h =>
      obtain ⟨q', h1, h2⟩ := ih hp
      exact ⟨_, .parL _ _ _ _ _ h1, .par S U h2 hq h⟩
  | parR p q q' k a hs ih =>
    cases h with
    | par S U hp hq h =>
      obtain ⟨q', h1, h2⟩ := ih hq
      exact ⟨_, .parR _ _ _ _ _ h1, .par S U hp h2 h⟩
  | join r s k =>
    cases h with
    | par S U hp hq h => cases hp with | done _ hr => cases hq with | done _ hu => exact ⟨_, .join .., h r s (hr r rfl) (hu s rfl)⟩
  | abortL e q k =>
    cases h with
    | par S U hp hq h => cases hp with | done _ hr => exact ⟨_, .abortL .., .done _ fun a ha => by cases ha⟩
  | abortR e p k =>
    cases h with
    | par S U hp hq h => cases hq with | done _ hr => exact ⟨_, .abortR .., .done _ fun a ha => by cases ha⟩

theorem Same.done_iff {α : Type} {R : α → Prop} {p q : Proc α} (h : Same R p q) (r : Res α) : p = .done r ↔ q = .done r := by
  cases h with
  | done r' _ => exact Iff.rfl
  | send => constructor <;> intro h <;> cases h
  | recv => constructor <;> intro h <;> cases h
  | gather => constructor <;> intro h <;> cases h
  | par => constructor <;> intro h <;> cases h

/-- Executions of networks of programs that do the same correspond. -/
theorem same_steps {n : Nat} {α : Type} {ok : Act → Prop} {R : α → Prop} {k : Nat} {c d c' : Net n α} (hq : c.queues = d.queues)
    (h : ∀ i, Same R (c.procs i) (d.procs i)) (hs : GSteps ok k c c') :
    ∃ d', GSteps ok k d d' ∧ c'.queues = d'.queues ∧ ∀ i, Same R (c'.procs i) (d'.procs i) := by
  induction hs generalizing d with
  | refl c => exact ⟨d, .refl d, hq, h⟩
  | step hstep _ ih =>
    cases hstep with
    | mk procs Q Q' i a p' ha hl hqs =>
      obtain ⟨q', h1, h2⟩ := (h i).step hl
      obtain ⟨dp, dQ⟩ := d
      have hq : Q = dQ := hq
      subst hq
      obtain ⟨d', h3, h4, h5⟩ := ih (d := ⟨Function.update dp i q', Q'⟩) rfl (fun j => by
        show Same R (Function.update procs i p' j) (Function.update dp i q' j)
        by_cases hj : j = i
        · subst hj; rw [Function.update_self, Function.update_self]; exact h2
        · rw [Function.update_of_ne hj, Function.update_of_ne hj]; exact h j)
      exact ⟨d', .step (.mk dp Q Q' i a q' ha h1 hqs) h3, h4, h5⟩

/-! ### The protocols -/

/-- The king hears from at most `n` parties. -/
theorem same_receive {T : Type} [Wire T] (n me : Nat) (out : T) (sid : Sid) (threshold : Nat) :
    Same (fun o : Option (ReceivedShares T) => ∀ rs, o = some rs → rs.parties.length ≤ max n 1)
      (clientSendOrKingReceiveSer n me out sid threshold) (clientSendOrKingReceiveSer n me out sid threshold) := by
  unfold clientSendOrKingReceiveSer
  refine Same.bind (R := fun o : Option KingReceived => ∀ es, o = some (.partly es) → es.length ≤ max n 1) ?_ fun o ho => ?_
  · unfold clientSendOrKingReceive
    split
    · refine .gather _ _ _ _ fun L hL => .done _ fun o ho es he => ?_
      subst he
      unfold kingFinish at ho
      split at ho
      · exfalso
        generalize (List.range n).mapM (fun x => unwrap (L.lookup x)) = r at ho
        cases r <;> cases ho
      · cases ho
        exact hL
    · exact .send _ _ _ (.done _ fun o ho es he => by subst he; cases ho)
  · refine .done _ fun o' ho' rs hrs => ?_
    subst hrs
    rcases o with _ | (bs | es)
    · cases ho'
    · obtain ⟨_, -, h⟩ := bind_eq_ok ho'
      cases h
      simp
    · unfold decodeReceived at ho'
      dsimp only at ho'
      split at ho'
      · cases ho'
      · cases ho'
        rw [List.length_map]
        exact le_trans (List.length_filterMap_le _ _) (ho es rfl)

theorem kingDo_congr {T U : Type} {K K' : ReceivedShares T → Res U} {o : Option (ReceivedShares T)} (h : ∀ rs, o = some rs → K rs = K' rs) :
    kingDo K o = kingDo K' o := by
  cases o with
  | none => rfl
  | some rs => rw [kingDo, kingDo, h rs rfl]

theorem addMask_length_le {T : Type} [Add T] (x m : List T) : (addMask x m).length ≤ m.length := by
  rw [addMask, List.length_zipWith]; exact min_le_right _ _

variable {F : Type} [Field F] [DecidableEq F]

/-- The number of parties fits, with room for one more. -/
theorem parties_fit {n k : Nat} (hn : n + 1 < USIZE) (hk : k ≤ max n 1) : k + 1 < USIZE := by
  have : (2 : Nat) < USIZE := by norm_num
  omega

section
variable {T : Type} [AddCommGroup T] [Module F T] [DecidableEq T] [FixedWire T]

theorem PSS.degRedM_same {pp : PSS F} (hs : pp.Small) (dbg : Bool) {n : Nat} (hn : n + 1 < USIZE) (me : Nat) (x : List T) (mask : DegRedMask T)
    (sid : Sid) (rng : Nat → Nat → T) : Same (fun _ => True) (pp.degRedM dbg n me x mask sid rng) (pp.degRed dbg n me x mask sid rng) := by
  unfold PSS.degRedM PSS.degRed
  refine Same.lift rfl fun _ _ => Same.lift rfl fun _ _ => Same.bind (same_receive ..) fun rec hrec => Same.lift ?_ fun ans _ =>
    Same.bind (Same.refl _) fun _ _ => .done _ fun _ _ => trivial
  exact kingDo_congr fun rs hrs => PSS.degRedKingM_eq hs dbg _ (parties_fit hn (hrec rs hrs)) _

theorem PSS.dMsmM_same {pp : PSS F} (hs : pp.Small) (dbg : Bool) {n : Nat} (hn : n + 1 < USIZE) (me : Nat) (bases : List T) (scalars : List F)
    (mask : MsmMask T) (sid : Sid) : Same (fun _ => True) (pp.dMsmM dbg n me bases scalars mask sid) (pp.dMsm dbg n me bases scalars mask sid) := by
  unfold PSS.dMsmM PSS.dMsm
  refine Same.lift rfl fun _ _ => Same.lift rfl fun _ _ => Same.bind (same_receive ..) fun rec hrec => Same.lift ?_ fun ans _ =>
    Same.bind (Same.refl _) fun _ _ => .done _ fun _ _ => trivial
  exact kingDo_congr fun rs hrs => PSS.msmKingM_eq hs dbg _ _ (parties_fit hn (hrec rs hrs))

end

section
variable [FixedWire F]

theorem PSS.fft2WithRearrangeM_same {pp : PSS F} (hs : pp.Small) (dbg : Bool) {n : Nat} (hn : n + 1 < USIZE) (me : Nat) {px : List F}
    (hpx : px.length * pp.l ≤ 2 ^ 63) (mask : FftMask F) (rearrange : Bool) (g gen : F) (sid : Sid) (rng : Nat → Nat → F) :
    Same (fun v => v.length ≤ mask.outMask.length) (pp.fft2WithRearrangeM dbg n me px mask rearrange g gen sid rng)
      (pp.fft2WithRearrange dbg n me px mask rearrange g gen sid rng) := by
  unfold PSS.fft2WithRearrangeM PSS.fft2WithRearrange
  refine Same.bind (same_receive ..) fun rec hrec => Same.lift ?_ fun ans _ =>
    Same.bind (Same.refl _) fun _ _ => .done _ fun v hv => by cases hv; exact addMask_length_le _ _
  refine kingDo_congr fun rs hrs => PSS.fft2KingM_eq hs dbg ?_ hpx _ _ _ _ (parties_fit hn (hrec rs hrs)) _
  refine le_trans (Nat.mul_le_mul_right _ ?_) hpx
  rw [addMask, List.length_zipWith]; exact min_le_left _ _

theorem PSS.dFftM_same {pp : PSS F} (hs : pp.Small) (dbg : Bool) {n : Nat} (hn : n + 1 < USIZE) (me : Nat) {px : List F}
    (hpx : px.length * pp.l ≤ 2 ^ 63) (mask : FftMask F) (rearrange : Bool) (dom : Domain F) (sid : Sid) (rng : Nat → Nat → F) :
    Same (fun v => v.length ≤ mask.outMask.length) (pp.dFftM dbg n me px mask rearrange dom sid rng)
      (pp.dFft dbg n me px mask rearrange dom sid rng) := by
  have hU : (2 : Nat) ^ 63 < USIZE := by norm_num
  unfold PSS.dFftM PSS.dFft
  rw [umul_ok (by omega)]
  exact Same.lift rfl fun _ _ => Same.lift (PSS.fft1InPlaceM_eq hs dbg hpx _) fun px' hpx' =>
    PSS.fft2WithRearrangeM_same hs dbg hn me (by rw [PSS.fft1InPlace_length hpx']; exact hpx) _ _ _ _ _ _

theorem PSS.dIfftM_same {pp : PSS F} (hs : pp.Small) (dbg : Bool) {n : Nat} (hn : n + 1 < USIZE) (me : Nat) {px : List F}
    (hpx : px.length * pp.l ≤ 2 ^ 63) (mask : FftMask F) (rearrange : Bool) (dom : Domain F) (g : F) (sid : Sid) (rng : Nat → Nat → F) :
    Same (fun v => v.length ≤ mask.outMask.length) (pp.dIfftM dbg n me px mask rearrange dom g sid rng)
      (pp.dIfft dbg n me px mask rearrange dom g sid rng) := by
  have hU : (2 : Nat) ^ 63 < USIZE := by norm_num
  unfold PSS.dIfftM PSS.dIfft
  rw [umul_ok (by omega)]
  exact Same.lift rfl fun _ _ => Same.lift (PSS.fft1InPlaceM_eq hs dbg (by rwa [List.length_map]) _) fun px' hpx' =>
    PSS.fft2WithRearrangeM_same hs dbg hn me (by rw [PSS.fft1InPlace_length hpx', List.length_map]; exact hpx) _ _ _ _ _ _

theorem Same.tryJoin3 {α β γ δ : Type} {R : α → Prop} {S : β → Prop} {U : γ → Prop} {V : δ → Prop} {p p' : Proc α} {q q' : Proc β} {u u' : Proc γ}
    {k k' : α → β → γ → Proc δ} (hp : Same R p p') (hq : Same S q q') (hu : Same U u u')
    (h : ∀ x y z, R x → S y → U z → Same V (k x y z) (k' x y z)) : Same V (ZkSaas.tryJoin3 p q u k) (ZkSaas.tryJoin3 p' q' u' k') :=
  .par (fun xy => R xy.1 ∧ S xy.2) U (.par R S hp hq fun x y hx hy => .done _ fun a ha => by cases ha; exact ⟨hx, hy⟩) hu
    fun xy z hxy hz => h xy.1 xy.2 z hxy.1 hxy.2 hz

variable [FftField F]

/-- Sizes with which the transforms of one party do not overflow. -/
structure FitsH (pp : PSS F) (q : PackedQAPShare F) (mask : Nat → FftMask F) : Prop where
  a : q.a.length * pp.l ≤ 2 ^ 63
  b : q.b.length * pp.l ≤ 2 ^ 63
  c : q.c.length * pp.l ≤ 2 ^ 63
  dom : q.domain.size ≤ 2 ^ 62
  masks : ∀ k, (mask k).outMask.length * pp.l ≤ 2 ^ 63

theorem PSS.circomHM_same {pp : PSS F} (hs : pp.Small) (dbg : Bool) {n : Nat} (hn : n + 1 < USIZE) (me : Nat) {q : PackedQAPShare F}
    {mask : Nat → FftMask F} (hf : FitsH pp q mask) (degredMask : DegRedMask F) (rng : Nat → Nat → Nat → F) :
    Same (fun _ => True) (pp.circomHM dbg n me q mask degredMask rng) (pp.circomH dbg n me q mask degredMask rng) := by
  have hm : ∀ {v : List F} {k : Nat}, v.length ≤ (mask k).outMask.length → v.length * pp.l ≤ 2 ^ 63 := fun {v k} h =>
    le_trans (Nat.mul_le_mul_right _ h) (hf.masks k)
  have hU : 2 * q.domain.size < USIZE := by
    have := hf.dom
    have : 2 * (2 : Nat) ^ 62 < USIZE := by norm_num
    omega
  unfold PSS.circomHM PSS.circomH
  dsimp only
  rw [umul_ok hU]
  refine Same.lift (r := unwrap (Domain.new (F := F) (2 * q.domain.size))) rfl fun dd _ => ?_
  refine Same.tryJoin3 (PSS.dIfftM_same hs dbg hn me hf.a _ _ _ _ _ _) (PSS.dIfftM_same hs dbg hn me hf.b _ _ _ _ _ _)
    (PSS.dIfftM_same hs dbg hn me hf.c _ _ _ _ _ _) fun x y z hx hy hz => ?_
  exact Same.tryJoin3 (PSS.dFftM_same hs dbg hn me (hm hx) _ _ _ _ _) (PSS.dFftM_same hs dbg hn me (hm hy) _ _ _ _ _)
    (PSS.dFftM_same hs dbg hn me (hm hz) _ _ _ _ _) fun x y z _ _ _ => PSS.degRedM_same hs dbg hn me _ _ _ _

theorem PSS.libsnarkHM_same {pp : PSS F} (hs : pp.Small) (dbg : Bool) {n : Nat} (hn : n + 1 < USIZE) (me : Nat) {q : PackedQAPShare F}
    {mask : Nat → FftMask F} (hf : FitsH pp q mask) (rng : Nat → Nat → Nat → F) :
    Same (fun _ => True) (pp.libsnarkHM dbg n me q mask rng) (pp.libsnarkH dbg n me q mask rng) := by
  have hm : ∀ {v : List F} {k : Nat}, v.length ≤ (mask k).outMask.length → v.length * pp.l ≤ 2 ^ 63 := fun {v k} h =>
    le_trans (Nat.mul_le_mul_right _ h) (hf.masks k)
  unfold PSS.libsnarkHM PSS.libsnarkH
  refine Same.lift rfl fun dd _ => ?_
  refine Same.tryJoin3 (PSS.dIfftM_same hs dbg hn me hf.a _ _ _ _ _ _) (PSS.dIfftM_same hs dbg hn me hf.b _ _ _ _ _ _)
    (PSS.dIfftM_same hs dbg hn me hf.c _ _ _ _ _ _) fun x y z hx hy hz => ?_
  refine Same.tryJoin3 (PSS.dFftM_same hs dbg hn me (hm hx) _ _ _ _ _) (PSS.dFftM_same hs dbg hn me (hm hy) _ _ _ _ _)
    (PSS.dFftM_same hs dbg hn me (hm hz) _ _ _ _ _) fun x y z hx hy hz => Same.lift rfl fun v _ => ?_
  refine (PSS.dIfftM_same hs dbg hn me (le_trans (Nat.mul_le_mul_right _ ?_) (hm hz)) _ _ _ _ _ _).mono fun _ _ => trivial
  rw [List.length_zipWith]; exact min_le_right _ _

variable {G1 G2 : Type} [AddCommGroup G1] [Module F G1] [DecidableEq G1] [FixedWire G1]
  [AddCommGroup G2] [Module F G2] [DecidableEq G2] [FixedWire G2]

theorem ServerInput.runM_same {pp : PSS F} (hs : pp.Small) (dbg : Bool) {n : Nat} (hn : n + 1 < USIZE) (me : Nat) {x : ServerInput F G1 G2}
    (hf : FitsH pp x.q fun k => x.fftMask.getD k (FftMask.zero 0)) (rng : Nat → Nat → Nat → F) :
    Same (fun _ => True) (x.runM pp dbg n me rng) (x.run pp dbg n me rng) := by
  unfold ServerInput.runM ServerInput.run PSS.dsha256M PSS.dsha256
  refine Same.bind (PSS.circomHM_same hs dbg hn me hf _ _) fun h _ => ?_
  refine Same.bind (R := fun _ => True) ?_ fun piA _ => ?_
  · exact Same.bind (PSS.dMsmM_same hs dbg hn me _ _ _ _) fun _ _ => .done _ fun _ _ => trivial
  refine Same.bind (R := fun _ => True) ?_ fun piB1 _ => ?_
  · unfold PSS.proveBInG1M PSS.proveBInG1
    split
    · exact .done _ fun _ _ => trivial
    · exact Same.bind (PSS.dMsmM_same hs dbg hn me _ _ _ _) fun _ _ => .done _ fun _ _ => trivial
  refine Same.bind (R := fun _ => True) ?_ fun piB2 _ => ?_
  · exact Same.bind (PSS.dMsmM_same hs dbg hn me _ _ _ _) fun _ _ => .done _ fun _ _ => trivial
  refine Same.bind (R := fun _ => True) ?_ fun piC _ => .done _ fun _ _ => trivial
  exact .par _ _ (PSS.dMsmM_same hs dbg hn me _ _ _ _) (PSS.dMsmM_same hs dbg hn me _ _ _ _) fun _ _ _ _ => .done _ fun _ _ => trivial

end

end ZkSaas
