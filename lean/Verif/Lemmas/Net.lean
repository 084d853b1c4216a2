import Verif.Spec.Net
import Verif.Lemmas.Basic

/-! Confluence of reliable executions. -/

set_option linter.unusedSectionVars false

namespace ZkSaas

variable {n : Nat} {α β γ : Type}

/-- Steps other than faults and cancellations. -/
def Core (a : Act) : Prop := a ≠ .fault ∧ a ≠ .abort

theorem Proc.WF.mono {S S' : Sid → Prop} {p : Proc α} (h : p.WF S) (hS : ∀ x, S x → S' x) : p.WF S' := by
  induction h generalizing S' with
  | done S r => exact .done _ _
  | send hs _ ih => exact .send (hS _ hs) (ih hS)
  | recv hs _ ih => exact .recv (hS _ hs) (fun b => ih b hS)
  | gather hs _ hk ih => exact .gather (hS _ hs) (fun b => ih b hS) hk
  | par hdis h1 h2 hp hq _ _ _ ih => exact .par hdis (fun x h => hS x (h1 x h)) (fun x h => hS x (h2 x h)) hp hq (fun r s => ih r s hS)

theorem Proc.WF.bind {S : Sid → Prop} {p : Proc α} (h : p.WF S) {f : α → Proc β} (hf : ∀ a, (f a).WF S) :
    (p.bind f).WF S := by
  induction h with
  | done S r =>
    cases r with
    | error e => exact .done _ _
    | ok a => exact hf a
  | send hs _ ih => exact .send hs (ih hf)
  | recv hs _ ih => exact .recv hs (fun b => ih b hf)
  | gather hs _ hk ih => exact .gather hs (fun b => ih b hf) (fun got L L' h1 h2 h3 => by
      show Proc.bind _ _ = Proc.bind _ _
      rw [hk got L L' h1 h2 h3])
  | par hdis h1 h2 hp hq _ _ _ ih => exact .par hdis h1 h2 hp hq (fun r s => ih r s hf)

/-- The stream a step uses. -/
def Act.sid? : Act → Option Sid
  | .send _ s _ => some s
  | .recv _ s _ => some s
  | _ => none

theorem LStep.sid {S : Sid → Prop} {p p' : Proc α} {a : Act} (hs : LStep p a p') (h : p.WF S) :
    ∀ s, a.sid? = some s → S s := by
  induction hs generalizing S with
  | send dst sid b k => cases h; intro s e; cases e; assumption
  | recv frm sid b k => cases h; intro s e; cases e; assumption
  | gatherRecv sid n own got k i b h1 h2 h3 => cases h; intro s e; cases e; assumption
  | parL p p' q k a _ ih =>
    cases h with
    | par hdis h1 h2 hp hq hk => intro s e; exact h1 s (ih hp s e)
  | parR p q q' k a _ ih =>
    cases h with
    | par hdis h1 h2 hp hq hk => intro s e; exact h2 s (ih hq s e)
  | _ => intro s e; cases e

theorem LStep.wf {S : Sid → Prop} {p p' : Proc α} {a : Act} (hs : LStep p a p') (h : p.WF S) : p'.WF S := by
  induction hs generalizing S with
  | send dst sid b k => cases h; assumption
  | recv frm sid b k => cases h with | recv hs h => exact h b
  | gatherRecv sid n own got k i b h1 h2 h3 => cases h with | gather hs h hk => exact .gather hs h hk
  | gatherDone sid n own got k L hfull hL => cases h with | gather hs h hk => exact h L
  | gatherExpire sid n own got k L hL => cases h with | gather hs h hk => exact h L
  | sendFail => exact .done _ _
  | recvFail => exact .done _ _
  | parL p p' q k a _ ih =>
    cases h with
    | par hdis h1 h2 hp hq hk => exact .par hdis h1 h2 (ih hp) hq hk
  | parR p q q' k a _ ih =>
    cases h with
    | par hdis h1 h2 hp hq hk => exact .par hdis h1 h2 hp (ih hq) hk
  | join r s k => cases h with | par hdis h1 h2 hp hq hk => exact hk r s
  | abortL => exact .done _ _
  | abortR => exact .done _ _

/-- Two steps of parties `i`, `j` do not compete for the same end of a queue. -/
def Compat (i : Nat) (a : Act) (j : Nat) (a' : Act) : Prop :=
  (∀ t t' s s' b b', a = .send t s b → a' = .send t' s' b' → (i, t, s) ≠ (j, t', s')) ∧
  (∀ f f' s s' b b', a = .recv f s b → a' = .recv f' s' b' → (f, i, s) ≠ (f', j, s'))

theorem Compat.of_sid {i j : Nat} {a a' : Act} (h : ∀ s, a.sid? = some s → a'.sid? = some s → False) :
    Compat i a j a' := by
  constructor
  · rintro t t' s s' b b' rfl rfl e
    cases e
    exact h s rfl rfl
  · rintro t t' s s' b b' rfl rfl e
    cases e
    exact h s rfl rfl

theorem Compat.of_ne {i j : Nat} {a a' : Act} (h : i ≠ j) : Compat i a j a' := by
  constructor
  · rintro t t' s s' b b' rfl rfl e
    cases e
    exact h rfl
  · rintro t t' s s' b b' rfl rfl e
    cases e
    exact h rfl

theorem Compat.symm {i j : Nat} {a a' : Act} (h : Compat i a j a') : Compat j a' i a :=
  ⟨fun t t' s s' b b' e e' h' => h.1 t' t s' s b' b e' e h'.symm,
   fun t t' s s' b b' e e' h' => h.2 t' t s' s b' b e' e h'.symm⟩

/-- Local diamond. -/
theorem LStep.diamond {S : Sid → Prop} {p p1 p2 : Proc α} {a a' : Act} (h : p.WF S)
    (h1 : LStep p a p1) (h2 : LStep p a' p2) (ha : Core a) (ha' : Core a') (i : Nat) :
    (a = a' ∧ p1 = p2) ∨ (∃ f s b b', a = .recv f s b ∧ a' = .recv f s b' ∧ b ≠ b') ∨
    (Compat i a i a' ∧ ∃ q, LStep p1 a' q ∧ LStep p2 a q) := by
  induction h1 generalizing S a' with
  | send dst sid b k =>
    cases h2 with
    | send => exact .inl ⟨rfl, rfl⟩
    | sendFail => exact absurd rfl ha'.1
  | recv frm sid b k =>
    cases h2 with
    | recv _ _ b' =>
      by_cases hb : b = b'
      · subst hb; exact .inl ⟨rfl, rfl⟩
      · exact .inr (.inl ⟨_, _, _, _, rfl, rfl, hb⟩)
    | recvFail => exact absurd rfl ha'.1
  | gatherRecv sid n own got k x b g1 g2 g3 =>
    cases h2 with
    | gatherRecv _ _ _ _ _ y b' k1 k2 k3 =>
      by_cases hxy : x = y
      · subst hxy
        by_cases hb : b = b'
        · subst hb; exact .inl ⟨rfl, rfl⟩
        · exact .inr (.inl ⟨_, _, _, _, rfl, rfl, hb⟩)
      · refine .inr (.inr ⟨⟨(fun t t' s s' c c' e => by cases e), ?_⟩, ?_⟩)
        · rintro t t' s s' c c' e e' he
          cases e; cases e'; cases he
          exact hxy rfl
        · refine ⟨.gather sid n own (Function.update (Function.update got x (some b)) y (some b')) k,
            .gatherRecv _ _ _ _ _ _ _ k1 k2 (by rw [Function.update_of_ne (Ne.symm hxy)]; exact k3), ?_⟩
          rw [Function.update_comm hxy]
          exact .gatherRecv _ _ _ _ _ _ _ g1 g2 (by rw [Function.update_of_ne hxy]; exact g3)
    | gatherDone _ _ _ _ _ L hfull hL => exact absurd g3 (hfull x g1 g2)
    | gatherExpire => exact absurd rfl ha'.1
  | gatherDone sid n own got k L hfull hL =>
    cases h2 with
    | gatherRecv _ _ _ _ _ y b' k1 k2 k3 => exact absurd k3 (hfull y k1 k2)
    | gatherDone _ _ _ _ _ L' _ hL' =>
      cases h with
      | gather hs h hk => exact .inl ⟨rfl, hk got L L' hfull hL hL'⟩
    | gatherExpire => exact absurd rfl ha'.1
  | gatherExpire => exact absurd rfl ha.1
  | sendFail => exact absurd rfl ha.1
  | recvFail => exact absurd rfl ha.1
  | parL p p' q k a hst ih =>
    cases h with
    | par hdis w1 w2 hp hq hk =>
      cases h2 with
      | parL _ p'' _ _ _ hst' =>
        rcases ih hp hst' ha ha' with ⟨e, e'⟩ | e | ⟨hc, z, hz1, hz2⟩
        · subst e; subst e'; exact .inl ⟨rfl, rfl⟩
        · exact .inr (.inl e)
        · exact .inr (.inr ⟨hc, _, .parL _ _ _ _ _ hz1, .parL _ _ _ _ _ hz2⟩)
      | parR _ _ q' _ _ hst' =>
        refine .inr (.inr ⟨Compat.of_sid (fun s e1 e2 => hdis s (hst.sid hp s e1) (hst'.sid hq s e2)), _,
          .parR _ _ _ _ _ hst', .parL _ _ _ _ _ hst⟩)
      | join => cases hst
      | abortL => exact absurd rfl ha'.2
      | abortR => exact absurd rfl ha'.2
  | parR p q q' k a hst ih =>
    cases h with
    | par hdis w1 w2 hp hq hk =>
      cases h2 with
      | parL _ p'' _ _ _ hst' =>
        refine .inr (.inr ⟨Compat.of_sid (fun s e1 e2 => hdis s (hst'.sid hp s e2) (hst.sid hq s e1)), _,
          .parL _ _ _ _ _ hst', .parR _ _ _ _ _ hst⟩)
      | parR _ _ q'' _ _ hst' =>
        rcases ih hq hst' ha ha' with ⟨e, e'⟩ | e | ⟨hc, z, hz1, hz2⟩
        · subst e; subst e'; exact .inl ⟨rfl, rfl⟩
        · exact .inr (.inl e)
        · exact .inr (.inr ⟨hc, _, .parR _ _ _ _ _ hz1, .parR _ _ _ _ _ hz2⟩)
      | join => cases hst
      | abortL => exact absurd rfl ha'.2
      | abortR => exact absurd rfl ha'.2
  | join r s k =>
    cases h2 with
    | parL _ _ _ _ _ hst => cases hst
    | parR _ _ _ _ _ hst => cases hst
    | join => exact .inl ⟨rfl, rfl⟩
  | abortL => exact absurd rfl ha.2
  | abortR => exact absurd rfl ha.2

/-- Queue operations that do not compete commute. -/
theorem qstep_comm {i j : Nat} {a a' : Act} (hc : Compat i a j a') {Q Q1 Q2 : Queues}
    (h1 : qstep i a Q = some Q1) (h2 : qstep j a' Q = some Q2) :
    ∃ Q', qstep j a' Q1 = some Q' ∧ qstep i a Q2 = some Q' := by
  -- receive from a non-empty queue
  have hrecv : ∀ {i f : Nat} {s : Sid} {b : Bytes} {Q Q1 : Queues}, qstep i (.recv f s b) Q = some Q1 →
      ∃ rest, Q (f, i, s) = b :: rest ∧ Q1 = Function.update Q (f, i, s) rest := by
    intro i f s b Q Q1 h
    simp only [qstep] at h
    cases hq : Q (f, i, s) with
    | nil => rw [hq] at h; cases h
    | cons x rest =>
      rw [hq] at h
      simp only at h
      split at h
      · rename_i hx; subst hx; cases h; exact ⟨rest, rfl, rfl⟩
      · cases h
  have hrecv' : ∀ {i f : Nat} {s : Sid} {b : Bytes} {Q : Queues} {rest : List Bytes}, Q (f, i, s) = b :: rest →
      qstep i (.recv f s b) Q = some (Function.update Q (f, i, s) rest) := by
    intro i f s b Q rest h
    simp only [qstep]
    rw [h]
    simp
  cases a with
  | tau => cases h1; exact ⟨Q2, h2, rfl⟩
  | abort => cases h1; exact ⟨Q2, h2, rfl⟩
  | fault => cases h1; exact ⟨Q2, h2, rfl⟩
  | send t s b =>
    cases a' with
    | tau => cases h2; exact ⟨Q1, rfl, h1⟩
    | abort => cases h2; exact ⟨Q1, rfl, h1⟩
    | fault => cases h2; exact ⟨Q1, rfl, h1⟩
    | send t' s' b' =>
      have hne := hc.1 t t' s s' b b' rfl rfl
      cases h1; cases h2
      refine ⟨_, rfl, ?_⟩
      simp only [qstep]
      rw [Function.update_of_ne hne, Function.update_of_ne (Ne.symm hne), Function.update_comm hne]
    | recv f s' b' =>
      cases h1
      obtain ⟨rest, e, rfl⟩ := hrecv h2
      by_cases hk : (i, t, s) = (f, j, s')
      · cases hk
        refine ⟨_, hrecv' (rest := rest ++ [b]) (by rw [Function.update_self, e]; rfl), ?_⟩
        simp [qstep]
      · refine ⟨_, hrecv' (rest := rest) (by rw [Function.update_of_ne (Ne.symm hk)]; exact e), ?_⟩
        simp only [qstep]
        rw [Function.update_of_ne hk, Function.update_comm (Ne.symm hk)]
  | recv f s b =>
    obtain ⟨rest, e, rfl⟩ := hrecv h1
    cases a' with
    | tau => cases h2; exact ⟨_, rfl, h1⟩
    | abort => cases h2; exact ⟨_, rfl, h1⟩
    | fault => cases h2; exact ⟨_, rfl, h1⟩
    | send t' s' b' =>
      cases h2
      by_cases hk : (j, t', s') = (f, i, s)
      · cases hk
        refine ⟨Function.update Q (j, i, s) (rest ++ [b']), ?_, ?_⟩
        · simp [qstep]
        · rw [hrecv' (rest := rest ++ [b']) (by rw [Function.update_self, e]; rfl)]
          simp
      · refine ⟨Function.update (Function.update Q (f, i, s) rest) (j, t', s') (Q (j, t', s') ++ [b']), ?_, ?_⟩
        · simp only [qstep]
          rw [Function.update_of_ne hk]
        · rw [hrecv' (rest := rest) (by rw [Function.update_of_ne (Ne.symm hk)]; exact e), Function.update_comm hk]
    | recv f' s' b' =>
      obtain ⟨rest', e', rfl⟩ := hrecv h2
      have hne := hc.2 f f' s s' b b' rfl rfl
      refine ⟨_, hrecv' (rest := rest') (by rw [Function.update_of_ne (Ne.symm hne)]; exact e'), ?_⟩
      rw [hrecv' (rest := rest) (by rw [Function.update_of_ne hne]; exact e), Function.update_comm hne]

/-- All programs are well formed. -/
def Net.WF (c : Net n α) : Prop := ∀ i, ∃ S, (c.procs i).WF S

theorem GStep.wf {ok : Act → Prop} {c c' : Net n α} (h : GStep ok c c') (hc : c.WF) : c'.WF := by
  cases h with
  | mk procs Q Q' i a p' ha hstep hq =>
    intro j
    by_cases hij : j = i
    · subst hij
      obtain ⟨S, hS⟩ := hc j
      exact ⟨S, by simpa using hstep.wf hS⟩
    · simpa [Function.update_of_ne hij] using hc j

/-- Global diamond for core steps. -/
theorem GStep.diamond {ok ok' : Act → Prop} (hok : ∀ a, ok a → Core a) (hok' : ∀ a, ok' a → Core a) {c c1 c2 : Net n α}
    (hc : c.WF) (h1 : GStep ok c c1) (h2 : GStep ok' c c2) : c1 = c2 ∨ ∃ d, GStep ok' c1 d ∧ GStep ok c2 d := by
  cases h1 with
  | mk procs Q Q1 i a p1 ha hs1 hq1 =>
    cases h2 with
    | mk _ _ Q2 j a' p2 ha' hs2 hq2 =>
      by_cases hij : i = j
      · subst hij
        obtain ⟨S, hS⟩ := hc i
        rcases LStep.diamond hS hs1 hs2 (hok _ ha) (hok' _ ha') i with ⟨e, e'⟩ | ⟨f, s, b, b', e, e', hne⟩ | ⟨hcomp, q, hz1, hz2⟩
        · subst e; subst e'
          rw [hq1] at hq2
          cases hq2
          exact .inl rfl
        · subst e; subst e'
          exfalso
          simp only [qstep] at hq1 hq2
          cases hQ : Q (f, (i : Nat), s) with
          | nil => rw [hQ] at hq1; cases hq1
          | cons x rest =>
            rw [hQ] at hq1 hq2
            simp only at hq1 hq2
            split at hq1
            · split at hq2
              · apply hne; rename_i h1 h2; rw [← h1, h2]
              · cases hq2
            · cases hq1
        · obtain ⟨Q', hqa, hqb⟩ := qstep_comm hcomp hq1 hq2
          refine .inr ⟨⟨Function.update procs i q, Q'⟩, ?_, ?_⟩
          · have := GStep.mk (ok := ok') (Function.update procs i p1) Q1 Q' i a' q ha' (by simpa using hz1) hqa
            simpa using this
          · have := GStep.mk (ok := ok) (Function.update procs i p2) Q2 Q' i a q ha (by simpa using hz2) hqb
            simpa using this
      · obtain ⟨Q', hqa, hqb⟩ := qstep_comm (Compat.of_ne (by simpa [Fin.ext_iff] using hij)) hq1 hq2
        refine .inr ⟨⟨Function.update (Function.update procs i p1) j p2, Q'⟩, ?_, ?_⟩
        · exact GStep.mk (Function.update procs i p1) Q1 Q' j a' p2 ha'
            (by rw [Function.update_of_ne (Ne.symm hij)]; exact hs2) hqa
        · rw [Function.update_comm hij]
          exact GStep.mk (Function.update procs j p2) Q2 Q' i a p1 ha
            (by rw [Function.update_of_ne hij]; exact hs1) hqb

/-- If one core execution of length `m` ends in a state where nothing can move, then after any first step the same
state is reached in `m - 1` more steps. -/
theorem GSteps.strip {ok : Act → Prop} (hok : ∀ a, ok a → Core a) {m : Nat} {c t c1 : Net n α} (hc : c.WF)
    (hm : GSteps ok m c t) (ht : ¬ ∃ c', GStep Core t c') (h1 : GStep Core c c1) :
    ∃ m', m = m' + 1 ∧ GSteps ok m' c1 t := by
  induction m generalizing c c1 with
  | zero => cases hm; exact absurd ⟨_, h1⟩ ht
  | succ m ih =>
    cases hm with
    | step h hs =>
      refine ⟨m, rfl, ?_⟩
      rcases GStep.diamond hok (fun _ h => h) hc h h1 with rfl | ⟨d, hd1, hd2⟩
      · exact hs
      · obtain ⟨m', rfl, hs'⟩ := ih (h.wf hc) hs hd1
        exact .step hd2 hs'

theorem GSteps.confluence {ok : Act → Prop} (hok : ∀ a, ok a → Core a) {m k : Nat} {c t c' : Net n α} (hc : c.WF)
    (hm : GSteps ok m c t) (ht : ¬ ∃ c', GStep Core t c') (h : GSteps Core k c c') :
    k ≤ m ∧ GSteps ok (m - k) c' t := by
  induction h generalizing m with
  | refl c => exact ⟨Nat.zero_le _, hm⟩
  | step h1 _ ih =>
    obtain ⟨m', rfl, hs⟩ := GSteps.strip hok hc hm ht h1
    obtain ⟨a, b⟩ := ih (h1.wf hc) hs
    exact ⟨by omega, by rwa [Nat.add_sub_add_right]⟩

/-- Some branch of a running `try_join!` has failed. -/
inductive HasErr : {α : Type} → Proc α → Prop where
  | l {α β γ : Type} (e : Fault) (q : Proc γ) (k : β → γ → Proc α) : HasErr (.par (.done (.error e) : Proc β) q k)
  | r {α β γ : Type} (e : Fault) (p : Proc β) (k : β → γ → Proc α) : HasErr (.par p (.done (.error e) : Proc γ) k)
  | inL {α β γ : Type} (p : Proc β) (q : Proc γ) (k : β → γ → Proc α) (h : HasErr p) : HasErr (.par p q k)
  | inR {α β γ : Type} (p : Proc β) (q : Proc γ) (k : β → γ → Proc α) (h : HasErr q) : HasErr (.par p q k)

theorem LStep.hasErr_of_abort {p p' : Proc α} {a : Act} (h : LStep p a p') (ha : a = .abort) : HasErr p := by
  induction h with
  | parL _ _ _ _ _ _ ih => exact .inL _ _ _ (ih ha)
  | parR _ _ _ _ _ _ ih => exact .inR _ _ _ (ih ha)
  | abortL => exact .l _ _ _
  | abortR => exact .r _ _ _
  | _ => cases ha

theorem LStep.hasErr {p p' : Proc α} {a : Act} (h : LStep p a p') (ha : Core a) (he : HasErr p) : HasErr p' := by
  induction he generalizing a with
  | l e q k =>
    cases h with
    | parL _ _ _ _ _ hst => cases hst
    | parR _ _ q' _ _ hst => exact .l _ _ _
    | abortL => exact absurd rfl ha.2
    | abortR => exact absurd rfl ha.2
  | r e p k =>
    cases h with
    | parL _ _ _ _ _ hst => exact .r _ _ _
    | parR _ _ q' _ _ hst => cases hst
    | abortL => exact absurd rfl ha.2
    | abortR => exact absurd rfl ha.2
  | inL p q k he ih =>
    cases h with
    | parL _ _ _ _ _ hst => exact .inL _ _ _ (ih hst ha)
    | parR _ _ q' _ _ hst => exact .inL _ _ _ he
    | join => cases he
    | abortL => exact absurd rfl ha.2
    | abortR => exact absurd rfl ha.2
  | inR p q k he ih =>
    cases h with
    | parL _ _ _ _ _ hst => exact .inR _ _ _ he
    | parR _ _ q' _ _ hst => exact .inR _ _ _ (ih hst ha)
    | join => cases he
    | abortL => exact absurd rfl ha.2
    | abortR => exact absurd rfl ha.2

theorem GSteps.hasErr {k : Nat} {c c' : Net n α} (h : GSteps Core k c c') {i : Fin n} (he : HasErr (c.procs i)) :
    HasErr (c'.procs i) := by
  induction h with
  | refl => exact he
  | step h1 _ ih =>
    apply ih
    cases h1 with
    | mk procs Q Q' j a p' ha hstep hq =>
      by_cases hij : i = j
      · subst hij; simpa using hstep.hasErr ha he
      · simpa [Function.update_of_ne hij] using he

theorem GSteps.trans {ok : Act → Prop} {k m : Nat} {c c' c'' : Net n α} (h : GSteps ok k c c') (h' : GSteps ok m c' c'') :
    GSteps ok (k + m) c c'' := by
  induction h with
  | refl => rw [Nat.zero_add]; exact h'
  | step h1 _ ih => rw [Nat.add_right_comm]; exact .step h1 (ih h')

theorem GStep.mono {ok ok' : Act → Prop} (hok : ∀ a, ok a → ok' a) {c c' : Net n α} (h : GStep ok c c') :
    GStep ok' c c' := by
  cases h with
  | mk procs Q Q' i a p' ha hstep hq => exact .mk procs Q Q' i a p' (hok a ha) hstep hq

/-- With one core execution to a state where nothing can move and no `try_join!` waits for its cancellation, reliable
executions consist of core steps. -/
theorem core_of_reliable {c t : Net n α} (hc : c.WF) {m : Nat} (hm : GSteps Core m c t)
    (ht : ¬ ∃ c', GStep Core t c') (hne : ∀ i, ¬ HasErr (t.procs i)) :
    ∀ k c', GSteps Reliable k c c' → GSteps Core k c c' := by
  have aux : ∀ k (d c' : Net n α), GSteps Reliable k d c' → ∀ j, GSteps Core j c d → GSteps Core k d c' := by
    intro k d c' h
    induction h with
    | refl => intro j _; exact .refl _
    | @step k d d1 d2 h1 _ ih =>
      intro j hj
      have : GStep Core d d1 := by
        cases h1 with
        | mk procs Q Q' i a p' ha hstep hq =>
          refine .mk procs Q Q' i a p' ⟨ha, ?_⟩ hstep hq
          intro hab
          have he := hstep.hasErr_of_abort hab
          have := (GSteps.confluence (fun _ h => h) hc hm ht hj).2.hasErr (i := i) he
          exact hne i this
      exact .step this (ih _ (hj.trans (.step this (.refl _))))
  exact fun k c' h => aux k c c' h 0 (.refl _)

/-- Core steps that send only messages satisfying `P`. -/
def CoreP (P : Bytes → Prop) (a : Act) : Prop := Core a ∧ ∀ d s b, a = .send d s b → P b

theorem GSteps.mono {ok ok' : Act → Prop} (hok : ∀ a, ok a → ok' a) {k : Nat} {c c' : Net n α} (h : GSteps ok k c c') :
    GSteps ok' k c c' := by
  induction h with
  | refl => exact .refl _
  | step h1 _ ih => exact .step (h1.mono hok) ih

/-- One core execution to a state where nothing can move and no `try_join!` waits for its cancellation determines all
reliable executions. -/
theorem reliable_of_run {P : Bytes → Prop} {c t : Net n α} (hc : c.WF) {m : Nat} (hm : GSteps (CoreP P) m c t)
    (ht : ¬ ∃ c', GStep Core t c') (hne : ∀ i, ¬ HasErr (t.procs i)) :
    (∀ k c', GSteps Reliable k c c' → k ≤ m) ∧
    ∀ k c', GSteps Reliable k c c' → (¬ ∃ c'', GStep Reliable c' c'') → c' = t := by
  replace hm := hm.mono fun _ h => h.1
  have hcore := core_of_reliable hc hm ht hne
  refine ⟨fun k c' h => (GSteps.confluence (fun _ h => h) hc hm ht (hcore k c' h)).1, ?_⟩
  intro k c' h hstuck
  have h2 := (GSteps.confluence (fun _ h => h) hc hm ht (hcore k c' h)).2
  generalize hx : m - k = x at h2
  cases h2 with
  | refl => rfl
  | step h1 _ => exact absurd ⟨_, h1.mono (fun a ha => ha.1)⟩ hstuck

/-- The messages of one core execution to a state where nothing can move are those of all core executions. -/
theorem send_of_run {P : Bytes → Prop} {c t : Net n α} (hc : c.WF) {m : Nat} (hm : GSteps (CoreP P) m c t)
    (ht : ¬ ∃ c', GStep Core t c') {i : Fin n} {d : Nat} {s : Sid} {b : Bytes} {p' : Proc α}
    (h : LStep (c.procs i) (.send d s b) p') : P b := by
  have hcs : Core (.send d s b) := ⟨by simp, by simp⟩
  induction m generalizing c p' with
  | zero => cases hm; exact absurd ⟨_, .mk _ _ _ i _ p' hcs h rfl⟩ ht
  | succ m ih =>
    cases hm with
    | step h1 hs =>
      have hc1 := h1.wf hc
      cases h1 with
      | mk procs Q Q' j a p1 ha hstep hq =>
        by_cases hij : i = j
        · subst hij
          obtain ⟨S, hS⟩ := hc i
          rcases LStep.diamond hS hstep h ha.1 hcs i with ⟨rfl, _⟩ | ⟨_, _, _, _, _, e, _⟩ | ⟨_, q, hq, _⟩
          · exact ha.2 _ _ _ rfl
          · cases e
          · exact ih hc1 hs (p' := q) (by simpa using hq)
        · exact ih hc1 hs (p' := p') (by simpa [Function.update_of_ne hij] using h)

/-- One successful core execution that sends only messages satisfying `P` shows that all reliable executions do. -/
theorem sends_of_run {P : Bytes → Prop} {c : Net n α} (hc : c.WF) {m : Nat} {Q : Queues} {rs : Fin n → α}
    (hm : GSteps (CoreP P) m c ⟨fun i => .done (.ok (rs i)), Q⟩) {k : Nat} {c' : Net n α} (h : GSteps Reliable k c c')
    {i : Fin n} {d : Nat} {s : Sid} {b : Bytes} {p' : Proc α} (hs : LStep (c'.procs i) (.send d s b) p') : P b := by
  have ht : ¬ ∃ c', GStep Core (⟨fun i => .done (.ok (rs i)), Q⟩ : Net n α) c' := by
    rintro ⟨c', h⟩
    cases h with
    | mk procs Q Q' i a p' ha hstep hq => cases hstep
  have hm' := hm.mono fun _ h => h.1
  have hk := core_of_reliable hc hm' ht (fun i h => by cases h) k c' h
  have hwf : c'.WF := by
    clear hs hm hm' h ht
    induction hk with
    | refl => exact hc
    | step h1 _ ih => exact ih (h1.wf hc)
  exact send_of_run hwf (GSteps.confluence (fun _ h => h.1) hc hm ht hk).2 ht hs

/-- One successful core execution determines all reliable executions. -/
theorem alwaysYields_of_run {P : Bytes → Prop} {c : Net n α} (hc : c.WF) {m : Nat} {Q : Queues} {rs : Fin n → α}
    (hm : GSteps (CoreP P) m c ⟨fun i => .done (.ok (rs i)), Q⟩) : Spec.AlwaysYields c rs := by
  obtain ⟨h1, h2⟩ := reliable_of_run hc hm
    (by
      rintro ⟨c', h⟩
      cases h with
      | mk procs Q Q' i a p' ha hstep hq => cases hstep)
    (fun i h => by cases h)
  exact ⟨⟨m, h1⟩, fun k c' h hs i => by rw [h2 k c' h hs]⟩

end ZkSaas
