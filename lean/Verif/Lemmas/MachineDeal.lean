import Verif.Lemmas.SameRuns
import Verif.Lemmas.SmallDomain

/-!
# The client's work with machine integers
-/

namespace ZkSaas

theorem mapM_mem {α β : Type} {f : α → Res β} {xs : List α} {ys : List β} (h : xs.mapM f = .ok ys) {y : β} (hy : y ∈ ys) :
    ∃ x ∈ xs, f x = .ok y := by
  induction xs generalizing ys with
  | nil => cases h; cases hy
  | cons x xs ih =>
    rw [List.mapM_cons] at h
    obtain ⟨y', h', h⟩ := bind_eq_ok h
    obtain ⟨ys', h'', h⟩ := bind_eq_ok h
    cases h
    rcases List.mem_cons.1 hy with rfl | hy
    · exact ⟨x, by simp, h'⟩
    · obtain ⟨z, hz, e⟩ := ih h'' hy
      exact ⟨z, by simp [hz], e⟩

theorem rd_mem {α : Type} {v : List α} {i : Nat} {x : α} (h : rd v i = .ok x) : x ∈ v := by
  unfold rd at h
  split at h
  · rename_i y e; cases h; exact List.mem_of_getElem? e
  · cases h

theorem transpose_mem_length {T : Type} {m r : List (List T)} (h : transpose m = .ok r) : ∀ x ∈ r, x.length = m.length := by
  unfold transpose at h
  obtain ⟨_, -, h⟩ := bind_eq_ok h
  obtain ⟨row0, -, h⟩ := bind_eq_ok h
  obtain ⟨x, -, h⟩ := bind_eq_ok h
  refine forUp_preserves (fun r : List (List T) => ∀ x ∈ r, x.length = m.length) (fun c s s' hs hl => ?_) h (fun x hx => by
    rw [List.eq_of_mem_replicate hx, List.length_replicate])
  refine forUp_preserves (fun r : List (List T) => ∀ x ∈ r, x.length = m.length) (fun c s s' hs hl => ?_) hs hl
  obtain ⟨_, -, hs⟩ := bind_eq_ok hs
  obtain ⟨_, -, hs⟩ := bind_eq_ok hs
  obtain ⟨col, hcol, hs⟩ := bind_eq_ok hs
  obtain ⟨col', hcol', hs⟩ := bind_eq_ok hs
  have hc : col'.length = m.length := (wr_length hcol').trans (hl _ (rd_mem hcol))
  unfold wr at hs
  split at hs
  · cases hs
    intro x hx
    rcases List.mem_or_eq_of_mem_set hx with hx | rfl
    · exact hl x hx
    · exact hc
  · cases hs

variable {F : Type} [Field F] [DecidableEq F]

theorem PSS.packVec_length {T : Type} [AddCommGroup T] [Module F T] [DecidableEq T] {pp : PSS F} {dbg : Bool} {v : List T} {rng : Nat → Nat → T}
    {rows : List (List T)} (h : pp.packVec dbg v rng = .ok rows) : rows.length * pp.l ≤ v.length + pp.l := by
  unfold PSS.packVec at h
  obtain ⟨_, -, h⟩ := bind_eq_ok h
  obtain ⟨_, -, h⟩ := bind_eq_ok h
  rw [mapM_length h, List.length_range, numChunks]
  exact le_trans (Nat.div_mul_le_self _ _) (Nat.sub_le _ _)

theorem PSS.packStrided_length {T : Type} [AddCommGroup T] [Module F T] [DecidableEq T] {pp : PSS F} {dbg : Bool} {v : List T} {rng : Nat → Nat → T}
    {rows : List (List T)} (h : pp.packStrided dbg v rng = .ok rows) : rows.length * pp.l ≤ v.length := by
  unfold PSS.packStrided at h
  obtain ⟨_, -, h⟩ := bind_eq_ok h
  rw [mapM_length h, List.length_range]
  exact Nat.div_mul_le_self _ _

theorem PSS.fft2Finish_length {pp : PSS F} {dbg : Bool} {s1 : List F} {g gen : F} {rearrange : Bool} {post : F → F} {rng : Nat → Nat → F}
    {r : List (List F)} (h : pp.fft2Finish dbg s1 g gen rearrange post rng = .ok r) : ∀ x ∈ r, x.length * pp.l ≤ s1.length + pp.l := by
  unfold PSS.fft2Finish at h
  obtain ⟨w, hw, h⟩ := bind_eq_ok h
  have hw := PSS.fft2InPlace_length hw
  have hl : ((if g ≠ 1 then distributePowers w g else w).map post).length = s1.length := by
    rw [List.length_map, ← hw]
    split
    · simp [distributePowers]
    · rfl
  dsimp only at h
  split at h
  · obtain ⟨w', hw', h⟩ := bind_eq_ok h
    obtain ⟨rows, hr, h⟩ := bind_eq_ok h
    intro x hx
    rw [transpose_mem_length h x hx]
    have h1 := PSS.packStrided_length hr
    have h2 := fftInPlaceRearrange_length hw'
    omega
  · obtain ⟨rows, hr, h⟩ := bind_eq_ok h
    intro x hx
    rw [transpose_mem_length h x hx]
    have h1 := PSS.packVec_length hr
    omega

theorem FftMask.sample_length {pp : PSS F} {dbg rearrange : Bool} {g gen : F} {m : Nat} {vals : Nat → F} {rngIn rngOut : Nat → Nat → F}
    {ms : List (FftMask F)} (h : FftMask.sample pp dbg rearrange g gen m vals rngIn rngOut = .ok ms) :
    ∀ x ∈ ms, x.outMask.length * pp.l ≤ m + pp.l := by
  unfold FftMask.sample at h
  obtain ⟨_, -, h⟩ := bind_eq_ok h
  obtain ⟨ins, -, h⟩ := bind_eq_ok h
  obtain ⟨outs, ho, h⟩ := bind_eq_ok h
  cases h
  intro x hx
  rw [List.mem_iff_getElem] at hx
  obtain ⟨i, hi, rfl⟩ := hx
  rw [List.getElem_zipWith]
  have := PSS.fft2Finish_length ho (outs[i]'(by rw [List.length_zipWith] at hi; omega)) (List.getElem_mem _)
  simpa using this

theorem qap_sizes [FftField F] {mats : ConstraintMatrices F} {z : List F} {q : QAP F} (h : qap mats z = .ok (some q)) :
    Domain.new (mats.numConstraints + mats.numInstanceVariables) = some q.domain ∧ q.a.length = q.domain.size ∧ q.b.length = q.domain.size ∧
      q.c.length = q.domain.size := by
  unfold qap at h
  dsimp only at h
  split at h
  · cases h
  · rename_i d hd
    obtain ⟨⟨a, b⟩, hab, h⟩ := bind_eq_ok h
    obtain ⟨a', ha, h⟩ := bind_eq_ok h
    obtain ⟨c, hc, h⟩ := bind_eq_ok h
    cases h
    have h1 : a.length = d.size ∧ b.length = d.size := by
      refine forUp_preserves (fun s : List F × List F => s.1.length = d.size ∧ s.2.length = d.size) (fun i s s' hs hl => ?_) hab (by simp)
      obtain ⟨_, -, hs⟩ := bind_eq_ok hs
      obtain ⟨_, -, hs⟩ := bind_eq_ok hs
      obtain ⟨_, -, hs⟩ := bind_eq_ok hs
      obtain ⟨_, -, hs⟩ := bind_eq_ok hs
      obtain ⟨_, h1, hs⟩ := bind_eq_ok hs
      obtain ⟨_, h2, hs⟩ := bind_eq_ok hs
      cases hs
      exact ⟨(wr_length h1).trans hl.1, (wr_length h2).trans hl.2⟩
    have h2 : a'.length = d.size := by
      refine forUp_preserves (fun s : List F => s.length = d.size) (fun i s s' hs hl => ?_) ha h1.1
      obtain ⟨_, -, hs⟩ := bind_eq_ok hs
      exact (wr_length hs).trans hl
    have h3 : c.length = d.size := by
      refine forUp_preserves (fun s : List F => s.length = d.size) (fun i s s' hs hl => ?_) hc (by simp)
      obtain ⟨_, -, hs⟩ := bind_eq_ok hs
      obtain ⟨_, -, hs⟩ := bind_eq_ok hs
      exact (wr_length hs).trans hl
    exact ⟨hd, h2, h1.2, h3⟩

theorem column_length {T : Type} {rows : List (List T)} {i : Nat} {c : List T} (h : column rows i = .ok c) : c.length = rows.length :=
  mapM_length h

theorem pss_sizes {q : QAP F} {pp : PSS F} {dbg : Bool} {rngA rngB rngC : Nat → Nat → F} {qs : List (PackedQAPShare F)}
    (h : q.pss pp dbg rngA rngB rngC = .ok qs) {x : PackedQAPShare F} (hx : x ∈ qs) : x.domain = q.domain ∧ x.a.length * pp.l ≤ q.a.length ∧
      x.b.length * pp.l ≤ q.b.length ∧ x.c.length * pp.l ≤ q.c.length := by
  have hv : ∀ {v : List F} {rng : Nat → Nat → F} {rows : List (List F)}, pp.packQapVec dbg v rng = .ok rows → rows.length * pp.l ≤ v.length := by
    intro v rng rows h
    obtain ⟨w, hw, h⟩ := bind_eq_ok h
    rw [← fftInPlaceRearrange_length hw]
    exact PSS.packStrided_length h
  unfold QAP.pss at h
  obtain ⟨pa, ha, h⟩ := bind_eq_ok h
  obtain ⟨pb, hb, h⟩ := bind_eq_ok h
  obtain ⟨pc, hc, h⟩ := bind_eq_ok h
  obtain ⟨i, -, h⟩ := mapM_mem h hx
  obtain ⟨a, ea, h⟩ := bind_eq_ok h
  obtain ⟨b, eb, h⟩ := bind_eq_ok h
  obtain ⟨c, ec, h⟩ := bind_eq_ok h
  cases h
  exact ⟨rfl, by rw [column_length ea]; exact hv ha, by rw [column_length eb]; exact hv hb, by rw [column_length ec]; exact hv hc⟩

section groth16
variable [FftField F] {G1 G2 : Type} [AddCommGroup G1] [Module F G1] [DecidableEq G1] [FixedWire G1]
  [AddCommGroup G2] [Module F G2] [DecidableEq G2] [FixedWire G2]

theorem qap_domain_le {mats : ConstraintMatrices F} {z : List F} {q : QAP F} (h : qap mats z = .ok (some q)) {e : Nat}
    (hsz : mats.numConstraints + mats.numInstanceVariables ≤ 2 ^ e) : q.domain.size ≤ 2 ^ e := by
  have hd := (qap_sizes h).1
  unfold Domain.new at hd
  dsimp only at hd
  split at hd
  · cases hd
  · rw [← Option.some.inj hd]
    exact Nat.pow_le_pow_right (by norm_num) (Nat.clog_le_of_le_pow hsz)

theorem PSS.dealM_eq {pp : PSS F} (hs : pp.Small) (dbg : Bool) (copies : Nat) (mats : ConstraintMatrices F) (z : List F)
    (hsz : mats.numConstraints + mats.numInstanceVariables ≤ 2 ^ 62) (pk : ProvingKey G1 G2) (gen1 : G1) (gen2 : G2) (r s : F)
    (t : ClientTape F G1 G2) : pp.dealM dbg copies mats z pk gen1 gen2 r s t = pp.deal dbg copies mats z pk gen1 gen2 r s t := by
  have hU : 2 * (2 : Nat) ^ 62 < USIZE := by norm_num
  unfold PSS.dealM PSS.deal
  rw [qapM_eq dbg mats z (by omega)]
  simp only [PSS.packM_eq hs, QAP.pssM_eq hs, PSS.packFromWitnessM_eq hs, MsmMask.sampleM_eq hs]
  cases hq : qap mats z with
  | error e => simp only [error_bind]
  | ok q? =>
  rcases q? with _ | q
  · simp only [ok_bind, show unwrap (none : Option (QAP F)) = panic' from rfl, panic_bind]
  have hd := qap_domain_le hq hsz
  simp only [ok_bind, show unwrap (some q) = .ok q from rfl]
  congr 1; funext rs
  congr 1; funext ss
  cases hqs : q.pss pp dbg t.qapA t.qapB t.qapC with
  | error e => simp only [error_bind]
  | ok qs =>
  simp only [ok_bind]
  congr 1; funext crs
  congr 1; funext _
  congr 1; funext axs
  congr 1; funext _
  congr 1; funext as
  cases hx : rd qs 0 with
  | error e => simp only [error_bind]
  | ok x =>
  have hxd := (pss_sizes hqs (rd_mem hx)).1
  simp only [ok_bind, hxd]
  rw [umul_ok (show 2 * q.domain.size < USIZE by omega), ok_bind]
  simp only [FftMask.sampleM_eq hs dbg _ _ _ (show q.domain.size ≤ 2 ^ 63 by omega),
    DegRedMask.sampleM_eq hs dbg (1 : F) (show q.domain.size / pp.l * pp.l < USIZE from
      lt_of_le_of_lt (Nat.div_mul_le_self _ _) (by omega))]

theorem deal_fits {pp : PSS F} (hs : pp.Small) {dbg : Bool} {copies : Nat} {mats : ConstraintMatrices F} {z : List F}
    (hsz : mats.numConstraints + mats.numInstanceVariables ≤ 2 ^ 62) {pk : ProvingKey G1 G2} {gen1 : G1} {gen2 : G2} {r s : F}
    {t : ClientTape F G1 G2} {ins : List (ServerInput F G1 G2)} (h : pp.deal dbg copies mats z pk gen1 gen2 r s t = .ok ins)
    {x : ServerInput F G1 G2} (hx : x ∈ ins) : FitsH pp x.q fun k => x.fftMask.getD k (FftMask.zero 0) := by
  have hl : pp.l ≤ 2 ^ 62 := by have := hs.lt; norm_num [USIZE] at this ⊢; omega
  unfold PSS.deal at h
  obtain ⟨q?, hq, h⟩ := bind_eq_ok h
  obtain ⟨q, hu, h⟩ := bind_eq_ok h
  have hq : qap mats z = .ok (some q) := by
    rw [hq]
    cases q? with
    | none => cases hu
    | some q' => cases hu; rfl
  obtain ⟨rs, -, h⟩ := bind_eq_ok h
  obtain ⟨ss, -, h⟩ := bind_eq_ok h
  obtain ⟨qs, hqs, h⟩ := bind_eq_ok h
  iterate 5 obtain ⟨_, -, h⟩ := bind_eq_ok h
  obtain ⟨x0, hx0, h⟩ := bind_eq_ok h
  obtain ⟨dd, -, h⟩ := bind_eq_ok h
  obtain ⟨m0, h0, h⟩ := bind_eq_ok h
  obtain ⟨m1, h1, h⟩ := bind_eq_ok h
  obtain ⟨m2, h2, h⟩ := bind_eq_ok h
  obtain ⟨m3, h3, h⟩ := bind_eq_ok h
  obtain ⟨m4, h4, h⟩ := bind_eq_ok h
  obtain ⟨m5, h5, h⟩ := bind_eq_ok h
  iterate 6 obtain ⟨_, -, h⟩ := bind_eq_ok h
  obtain ⟨idx, -, h⟩ := mapM_mem h hx
  iterate 3 obtain ⟨_, -, h⟩ := bind_eq_ok h
  obtain ⟨xq, hxq, h⟩ := bind_eq_ok h
  iterate 4 obtain ⟨_, -, h⟩ := bind_eq_ok h
  obtain ⟨fm, hfm, h⟩ := bind_eq_ok h
  obtain ⟨_, -, h⟩ := bind_eq_ok h
  cases h
  obtain ⟨-, la, lb, lc⟩ := qap_sizes hq
  have hd := qap_domain_le hq hsz
  have hd0 := (pss_sizes hqs (rd_mem hx0)).1
  obtain ⟨e, ha, hb, hc⟩ := pss_sizes hqs (rd_mem hxq)
  have h63 : (2 : Nat) ^ 62 + 2 ^ 62 ≤ 2 ^ 63 := by norm_num
  refine ⟨by dsimp only; omega, by dsimp only; omega, by dsimp only; omega, by dsimp only; rw [e]; exact hd, fun k => ?_⟩
  have hm : ∀ m ∈ fm, m.outMask.length * pp.l ≤ 2 ^ 63 := by
    intro m hm
    obtain ⟨ms, hms, hrd⟩ := mapM_mem hfm hm
    have hmem := rd_mem hrd
    rw [hd0] at h0 h1 h2 h3 h4 h5
    have key : m.outMask.length * pp.l ≤ q.domain.size + pp.l := by
      simp only [List.mem_cons, List.not_mem_nil, or_false] at hms
      rcases hms with rfl | rfl | rfl | rfl | rfl | rfl
      · exact FftMask.sample_length h0 m hmem
      · exact FftMask.sample_length h1 m hmem
      · exact FftMask.sample_length h2 m hmem
      · exact FftMask.sample_length h3 m hmem
      · exact FftMask.sample_length h4 m hmem
      · exact FftMask.sample_length h5 m hmem
    omega
  show (fm.getD k (FftMask.zero 0)).outMask.length * pp.l ≤ 2 ^ 63
  by_cases hk : k < fm.length
  · rw [List.getD_eq_getElem _ _ hk]
    exact hm _ (List.getElem_mem _)
  · rw [List.getD_eq_default _ _ (by omega)]
    simp [FftMask.zero]

end groth16

end ZkSaas
