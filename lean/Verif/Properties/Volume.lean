import Verif.Properties.Proof
import Verif.Properties.Frame

/-!
# C84: how many bytes the servers exchange
-/

set_option linter.unusedSectionVars false

namespace ZkSaas.Properties

open Finset Spec Polynomial

theorem once_sum (sid : Sid) : once sid .zero + once sid .one + once sid .two = 1 := by cases sid <;> decide

theorem rounds322_sum : rounds322 .zero + rounds322 .one + rounds322 .two = 7 := by decide

theorem exchanges_once {n m : Nat} {α : Type} (hn : 0 < n) {sid : Sid} {ps : Fin n → Proc α} {rs : Fin n → α} (h : Runs (Sized m) (only sid) ps rs)
    (hwf : ∀ i, (ps i).WF (only sid)) (hr : ∀ i, (ps i).Rounds n i (once sid)) (hf : ∀ i j, Peer' n i.val j → (ps i).Unheard j) :
    Exchanges (Net.init ps) m m := by
  have h := (h.mono fun _ _ => trivial).runsB (fun i => (hwf i).mono fun _ _ => trivial) hr hf
  rw [once_sum, one_mul] at h
  exact h.exchanges hn (R := fun _ => once sid) (fun i => (hwf i).mono fun _ _ => trivial) hr hf

theorem heard_gathered {T : Type} [Wire T] (n : Nat) (x : Nat → T) (j : Nat) (hj : j < n) : heard j (gathered n x) = (Wire.enc (x j)).length := by
  rw [heard, gathered, List.map_map]
  induction n with
  | zero => omega
  | succ n ih =>
    rw [List.range_succ, List.map_append, List.sum_append]
    by_cases h : j = n
    · subst h
      have : ((List.range j).map ((fun x : Nat × Bytes => if x.1 = j then x.2.length else 0) ∘ fun p => (p, Wire.enc (x p)))).sum = 0 := by
        rw [List.sum_eq_zero]
        intro w hw
        obtain ⟨k, hk, rfl⟩ := List.mem_map.1 hw
        have := List.mem_range.1 hk
        simp only [Function.comp_apply]
        rw [if_neg (by omega)]
      rw [this]
      simp
    · rw [ih (by omega)]
      simp [Ne.symm h]

/-- A round whose messages have `u` bytes to the king and `m` bytes back. -/
theorem runsB_round {T U : Type} [Wire T] [Wire U] {n : Nat} (hn : 0 < n) (sid : Sid) (threshold : Nat) (x : Nat → T) (u : Nat)
    (hx : ∀ i < n, Wire.Ok (x i) ∧ (Wire.enc (x i)).length = u) (K : Fin n → ReceivedShares T → Res (List U)) (ans : Nat → U) (m : Nat)
    (hK : K ⟨0, hn⟩ ⟨(List.range n).map x, List.range n⟩ = .ok ((List.range n).map ans))
    (hans : ∀ i < n, Wire.Ok (ans i) ∧ (Wire.enc (ans i)).length = m) {α : Type} (f : Fin n → U → Proc α) {out : Fin n → α} {up down : Nat}
    (hf : RunsB All (fun _ => True) (fun i => f i (ans i)) out up down) :
    RunsB All (fun _ => True) (fun i : Fin n => (clientSendOrKingReceiveSer n i (x i) sid threshold).bind fun r =>
      (Proc.done (kingDo (K i) r)).bind fun a => (clientReceiveOrKingSendSer n i a sid).bind (f i)) out (u + up) (m + down) := by
  have h := (runsV_round hn sid threshold x (fun i hi => (hx i hi).1) K ans m hK hans (fun _ y => Proc.done (.ok y))
    (RunsV.done fun i => ans i)).mono (S' := fun _ => True) fun _ _ => trivial
  have h1 : RunsB All (fun _ => True) (fun i : Fin n => (clientSendOrKingReceiveSer n i (x i) sid threshold).bind fun r =>
      (Proc.done (kingDo (K i) r)).bind fun a => (clientReceiveOrKingSendSer n i a sid).bind fun y => Proc.done (.ok y))
      (fun i : Fin n => ans i) u m := by
    refine ⟨_, h, fun i j hj => ?_⟩
    rw [heard_append, heard_nil, add_zero]
    by_cases hi : i.val = 0
    · have hj' : j < n := by unfold Peer' at hj; omega
      rw [if_pos hi, if_pos hi, heard_gathered n x j hj', (hx j hj').2]
    · have hj' : 0 = j := by unfold Peer' at hj; omega
      rw [if_neg hi, if_neg hi, heard_single, if_pos hj', (hans i i.2).2]
  refine (RunsB.bind h1 hf).congr (fun i => ?_) fun _ => rfl
  simp only [Proc.bind_assoc]
  rfl

variable {F : Type} [Field F] [DecidableEq F] [FftField F] [FixedWire F]

/-- **C84** `d_fft`: one vector of `2^a` elements, with its length, in each direction. -/
theorem C84_d_fft {dbg₀ : Bool} {b : Nat} {pp : PSS F} (hpp : PSS.new dbg₀ (2 ^ b) = .ok pp) (dbg : Bool) (a : Nat) (ha : a < 64)
    {dom : Domain F} (hdom : Domain.new (2 ^ (a + b)) = some dom) (sh : Nat → List F) (coeffs : List F)
    (hsh : HoldsInput pp a b sh coeffs) (rearrange : Bool) (masks : Nat → FftMask F)
    (hm : IsFftMasks pp rearrange 1 dom.groupGen (2 ^ (a + b)) masks) (sid : Sid) (rng : Nat → Nat → F) :
    Exchanges (Net.init fun i : Fin (4 * 2 ^ b) => pp.dFft dbg (4 * 2 ^ b) i (sh i) (masks i) rearrange dom sid rng)
      (8 + 2 ^ a * FixedWire.width F) (8 + 2 ^ a * FixedWire.width F) := by
  obtain ⟨outs, hr, -⟩ := dFft_runs hpp dbg a ha hdom hsh rearrange hm sid rng
  exact exchanges_once (four_pos b) hr (fun i => PSS.dFft_wf _ (four_pos b) _ _ _ _ _ _ _) (fun i => pp.dFft_rounds ..)
    fun i j hj => pp.dFft_unheard _ hj ..

/-- **C84** `d_ifft`: the same. -/
theorem C84_d_ifft {dbg₀ : Bool} {b : Nat} {pp : PSS F} (hpp : PSS.new dbg₀ (2 ^ b) = .ok pp) (dbg : Bool) (a : Nat) (ha : a < 64)
    {dom : Domain F} (hdom : Domain.new (2 ^ (a + b)) = some dom) (sh : Nat → List F) (evals : List F)
    (hsh : HoldsInput pp a b sh evals) (g : F) (rearrange : Bool) (masks : Nat → FftMask F)
    (hm : IsFftMasks pp rearrange g dom.groupGenInv (2 ^ (a + b)) masks) (sid : Sid) (rng : Nat → Nat → F) :
    Exchanges (Net.init fun i : Fin (4 * 2 ^ b) => pp.dIfft dbg (4 * 2 ^ b) i (sh i) (masks i) rearrange dom g sid rng)
      (8 + 2 ^ a * FixedWire.width F) (8 + 2 ^ a * FixedWire.width F) := by
  obtain ⟨outs, hr, -⟩ := dIfft_runs hpp dbg a ha hdom hsh g rearrange hm sid rng
  exact exchanges_once (four_pos b) hr (fun i => PSS.dIfft_wf _ (four_pos b) _ _ _ _ _ _ _ _) (fun i => pp.dIfft_rounds ..)
    fun i j hj => pp.dIfft_unheard _ hj ..

/-- **C84** `deg_red` of `N` positions: one vector of `N` elements in each direction. -/
theorem C84_deg_red {T : Type} [AddCommGroup T] [Module F T] [DecidableEq T] [FixedWire T] {dbg₀ : Bool} {b : Nat} {pp : PSS F}
    (hpp : PSS.new dbg₀ (2 ^ b) = .ok pp) (dbg : Bool) {N d : Nat}
    (hN : 0 < N) (hN64 : N < 2 ^ 64) (hd2 : 2 * 2 ^ b ≤ d) (hd4 : d ≤ 4 * 2 ^ b - 1) (sh sec : Nat → List T)
    (hsh : Spec.SharedVec pp.share.groupGen pp.secret.offset (2 ^ b) d N sh sec)
    (masks : Nat → DegRedMask T) (hm : IsDegRedMasks pp N masks) (sid : Sid) (rng : Nat → Nat → T) :
    Exchanges (Net.init fun i : Fin (4 * 2 ^ b) => pp.degRed dbg (4 * 2 ^ b) i (sh i) (masks i) sid rng)
      (8 + N * FixedWire.width T) (8 + N * FixedWire.width T) := by
  have hle := l_eq hpp
  have hg := PSS.good_of_new hpp
  rw [← hle] at hsh hd2 hd4
  obtain ⟨outs, hr, -⟩ := PSS.degRed_runs (n := 4 * 2 ^ b) hg dbg (by rw [hle]) hN hN64 hd2 hd4 hsh (hm.ok hpp hN) sid rng
  exact exchanges_once (four_pos b) hr (fun i => PSS.degRed_wf _ (four_pos b) _ _ _ _ _) (fun i => pp.degRed_rounds ..)
    fun i j hj => pp.degRed_unheard _ hj ..

/-- **C84** `d_msm`: one group element in each direction, however long the vectors. -/
theorem C84_d_msm {G : Type} [AddCommGroup G] [Module F G] [DecidableEq G] [FixedWire G] {dbg₀ : Bool} {b : Nat} {pp : PSS F}
    (hpp : PSS.new dbg₀ (2 ^ b) = .ok pp) (dbg : Bool) {N : Nat} (bs bsec : Nat → List G) (ss ssec : Nat → List F)
    (hb : Spec.SharedVec pp.share.groupGen pp.secret.offset (2 ^ b) (2 * 2 ^ b) N bs bsec)
    (hs : Spec.SharedVec pp.share.groupGen pp.secret.offset (2 ^ b) (2 * 2 ^ b) N ss ssec)
    (masks : Nat → MsmMask G) (hm : IsMsmMasks pp masks) (sid : Sid) :
    Exchanges (Net.init fun i : Fin (4 * 2 ^ b) => pp.dMsm dbg (4 * 2 ^ b) i (bs i) (ss i) (masks i) sid)
      (FixedWire.width G) (FixedWire.width G) := by
  have hle := l_eq hpp
  have hg := PSS.good_of_new hpp
  have hl := hg.lpos
  rw [← hle] at hb hs
  obtain ⟨outs, hr, -⟩ := PSS.dMsm_runs (n := 4 * 2 ^ b) hg dbg (by rw [hle]) (by omega) (by omega) hb hs (hm.ok hpp) sid
  exact exchanges_once (four_pos b) hr (fun i => PSS.dMsm_wf _ (four_pos b) _ _ _ _ _) (fun i => pp.dMsm_rounds ..)
    fun i j hj => pp.dMsm_unheard _ hj ..

/-- **C84** `d_pp` of `N` chunks is not symmetric: its first message carries numerators and denominators. -/
theorem C84_d_pp {dbg₀ : Bool} {b : Nat} {pp : PSS F} (hpp : PSS.new dbg₀ (2 ^ b) = .ok pp) (dbg : Bool) {N : Nat}
    (hN : 0 < N) (hN64 : N + N < 2 ^ 64) (num den : List F) (hnum : num.length = N * 2 ^ b) (hden : den.length = N * 2 ^ b)
    (h0 : ∀ y ∈ den, y ≠ 0) (masks : Nat → DegRedMask F) (hm : IsDegRedMasks pp N masks) (sid : Sid)
    (rngn rngd rng rng' : Nat → Nat → F) :
    ∃ sn sd : List (List F),
      (do let rows ← pp.packVec dbg num rngn; transpose rows) = .ok sn ∧
      (do let rows ← pp.packVec dbg den rngd; transpose rows) = .ok sd ∧
      Exchanges (Net.init fun i : Fin (4 * 2 ^ b) => pp.dPp dbg (4 * 2 ^ b) i (sn.getD i []) (sd.getD i []) (masks i) sid rng rng')
        (8 + 2 * N * FixedWire.width F + (8 + N * FixedWire.width F)) (2 * (8 + N * FixedWire.width F)) := by
  have hle := l_eq hpp
  have hg := PSS.good_of_new hpp
  have hl := hg.lpos
  have hn0 : 0 < 4 * 2 ^ b := four_pos b
  obtain ⟨sn, en, hsn⟩ := deal hpp dbg hN num hnum rngn
  obtain ⟨sd, ed, hsd⟩ := deal hpp dbg hN den hden rngd
  rw [← hle] at hsn hsd
  refine ⟨sn, sd, en, ed, ?_⟩
  have hsh := SharedVec.append hsn hsd
  obtain ⟨out, hK, hol, hos⟩ := PSS.ppKing_ok hg dbg hN (by omega) (by omega) (fun i => num.getD i 0) (fun i => den.getD i 0)
      (fun i hi => by
        rw [hle] at hi
        rw [List.getD_eq_getElem _ _ (by omega)]
        exact h0 _ (List.getElem_mem _)) hsh rng
  obtain ⟨outs, hr, -⟩ := PSS.degRed_runs (n := 4 * 2 ^ b) hg dbg (by rw [hle]) hN (by omega : N < 2 ^ 64) le_rfl (by omega) hos (hm.ok hpp hN) sid rng'
  have hB := (hr.mono fun _ _ => trivial).runsB (R := once sid) (fun i => (PSS.degRed_wf _ hn0 _ _ _ _ _).mono fun _ _ => trivial)
    (fun i => pp.degRed_rounds ..) fun i j hj => pp.degRed_unheard _ hj ..
  rw [once_sum, one_mul] at hB
  have h := runsB_round hn0 sid pp.t (fun i => sn.getD i [] ++ sd.getD i []) (8 + 2 * N * FixedWire.width F)
    (fun i hi => by
      have := hsh.1 i (by rw [hle]; exact hi)
      exact ⟨Wire.ok_list _ (by rw [this]; exact hN64), by rw [Wire.enc_list_length, this, two_mul]⟩)
    (fun i rs => pp.ppKing dbg rs.shares rs.parties rng) (fun i => out.getD i []) (8 + N * FixedWire.width F)
    (by rw [← hle, hK, map_getD_range _ _ hol])
    (fun i hi => by
      have := hos.1 i (by rw [hle]; exact hi)
      exact ⟨Wire.ok_list _ (by rw [this]; omega), by rw [Wire.enc_list_length, this]⟩)
    (fun i y => pp.degRed dbg (4 * 2 ^ b) i y (masks i) sid rng') hB
  rw [← two_mul] at h
  refine (h.congr (fun i => PSS.dPp_eq _ _ _ _ _ _ _ _ _ _) fun _ => rfl).exchanges hn0 (R := fun _ => once sid + once sid)
    (fun i => (PSS.dPp_wf _ hn0 _ _ _ _ _ _ _).mono fun _ _ => trivial) (fun i => pp.dPp_rounds ..) fun i j hj => pp.dPp_unheard _ hj ..

theorem interpolant {a b : Nat} {pp : PSS F} {dom : Domain F} (hdom : Domain.new (2 ^ (a + b)) = some dom) {sh : Nat → List F} {v : List F}
    (h : HoldsInput pp a b sh v) : ∃ A : F[X], Interpolates dom.groupGen (2 ^ (a + b)) (fun i => v.getD i 0) A := by
  obtain ⟨hwf, hoff, -, hsize⟩ := Domain.new_pow2 hdom
  have := Interpolates.exists hwf hoff v (h.1.trans hsize.symm)
  rwa [hsize] at this

/-- **C84** `circom_h`: seven vectors of `2^a` elements in each direction. -/
theorem C84_circom_h {dbg₀ : Bool} {b : Nat} {pp : PSS F} (hpp : PSS.new dbg₀ (2 ^ b) = .ok pp) (dbg : Bool) (a : Nat)
    (ha : a < 64) {dom dom2 : Domain F} (hdom : Domain.new (2 ^ (a + b)) = some dom)
    (hdom2 : Domain.new (2 ^ (a + b + 1)) = some dom2) (q : Nat → PackedQAPShare F) (hq : ∀ p < 4 * 2 ^ b, (q p).domain = dom)
    (va vb vc : List F) (hva : HoldsInput pp a b (fun p => (q p).a) va) (hvb : HoldsInput pp a b (fun p => (q p).b) vb)
    (hvc : HoldsInput pp a b (fun p => (q p).c) vc)
    (masks : Nat → Nat → FftMask F) (hm : IsCircomMasks pp dom2.groupGen dom masks)
    (dmask : Nat → DegRedMask F) (hd : IsDegRedMasks pp (2 ^ a) dmask) (rng : Nat → Nat → Nat → F) :
    Exchanges (Net.init fun i : Fin (4 * 2 ^ b) => pp.circomH dbg (4 * 2 ^ b) i (q i) (masks i) (dmask i) rng)
      (7 * (8 + 2 ^ a * FixedWire.width F)) (7 * (8 + 2 ^ a * FixedWire.width F)) := by
  obtain ⟨A, hA⟩ := interpolant hdom hva
  obtain ⟨B, hB⟩ := interpolant hdom hvb
  obtain ⟨C, hC⟩ := interpolant hdom hvc
  obtain ⟨outs, hr, -⟩ := circomH_runs hpp dbg a ha hdom hdom2 hq hva hvb hvc hA hB hC hm hd rng
  have hwf := fun i : Fin (4 * 2 ^ b) => circomH_wf (pp := pp) dbg (four_pos b) i (q i) (masks i) (dmask i) rng
  have h := hr.runsB hwf (fun i => pp.circomH_rounds ..) fun i j hj => pp.circomH_unheard _ hj ..
  rw [rounds322_sum] at h
  exact h.exchanges (four_pos b) (R := fun _ => rounds322) hwf (fun i => pp.circomH_rounds ..) fun i j hj => pp.circomH_unheard _ hj ..

/-- **C84** `libsnark_h`: the same, for a satisfying assignment. -/
theorem C84_libsnark_h {dbg₀ : Bool} {b : Nat} {pp : PSS F} (hpp : PSS.new dbg₀ (2 ^ b) = .ok pp) (dbg : Bool) (a : Nat)
    (ha : a < 64) {dom : Domain F} (hdom : Domain.new (2 ^ (a + b)) = some dom) (hcos : ∃ x : F, x ≠ 0 ∧ x ^ 2 ^ (a + b) ≠ 1)
    (q : Nat → PackedQAPShare F) (hq : ∀ p < 4 * 2 ^ b, (q p).domain = dom)
    (va vb vc : List F) (hva : HoldsInput pp a b (fun p => (q p).a) va) (hvb : HoldsInput pp a b (fun p => (q p).b) vb)
    (hvc : HoldsInput pp a b (fun p => (q p).c) vc) (hsat : ∀ i < 2 ^ (a + b), va.getD i 0 * vb.getD i 0 = vc.getD i 0)
    (masks : Nat → Nat → FftMask F) (hm : IsLibsnarkMasks pp dom masks) (rng : Nat → Nat → Nat → F) :
    Exchanges (Net.init fun i : Fin (4 * 2 ^ b) => pp.libsnarkH dbg (4 * 2 ^ b) i (q i) (masks i) rng)
      (7 * (8 + 2 ^ a * FixedWire.width F)) (7 * (8 + 2 ^ a * FixedWire.width F)) := by
  obtain ⟨A, hA⟩ := interpolant hdom hva
  obtain ⟨B, hB⟩ := interpolant hdom hvb
  obtain ⟨C, hC⟩ := interpolant hdom hvc
  obtain ⟨hwf, -, -, hsize⟩ := Domain.new_pow2 hdom
  obtain ⟨H, hH⟩ := quotient_exists (by positivity) (hsize ▸ hwf.prim) hA hB hC hsat
  obtain ⟨outs, hr, -⟩ := libsnarkH_runs hpp dbg a ha hdom hcos hq hva hvb hvc hA hB hC hH hm rng
  have hwf := fun i : Fin (4 * 2 ^ b) => libsnarkH_wf (pp := pp) dbg (four_pos b) i (q i) (masks i) rng
  have h := hr.runsB hwf (fun i => pp.libsnarkH_rounds ..) fun i j hj => pp.libsnarkH_unheard _ hj ..
  rw [rounds322_sum] at h
  exact h.exchanges (four_pos b) (R := fun _ => rounds322) hwf (fun i => pp.libsnarkH_rounds ..) fun i j hj => pp.libsnarkH_unheard _ hj ..

section session
variable {G1 G2 GT : Type} [AddCommGroup G1] [Module F G1] [DecidableEq G1] [FixedWire G1]
  [AddCommGroup G2] [Module F G2] [DecidableEq G2] [FixedWire G2]

/-- **C84** A proving session: whatever the witness, every server sends to the king, and the king to every server, seven vectors of
`2^a` field elements, four elements of the first group and one of the second. -/
theorem C84_session {dbg₀ : Bool} {b : Nat} {pp : PSS F} (hpp : PSS.new dbg₀ (2 ^ b) = .ok pp) (dbg : Bool) (a : Nat) (ha : a < 64)
    {mats : ConstraintMatrices F} {z : List F} {dom dom2 : Domain F} (hcirc : Circuit a b mats z dom dom2)
    {pa pb pc : Nat → F[X]}
    (hqap : IsQap mats z.length dom.groupGen (2 ^ (a + b)) pa pb pc) {t : Toxic F} {g1 : G1} {g2 : G2} {pk : ProvingKey G1 G2}
    (hk : IsCircomKey t g1 g2 z.length mats.numInstanceVariables (2 ^ (a + b)) dom2.groupGen pa pb pc pk) (hγ : t.gamma ≠ 0)
    (hδ : t.delta ≠ 0) (hal : dbg = true → KeyAligned (2 ^ b) pk) (gen1 : G1) (gen2 : G2) (r s : F) (tape : ClientTape F G1 G2)
    (hr0 : ∀ rs, pp.pack dbg (List.replicate (2 ^ b) r) tape.r = .ok rs → ∀ x ∈ rs, x ≠ 0)
    (rng : Nat → Nat → Nat → F) :
    ∃ ins : Nat → ServerInput F G1 G2,
      pp.deal dbg (2 ^ b) mats z pk gen1 gen2 r s tape = .ok ((List.range (4 * 2 ^ b)).map ins) ∧
      Exchanges (Net.init fun i : Fin (4 * 2 ^ b) => (ins i).run pp dbg (4 * 2 ^ b) i rng)
        (7 * (8 + 2 ^ a * FixedWire.width F) + 4 * FixedWire.width G1 + FixedWire.width G2)
        (7 * (8 + 2 ^ a * FixedWire.width F) + 4 * FixedWire.width G1 + FixedWire.width G2) := by
  obtain ⟨rs, er, lr, hr⟩ := pack_holdsValue hpp dbg r tape.r
  obtain ⟨ss, es, ls, hs⟩ := pack_holdsValue hpp dbg s tape.s
  have hr0' : ∀ p < 4 * 2 ^ b, rs.getD p 0 ≠ 0 := fun p hp =>
    hr0 rs er _ (by rw [List.getD_eq_getElem _ _ (by omega)]; exact List.getElem_mem _)
  obtain ⟨ins, outs, D, pA, pB, pC, h1, -, -, -, -, -, -, -, -, -, -, -, -, -, -, h, -⟩ := session_full (GT := F) hpp dbg a ha hcirc hqap hk hγ hδ
    hal gen1 gen2 tape er es lr ls hr hs (.inl hr0') rng
  rw [sessionBytes, if_neg (hr0' 0 (four_pos b))] at h
  exact ⟨ins, h1, h⟩

/-- **C84** The example as it is written (C37), in a release build: one element of the first group less if `r` is zero. -/
theorem C84_example_release {dbg₀ : Bool} {b : Nat} {pp : PSS F} (hpp : PSS.new dbg₀ (2 ^ b) = .ok pp) (a : Nat) (ha : a < 64)
    {mats : ConstraintMatrices F} {z : List F} {dom dom2 : Domain F} (hcirc : Circuit a b mats z dom dom2)
    {pa pb pc : Nat → F[X]}
    (hqap : IsQap mats z.length dom.groupGen (2 ^ (a + b)) pa pb pc) {t : Toxic F} {g1 : G1} {g2 : G2} {pk : ProvingKey G1 G2}
    (hk : IsCircomKey t g1 g2 z.length mats.numInstanceVariables (2 ^ (a + b)) dom2.groupGen pa pb pc pk) (hγ : t.gamma ≠ 0)
    (hδ : t.delta ≠ 0) (gen1 : G1) (gen2 : G2) (r s : F) (tape : ClientTape F G1 G2) (rng : Nat → Nat → Nat → F) :
    ∃ ins : Nat → ServerInput F G1 G2,
      pp.deal false pp.n mats z pk gen1 gen2 r s tape = .ok ((List.range (4 * 2 ^ b)).map ins) ∧
      Exchanges (Net.init fun i : Fin (4 * 2 ^ b) => (ins i).run pp false (4 * 2 ^ b) i rng)
        (7 * (8 + 2 ^ a * FixedWire.width F) + (if r = 0 then 3 else 4) * FixedWire.width G1 + FixedWire.width G2)
        (7 * (8 + 2 ^ a * FixedWire.width F) + (if r = 0 then 3 else 4) * FixedWire.width G1 + FixedWire.width G2) := by
  obtain ⟨ins, outs, D, pA, pB, pC, h1, -, -, -, -, -, -, -, -, -, -, -, -, -, -, h, -⟩ := session_full (GT := F) hpp false a ha hcirc hqap hk hγ hδ
    (fun h => by cases h) gen1 gen2 tape (C37_release_reveals hpp r tape.r)
    (C37_release_reveals hpp s tape.s) (by simp) (by simp) (holdsValue_replicate hpp r) (holdsValue_replicate hpp s) (by
      by_cases h : r = 0
      · exact .inr fun p hp => by rw [getD_replicate', if_pos hp, h]
      · exact .inl fun p hp => by rw [getD_replicate', if_pos hp]; exact h) rng
  rw [getD_replicate', if_pos (four_pos b), sessionBytes] at h
  exact ⟨ins, h1, h⟩

end session

/-! ### Examples -/

/-- Example for C84: a transform of four elements of one byte between eight servers takes `7 · (10 + 10)` bytes. -/
example : ∃ sh : Nat → List (ZMod 17), ∀ tr c', Trace tr (Net.init fun i : Fin (4 * 2 ^ 1) =>
      pp17.dFft true (4 * 2 ^ 1) i (sh i) (FftMask.zero 2) false dom17 .zero (fun i j => i + j)) c' → (∀ e ∈ tr, e.2 ≠ .fault) →
    (∀ i, ∃ v, c'.procs i = .done (.ok v)) → allBytes tr = 140 ∧ sentBytes tr 3 0 = 10 ∧ sentBytes tr 3 4 = 0 := by
  obtain ⟨shares, -, -, hs⟩ := C19_input_is_packed (pp17_eq true) true 1 ([1, 2, 3, 4] : List (ZMod 17)) rfl
    fun i j => 3 * (i : ZMod 17) + (j : ZMod 17)
  have h := C84_d_fft (pp17_eq true) true 1 (by norm_num) dom17_eq _ _ hs false (fun _ => FftMask.zero 2) (Or.inr fun _ => rfl) .zero
    (fun i j => i + j)
  exact ⟨fun p => shares.getD p [], fun tr c' h1 h2 h3 =>
    ⟨((h tr c' h1 h2).2 h3).2, (((h tr c' h1 h2).2 h3).1 3 0).1, (((h tr c' h1 h2).2 h3).1 3 4).1⟩⟩

/-- Example for C84: the inverse transform. -/
example : ∃ sh : Nat → List (ZMod 17), Exchanges (Net.init fun i : Fin (4 * 2 ^ 1) =>
      pp17.dIfft true (4 * 2 ^ 1) i (sh i) (FftMask.zero 2) false dom17 3 .zero (fun i j => i + j)) 10 10 := by
  obtain ⟨shares, -, -, hs⟩ := C19_input_is_packed (pp17_eq true) true 1 ([1, 2, 3, 4] : List (ZMod 17)) rfl
    fun i j => 3 * (i : ZMod 17) + (j : ZMod 17)
  exact ⟨fun p => shares.getD p [], C84_d_ifft (pp17_eq true) true 1 (by norm_num) dom17_eq _ _ hs 3 false (fun _ => FftMask.zero 2)
    (Or.inr fun _ => rfl) .zero (fun i j => i + j)⟩

/-- Example for C84: reducing the degree of one position takes nine bytes in each direction. -/
example : ∃ sh : Nat → List (ZMod 17), Exchanges (Net.init fun i : Fin (4 * 2 ^ 1) =>
      pp17.degRed true (4 * 2 ^ 1) i (sh i) (DegRedMask.zero 1) .zero (fun i j => i + j)) 9 9 := by
  obtain ⟨sh, -, h⟩ := packFromWitness_holds (b := 1) (pp17_eq true) true ([3, 5] : List (ZMod 17)) fun _ _ => 1
  exact ⟨sh, C84_deg_red (T := ZMod 17) (pp17_eq true) true (N := 1) (d := 2 * 2 ^ 1) (by norm_num) (by norm_num) (by norm_num) (by norm_num)
    sh (fun c => chunks (2 ^ 1) (fun i => [3, 5].getD i 0) c) h (fun _ => DegRedMask.zero 1) (.inr fun _ => rfl) .zero fun i j => i + j⟩

/-- Example for C84: `3·1 + 5·4` takes one byte in each direction. -/
example : ∃ bs ss : Nat → List (ZMod 17), Exchanges (Net.init fun i : Fin (4 * 2 ^ 1) =>
      pp17.dMsm true (4 * 2 ^ 1) i (bs i) (ss i) MsmMask.zero .zero) 1 1 := by
  obtain ⟨bs, -, hb⟩ := packFromWitness_holds (b := 1) (pp17_eq true) true ([1, 4] : List (ZMod 17)) fun _ _ => 1
  obtain ⟨ss, -, hs⟩ := packFromWitness_holds (b := 1) (pp17_eq true) true ([3, 5] : List (ZMod 17)) fun _ _ => 2
  exact ⟨bs, ss, C84_d_msm (pp17_eq true) true bs _ ss _ hb hs (fun _ => MsmMask.zero) (.inr fun _ => rfl) .zero⟩

/-- Example for C84: the partial products of `3/2` and `5/7` take `10 + 9` bytes to the king and `9 + 9` bytes back. -/
example : ∃ sn sd : List (List (ZMod 17)), Exchanges (Net.init fun i : Fin (4 * 2 ^ 1) =>
      pp17.dPp true (4 * 2 ^ 1) i (sn.getD i []) (sd.getD i []) (DegRedMask.zero 1) .zero (fun i j => i + j) (fun i j => i * j)) 19 18 := by
  obtain ⟨sn, sd, -, -, h⟩ := C84_d_pp (pp17_eq true) true (N := 1) (by norm_num) (by norm_num) [3, 5] [2, 7] rfl rfl (by decide)
    (fun _ => DegRedMask.zero 1) (.inr fun _ => rfl) .zero (fun i j => i + j) (fun i j => i + j) (fun i j => i + j) (fun i j => i * j)
  exact ⟨sn, sd, h⟩

/-- Example for C84: the session of the example circuit takes `7·10 + 4 + 1` bytes in each direction for every server. -/
example (tape : ClientTape (ZMod 17) (ZMod 17) (ZMod 17)) : ∃ (pk : ProvingKey (ZMod 17) (ZMod 17))
    (ins : Nat → ServerInput (ZMod 17) (ZMod 17) (ZMod 17)),
    pp17.deal false 8 mats17 z17 pk 1 1 5 6 tape = .ok ((List.range 8).map ins) ∧
    Exchanges (Net.init fun i : Fin (4 * 2 ^ 1) => (ins i).run pp17 false (4 * 2 ^ 1) i fun _ i j => i + j) 75 75 := by
  obtain ⟨pa, pb, pc, pk, h1, h2⟩ := C35_key_exists circuit17 (⟨2, 3, 4, 5, 6⟩ : Toxic (ZMod 17)) (1 : ZMod 17) (1 : ZMod 17)
  obtain ⟨ins, h3, h4⟩ := C84_example_release (pp17_eq true) 1 (by norm_num) circuit17 h1 h2
    (by decide) (by decide) 1 1 5 6 tape fun _ i j => i + j
  exact ⟨pk, ins, h3, h4⟩

/-- Examples for C84: both `h` computations on the example circuit take seventy bytes in each direction. -/
example : ∃ q : Nat → PackedQAPShare (ZMod 17),
    Exchanges (Net.init fun i : Fin (4 * 2 ^ 1) => pp17.circomH true (4 * 2 ^ 1) i (q i) (fun _ => FftMask.zero 2) (DegRedMask.zero 2)
      fun _ i j => i + j) 70 70 ∧
    Exchanges (Net.init fun i : Fin (4 * 2 ^ 1) => pp17.libsnarkH true (4 * 2 ^ 1) i (q i) (fun _ => FftMask.zero 2)
      fun _ i j => i + j) 70 70 := by
  obtain ⟨q, A, B, C, hq, h1, h2, h3, -, -, -⟩ := shares17
  exact ⟨q, C84_circom_h (pp17_eq true) true 1 (by norm_num) dom17_eq dom17b_eq q hq _ _ _ h1 h2 h3
    (fun _ _ => FftMask.zero 2) ⟨fun _ _ => .inr fun _ => rfl, fun _ _ => .inr fun _ => rfl⟩ (fun _ => DegRedMask.zero 2) (.inr fun _ => rfl)
    fun _ i j => i + j, C84_libsnark_h (pp17_eq true) true 1 (by norm_num) dom17_eq ⟨3, by decide, by decide⟩ q hq _ _ _ h1 h2 h3
    (by decide) (fun _ _ => FftMask.zero 2)
    ⟨fun _ _ => .inr fun _ => rfl, fun _ _ => .inr fun _ => rfl, .inr fun _ => rfl⟩ fun _ i j => i + j⟩

/-- Example for C84: packed shares of `r = 5`, none of them zero. -/
example (tape : ClientTape (ZMod 17) (ZMod 17) (ZMod 17)) (ht : tape.r = fun _ => 1) : ∃ (pk : ProvingKey (ZMod 17) (ZMod 17))
    (ins : Nat → ServerInput (ZMod 17) (ZMod 17) (ZMod 17)),
    pp17.deal false 2 mats17 z17 pk 1 1 5 6 tape = .ok ((List.range 8).map ins) ∧
    Exchanges (Net.init fun i : Fin (4 * 2 ^ 1) => (ins i).run pp17 false (4 * 2 ^ 1) i fun _ i j => i + j) 75 75 := by
  obtain ⟨pa, pb, pc, pk, h1, h2⟩ := C35_key_exists circuit17 (⟨2, 3, 4, 5, 6⟩ : Toxic (ZMod 17)) (1 : ZMod 17) (1 : ZMod 17)
  obtain ⟨ins, h3, h4⟩ := C84_session (pp17_eq true) false 1 (by norm_num) circuit17
    h1 h2 (by decide) (by decide) (by simp) 1 1 5 6 tape (by
      intro rs h
      rw [ht] at h
      have : ∀ rs, pp17.pack false (List.replicate (2 ^ 1) (5 : ZMod 17)) (fun _ => 1) = .ok rs → ∀ x ∈ rs, x ≠ 0 := by
        have : ∀ x ∈ (match pp17.pack false (List.replicate (2 ^ 1) (5 : ZMod 17)) (fun _ => 1) with | .ok rs => rs | .error _ => []), x ≠ 0 := by
          decide +kernel
        intro rs h
        rw [h] at this
        exact this
      exact this rs h) fun _ i j => i + j
  exact ⟨pk, ins, h3, h4⟩

end ZkSaas.Properties
