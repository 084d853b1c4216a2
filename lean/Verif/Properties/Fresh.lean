import Verif.Properties.Proof
import Verif.Properties.Masking
import Verif.Lemmas.Fresh

/-!
# C54–C57: what `l` parties learn from shares of whole vectors, from the king's answers and from the dealing
-/

set_option linter.unusedSectionVars false

namespace ZkSaas.Properties

open Finset Spec Polynomial

variable {F : Type} [Field F] [DecidableEq F] [FftField F] {T : Type} [AddCommGroup T] [Module F T] [DecidableEq T]

theorem offset_eq {dbg₀ : Bool} {b : Nat} {pp : PSS F} (hpp : PSS.new dbg₀ (2 ^ b) = .ok pp) :
    pp.secret.offset = FftField.GENERATOR := by
  by_cases hb : b + 2 ≤ FftField.TWO_ADICITY F
  · rw [PSS.new_pow2 dbg₀ hb] at hpp; cases hpp; rfl
  · have := PSS.new_too_large (F := F) dbg₀ (l := 2 ^ b) (by
      rw [show 2 ^ b * 4 = 2 ^ (b + 2) by rw [pow_add]; norm_num, clog_two_pow]; omega)
    rw [this] at hpp; cases hpp

/-- What party `p` gets when a call deals a list with one entry per party; `none` when the call fails or the list is too short. -/
def partOf {α : Type} (dealt : Res (List α)) (p : Nat) : Option α :=
  match dealt with
  | .ok xs => xs[p]?
  | .error _ => none

/-- Party `p`'s share of position `c` when a call returns one row of shares per position. -/
def entryOf {α : Type} (rows : Res (List (List α))) (c p : Nat) : Option α :=
  match rows with
  | .ok rows => rows[c]?.bind fun row => row[p]?
  | .error _ => none

theorem partOf_range {α : Type} {n p : Nat} (f : Nat → α) (hp : p < n) : partOf (.ok ((List.range n).map f)) p = some (f p) := by
  simp [partOf, hp]

theorem list_eq_ofFn {N : Nat} {v : List T} (hv : v.length = N) (f : Fin N → T) :
    v = List.ofFn f ↔ ∀ c : Fin N, v.getD c.val 0 = f c := by
  constructor
  · rintro rfl c
    rw [List.getD_eq_getElem _ _ (by simp)]
    simp
  · intro h
    apply List.ext_getElem (by simp [hv])
    intro i h1 h2
    have := h ⟨i, hv ▸ h1⟩
    rw [List.getD_eq_getElem _ _ h1] at this
    simpa using this

/-! ### C54 -/

/-- **C54** Joint privacy of a packed vector: for `l` distinct parties and any vector, every view of *all* the chunks together is
produced by exactly one choice of all the random values drawn by `pack_vec`. -/
theorem C54_pack_vec {dbg₀ : Bool} {b : Nat} {pp : PSS F} (hpp : PSS.new dbg₀ (2 ^ b) = .ok pp)
    (hgen : (FftField.GENERATOR : F) ^ (4 * 2 ^ b) ≠ 1) (dbg : Bool) {N : Nat} (v : List T) (hv : v.length = N * 2 ^ b)
    (P : Fin (2 ^ b) → Nat) (hinj : Function.Injective P) (hlt : ∀ i, P i < 4 * 2 ^ b) (view : Fin N → Fin (2 ^ b) → T) :
    ∃! tape : Fin N → Fin (2 ^ b) → T, ∀ (c : Fin N) i, entryOf (pp.packVec dbg v (ext2 tape)) c (P i) = some (view c i) := by
  have hg := PSS.good_of_new hpp
  have hle := l_eq hpp
  have key : ∀ (tape : Fin N → Fin (2 ^ b) → T) (c : Fin N) (i : Fin (2 ^ b)),
      entryOf (pp.packVec dbg v (ext2 tape)) c (P i) =
        some ((pp.freshVec N (fun c => chunk v pp.l c) (ext2 tape) (P i)).getD c.val 0) := by
    intro tape c i
    have hp : P i < (pp.share.fft (pp.packCoeffs (chunk v pp.l c) (ext2 tape c))).length := by
      rw [Domain.fft_length, hg.share_size, hle]; exact hlt i
    rw [PSS.freshVec_getD hg _ _ _ (by rw [hle]; exact hlt i) c.2, PSS.packVec_fresh hg dbg (by rw [hv, hle])]
    simp only [entryOf]
    rw [List.getElem?_map, List.getElem?_range c.2]
    exact getElem?_getD 0 hp
  simp only [key, Option.some.injEq]
  have := PSS.freshVec_privacy hg hle (by rwa [offset_eq hpp]) (N := N) (sec := fun c => chunk v pp.l c)
    (fun c hc => (chunk_length (N := N) (by rw [hv, hle]) hc).trans hle) P hinj hlt view
  obtain ⟨tape, h1, h2⟩ := this
  exact ⟨tape, fun c i => h1 i c, fun tape' h => h2 tape' fun i c => h c i⟩

/-- **C54** `pack_from_witness`: the same for the shares of the assignment, whose last chunk is filled up with zeros. -/
theorem C54_pack_from_witness {dbg₀ : Bool} {b : Nat} {pp : PSS F} (hpp : PSS.new dbg₀ (2 ^ b) = .ok pp)
    (hgen : (FftField.GENERATOR : F) ^ (4 * 2 ^ b) ≠ 1) (dbg : Bool) {N : Nat} (v : List F) (hv : N = (v.length + 2 ^ b - 1) / 2 ^ b)
    (P : Fin (2 ^ b) → Nat) (hinj : Function.Injective P) (hlt : ∀ i, P i < 4 * 2 ^ b) (view : Fin N → Fin (2 ^ b) → F) :
    ∃! tape : Fin N → Fin (2 ^ b) → F, ∀ i,
      partOf (pp.packFromWitness dbg v (ext2 tape)) (P i) = some (List.ofFn fun c => view c i) := by
  have hg := PSS.good_of_new hpp
  have hle := l_eq hpp
  have hN : numChunks v pp.l = N := by rw [hv, numChunks, hle]
  have key : ∀ (tape : Fin N → Fin (2 ^ b) → F) (i : Fin (2 ^ b)),
      partOf (pp.packFromWitness dbg v (ext2 tape)) (P i) =
        some (pp.freshVec N (fun c => chunks pp.l (fun i => v.getD i 0) c) (ext2 tape) (P i)) := by
    intro tape i
    rw [PSS.packFromWitness_fresh hg, hN, partOf_range _ (by rw [hle]; exact hlt i)]
  simp only [key, Option.some.injEq, list_eq_ofFn (PSS.freshVec_length _ _ _ _ _)]
  exact PSS.freshVec_privacy hg hle (by rwa [offset_eq hpp]) (fun c _ => by simp [chunks, hle]) P hinj hlt view

/-- **C54** `QAP::pss`: the views of the three packed vectors together are in bijection with the random values drawn for them. -/
theorem C54_qap_pss {dbg₀ : Bool} {b : Nat} {pp : PSS F} (hpp : PSS.new dbg₀ (2 ^ b) = .ok pp)
    (hgen : (FftField.GENERATOR : F) ^ (4 * 2 ^ b) ≠ 1) (dbg : Bool) (a : Nat) (q : QAP F)
    (ha : q.a.length = 2 ^ (a + b)) (hb : q.b.length = 2 ^ (a + b)) (hc : q.c.length = 2 ^ (a + b))
    (P : Fin (2 ^ b) → Nat) (hinj : Function.Injective P) (hlt : ∀ i, P i < 4 * 2 ^ b) (va vb vc : Fin (2 ^ a) → Fin (2 ^ b) → F) :
    ∃! t : (Fin (2 ^ a) → Fin (2 ^ b) → F) × (Fin (2 ^ a) → Fin (2 ^ b) → F) × (Fin (2 ^ a) → Fin (2 ^ b) → F),
      ∀ i, partOf (q.pss pp dbg (ext2 t.1) (ext2 t.2.1) (ext2 t.2.2)) (P i) =
        some { numInputs := q.numInputs, numConstraints := q.numConstraints, domain := q.domain
               a := List.ofFn fun c => va c i, b := List.ofFn fun c => vb c i, c := List.ofFn fun c => vc c i } := by
  have hg := PSS.good_of_new hpp
  have hle := l_eq hpp
  have key := fun (v : List F) view => PSS.freshVec_privacy hg hle (by rwa [offset_eq hpp]) (N := 2 ^ a) (sec := qapSecrets a b v)
    (fun c _ => by simp [qapSecrets]) P hinj hlt view
  obtain ⟨ta, ha1, ha2⟩ := key q.a va
  obtain ⟨tb, hb1, hb2⟩ := key q.b vb
  obtain ⟨tc, hc1, hc2⟩ := key q.c vc
  simp only [QAP.pss_fresh hg dbg hle q ha hb hc]
  refine ⟨(ta, tb, tc), fun i => ?_, fun t ht => ?_⟩
  · dsimp only
    rw [partOf_range _ (hlt i), (list_eq_ofFn (PSS.freshVec_length _ _ _ _ _) _).2 (ha1 i),
      (list_eq_ofFn (PSS.freshVec_length _ _ _ _ _) _).2 (hb1 i), (list_eq_ofFn (PSS.freshVec_length _ _ _ _ _) _).2 (hc1 i)]
  · have h : ∀ i, _ := fun i => by
      have := ht i
      rw [partOf_range _ (hlt i)] at this
      have := Option.some.inj this
      simp only [PackedQAPShare.mk.injEq, list_eq_ofFn (PSS.freshVec_length _ _ _ _ _), true_and, and_true] at this
      exact this
    exact Prod.ext (ha2 _ fun i => (h i).1) (Prod.ext (hb2 _ fun i => (h i).2.1) (hc2 _ fun i => (h i).2.2))

/-! ### C55 -/

section net
variable [FixedWire F]

/-- **C55** `d_fft`: with everything else fixed, what `l` parties get out is in bijection with the king's random values, so it says
nothing about the transform beyond the masks they already hold. -/
theorem C55_d_fft_fresh {dbg₀ : Bool} {b : Nat} {pp : PSS F} (hpp : PSS.new dbg₀ (2 ^ b) = .ok pp)
    (hgen : (FftField.GENERATOR : F) ^ (4 * 2 ^ b) ≠ 1) (dbg : Bool) (a : Nat) (ha : a < 64)
    {dom : Domain F} (hdom : Domain.new (2 ^ (a + b)) = some dom) (sh : Nat → List F) (coeffs : List F)
    (hsh : HoldsInput pp a b sh coeffs) (rearrange : Bool) (masks : Nat → FftMask F)
    (hm : IsFftMasks pp rearrange 1 dom.groupGen (2 ^ (a + b)) masks) (sid : Sid)
    (P : Fin (2 ^ b) → Nat) (hinj : Function.Injective P) (hlt : ∀ i, P i < 4 * 2 ^ b) :
    ∃ outs : (Fin (2 ^ a) → Fin (2 ^ b) → F) → Nat → List F,
      (∀ tape, AlwaysYields (Net.init fun i : Fin (4 * 2 ^ b) =>
        pp.dFft dbg (4 * 2 ^ b) i (sh i) (masks i) rearrange dom sid (ext2 tape)) (fun i => outs tape i)) ∧
      ∀ view : Fin (2 ^ a) → Fin (2 ^ b) → F, ∃! tape, ∀ i c, (outs tape (P i)).getD c.val 0 = view c i := by
  have hle := l_eq hpp
  have hg := PSS.good_of_new hpp
  obtain ⟨hwf, hoff, -, hsize⟩ := Domain.new_pow2 hdom
  have hprim : IsPrimitiveRoot dom.groupGen (2 ^ (a + b)) := hsize ▸ hwf.prim
  obtain ⟨hc, d, hd2, hd4, hs⟩ := hsh
  rw [← hle] at hs hd2 hd4
  have hmok := hm.ok hpp hprim
  obtain ⟨sec, hsec, hr⟩ := PSS.dFft_fresh (n := 4 * 2 ^ b) hg dbg (by rw [hle]) ha hle hsize hprim hd2 hd4 _ hs rearrange hmok sid
  obtain ⟨_, -, -, hout⟩ := hmok
  refine ⟨fun tape p => addMask (pp.freshVec (2 ^ a) sec (ext2 tape) p) (masks p).outMask, fun tape =>
    (hr (ext2 tape)).alwaysYields fun i => PSS.dFft_wf _ (by positivity) _ _ _ _ _ _ _, fun view => ?_⟩
  exact PSS.freshVec_privacy_masked hg hle (by rwa [offset_eq hpp]) hsec P hinj hlt
    (mask := fun p => (masks p).outMask) (fun p hp => hout.1 p (by rw [hle]; exact hp)) view

/-- **C55** `d_ifft`. -/
theorem C55_d_ifft_fresh {dbg₀ : Bool} {b : Nat} {pp : PSS F} (hpp : PSS.new dbg₀ (2 ^ b) = .ok pp)
    (hgen : (FftField.GENERATOR : F) ^ (4 * 2 ^ b) ≠ 1) (dbg : Bool) (a : Nat) (ha : a < 64)
    {dom : Domain F} (hdom : Domain.new (2 ^ (a + b)) = some dom) (sh : Nat → List F) (evals : List F)
    (hsh : HoldsInput pp a b sh evals) (g : F) (rearrange : Bool) (masks : Nat → FftMask F)
    (hm : IsFftMasks pp rearrange g dom.groupGenInv (2 ^ (a + b)) masks) (sid : Sid)
    (P : Fin (2 ^ b) → Nat) (hinj : Function.Injective P) (hlt : ∀ i, P i < 4 * 2 ^ b) :
    ∃ outs : (Fin (2 ^ a) → Fin (2 ^ b) → F) → Nat → List F,
      (∀ tape, AlwaysYields (Net.init fun i : Fin (4 * 2 ^ b) =>
        pp.dIfft dbg (4 * 2 ^ b) i (sh i) (masks i) rearrange dom g sid (ext2 tape)) (fun i => outs tape i)) ∧
      ∀ view : Fin (2 ^ a) → Fin (2 ^ b) → F, ∃! tape, ∀ i c, (outs tape (P i)).getD c.val 0 = view c i := by
  have hle := l_eq hpp
  have hg := PSS.good_of_new hpp
  obtain ⟨hwf, -, hoff, hsize⟩ := Domain.new_pow2 hdom
  have hprim : IsPrimitiveRoot dom.groupGenInv (2 ^ (a + b)) := by
    rw [hwf.ginv]; exact hsize ▸ hwf.prim.inv
  obtain ⟨hc, d, hd2, hd4, hs⟩ := hsh
  rw [← hle] at hs hd2 hd4
  have hmok := hm.ok hpp hprim
  obtain ⟨sec, hsec, hr⟩ := PSS.dIfft_fresh (n := 4 * 2 ^ b) hg dbg (by rw [hle]) ha hle hsize hprim hd2 hd4 _ hs g rearrange hmok sid
  obtain ⟨_, -, -, hout⟩ := hmok
  refine ⟨fun tape p => addMask (pp.freshVec (2 ^ a) sec (ext2 tape) p) (masks p).outMask, fun tape =>
    (hr (ext2 tape)).alwaysYields fun i => PSS.dIfft_wf _ (by positivity) _ _ _ _ _ _ _ _, fun view => ?_⟩
  exact PSS.freshVec_privacy_masked hg hle (by rwa [offset_eq hpp]) hsec P hinj hlt
    (mask := fun p => (masks p).outMask) (fun p hp => hout.1 p (by rw [hle]; exact hp)) view

end net

/-- **C55** `deg_red`. -/
theorem C55_deg_red_fresh {dbg₀ : Bool} {b : Nat} {pp : PSS F} [FixedWire T] (hpp : PSS.new dbg₀ (2 ^ b) = .ok pp)
    (hgen : (FftField.GENERATOR : F) ^ (4 * 2 ^ b) ≠ 1) (dbg : Bool) {N d : Nat}
    (hN : 0 < N) (hN64 : N < 2 ^ 64) (hd2 : 2 * 2 ^ b ≤ d) (hd4 : d ≤ 4 * 2 ^ b - 1) (sh sec : Nat → List T)
    (hsh : Spec.SharedVec pp.share.groupGen pp.secret.offset (2 ^ b) d N sh sec)
    (masks : Nat → DegRedMask T) (hm : IsDegRedMasks pp N masks) (sid : Sid)
    (P : Fin (2 ^ b) → Nat) (hinj : Function.Injective P) (hlt : ∀ i, P i < 4 * 2 ^ b) :
    ∃ outs : (Fin N → Fin (2 ^ b) → T) → Nat → List T,
      (∀ tape, AlwaysYields (Net.init fun i : Fin (4 * 2 ^ b) => pp.degRed dbg (4 * 2 ^ b) i (sh i) (masks i) sid (ext2 tape))
        (fun i => outs tape i)) ∧
      ∀ view : Fin N → Fin (2 ^ b) → T, ∃! tape, ∀ i c, (outs tape (P i)).getD c.val 0 = view c i := by
  have hle := l_eq hpp
  have hg := PSS.good_of_new hpp
  rw [← hle] at hd2 hd4 hsh
  have hmok := hm.ok hpp hN
  obtain ⟨sec', hsec, hr⟩ := PSS.degRed_fresh (n := 4 * 2 ^ b) hg dbg (by rw [hle]) hN hN64 hd2 hd4 hsh hmok sid
  obtain ⟨_, -, hout⟩ := hmok
  refine ⟨fun tape p => addMask (pp.freshVec N sec' (ext2 tape) p) (masks p).outMask, fun tape =>
    (hr (ext2 tape)).alwaysYields fun i => PSS.degRed_wf _ (by positivity) _ _ _ _ _, fun view => ?_⟩
  exact PSS.freshVec_privacy_masked hg hle (by rwa [offset_eq hpp]) (fun c hc => (hsec c hc).trans hle) P hinj hlt
    (mask := fun p => (masks p).outMask) (fun p hp => hout.1 p (by rw [hle]; exact hp)) view

/-! ### C56 -/

/-- **C56** Shares made with a known tape reveal the secrets: for every fixed tape, vectors that give the same shares to some `l`
parties are equal. `d_fft`'s king and `QAP::pss` draw from `ark_std::test_rng()`, whose tape is fixed. -/
theorem C56_pack_known_tape {dbg₀ : Bool} {b : Nat} {pp : PSS F} (hpp : PSS.new dbg₀ (2 ^ b) = .ok pp)
    (hgen : (FftField.GENERATOR : F) ^ (4 * 2 ^ b) ≠ 1) (dbg : Bool) (rng : Nat → T) (s s' : List T) (hs : s.length = 2 ^ b)
    (hs' : s'.length = 2 ^ b) (P : Fin (2 ^ b) → Nat) (hinj : Function.Injective P) (hlt : ∀ i, P i < 4 * 2 ^ b)
    (h : ∀ i, partOf (pp.pack dbg s rng) (P i) = partOf (pp.pack dbg s' rng) (P i)) : s = s' := by
  have hg := PSS.good_of_new hpp
  have hle := l_eq hpp
  have := PSS.freshVec_reveal hg hle (by rwa [offset_eq hpp]) (N := 1) (sec := fun _ => s) (sec' := fun _ => s')
    (fun _ _ => hs) (fun _ _ => hs') P hinj hlt (fun _ => rng) (fun i => by
      apply list_ext_getD 0 (by rw [PSS.freshVec_length, PSS.freshVec_length])
      intro c hc
      rw [PSS.freshVec_length] at hc
      have hp : P i < 4 * pp.l := by rw [hle]; exact hlt i
      have := h i
      rw [PSS.pack_eq hg dbg (hs.trans hle.symm), PSS.pack_eq hg dbg (hs'.trans hle.symm), partOf, partOf] at this
      rw [getElem?_getD 0 (by rw [Domain.fft_length, hg.share_size]; exact hp),
        getElem?_getD 0 (by rw [Domain.fft_length, hg.share_size]; exact hp)] at this
      rw [PSS.freshVec_getD hg _ _ _ hp hc, PSS.freshVec_getD hg _ _ _ hp hc]
      exact Option.some.inj this)
  exact this 0 one_pos

/-- **C56** `QAP::pss` with known tapes (as in the code): the shares of any `l` servers determine the three vectors. -/
theorem C56_qap_known_tape {dbg₀ : Bool} {b : Nat} {pp : PSS F} (hpp : PSS.new dbg₀ (2 ^ b) = .ok pp)
    (hgen : (FftField.GENERATOR : F) ^ (4 * 2 ^ b) ≠ 1) (dbg : Bool) (a : Nat) (rngA rngB rngC : Nat → Nat → F) (q q' : QAP F)
    (ha : q.a.length = 2 ^ (a + b)) (hb : q.b.length = 2 ^ (a + b)) (hc : q.c.length = 2 ^ (a + b))
    (ha' : q'.a.length = 2 ^ (a + b)) (hb' : q'.b.length = 2 ^ (a + b)) (hc' : q'.c.length = 2 ^ (a + b))
    (P : Fin (2 ^ b) → Nat) (hinj : Function.Injective P) (hlt : ∀ i, P i < 4 * 2 ^ b)
    (h : ∀ i, partOf (q.pss pp dbg rngA rngB rngC) (P i) = partOf (q'.pss pp dbg rngA rngB rngC) (P i)) :
    q.a = q'.a ∧ q.b = q'.b ∧ q.c = q'.c := by
  have hg := PSS.good_of_new hpp
  have hle := l_eq hpp
  have key : ∀ {v w : List F}, v.length = 2 ^ (a + b) → w.length = 2 ^ (a + b) → ∀ {rng : Nat → Nat → F},
      (∀ i, pp.freshVec (2 ^ a) (qapSecrets a b v) rng (P i) = pp.freshVec (2 ^ a) (qapSecrets a b w) rng (P i)) → v = w := by
    intro v w hv hw rng h
    exact qapSecrets_inj hv hw (PSS.freshVec_reveal hg hle (by rwa [offset_eq hpp]) (fun c _ => by simp [qapSecrets])
      (fun c _ => by simp [qapSecrets]) P hinj hlt rng h)
  have h' : ∀ i, _ := fun i => by
    have := h i
    rw [QAP.pss_fresh hg dbg hle q ha hb hc, QAP.pss_fresh hg dbg hle q' ha' hb' hc', partOf_range _ (hlt i),
      partOf_range _ (hlt i)] at this
    have := Option.some.inj this
    simp only [PackedQAPShare.mk.injEq] at this
    exact this
  exact ⟨key ha ha' fun i => (h' i).2.2.1, key hb hb' fun i => (h' i).2.2.2.1, key hc hc' fun i => (h' i).2.2.2.2.1⟩

/-! ### C57 -/

theorem partOf_bind {α β : Type} {x : Res α} {f g : α → Res (List β)} {p : Nat} (h : ∀ y, partOf (f y) p = partOf (g y) p) :
    partOf (x >>= f) p = partOf (x >>= g) p := by
  cases x with
  | error e => rfl
  | ok y => exact h y

/-- Both succeed or both fail. -/
def Alike {α : Type} (x y : Res α) : Prop := (∃ e e', x = .error e ∧ y = .error e') ∨ ∃ u v, x = .ok u ∧ y = .ok v

theorem Alike.bind {α β : Type} {x : Res α} {f g : α → Res β} (h : ∀ y, Alike (f y) (g y)) : Alike (x >>= f) (x >>= g) := by
  cases x with
  | error e => exact .inl ⟨e, e, rfl, rfl⟩
  | ok y => exact h y

theorem mapM_ok_mem {α β : Type} {f : α → Res β} {xs : List α} {ys : List β} (h : xs.mapM f = .ok ys) {x : α} (hx : x ∈ xs) :
    ∃ y, f x = .ok y := by
  induction xs generalizing ys with
  | nil => cases hx
  | cons a xs ih =>
    rw [List.mapM_cons] at h
    cases ha : f a with
    | error e => rw [ha] at h; cases h
    | ok y =>
      rw [ha, ok_bind] at h
      rcases List.mem_cons.1 hx with rfl | hx
      · exact ⟨y, ha⟩
      · cases hm : xs.mapM f with
        | error e => rw [hm] at h; cases h
        | ok zs => exact ih hm hx

/-- Two dealings that succeed for the same parties and agree at `p`. -/
theorem partOf_mapM {α : Type} {n p : Nat} (hp : p < n) {f g : Nat → Res α} (h : ∀ i < n, Alike (f i) (g i)) (hfg : f p = g p) :
    partOf ((List.range n).mapM f) p = partOf ((List.range n).mapM g) p := by
  have hbad : ∀ {f : Nat → Res α} {i : Nat}, i < n → (∃ e, f i = .error e) → partOf ((List.range n).mapM f) p = none := by
    rintro f i hi ⟨e, he⟩
    cases hm : (List.range n).mapM f with
    | error _ => rfl
    | ok xs =>
      obtain ⟨y, hy⟩ := mapM_ok_mem hm (List.mem_range.2 hi)
      rw [he] at hy; cases hy
  by_cases hall : ∀ i < n, ∃ x y, f i = .ok x ∧ g i = .ok y
  · obtain ⟨x0, -⟩ := hall p hp
    have : ∀ i, ∃ xy : α × α, i < n → f i = .ok xy.1 ∧ g i = .ok xy.2 := fun i => by
      by_cases hi : i < n
      · obtain ⟨x, y, hx⟩ := hall i hi; exact ⟨(x, y), fun _ => hx⟩
      · exact ⟨(x0, x0), fun h => absurd h hi⟩
    choose F hF using this
    rw [mapM_ok (g := fun i => (F i).1) fun i hi => (hF i (List.mem_range.1 hi)).1,
      mapM_ok (g := fun i => (F i).2) fun i hi => (hF i (List.mem_range.1 hi)).2, partOf_range _ hp, partOf_range _ hp]
    have := (hF p hp).1
    rw [hfg, (hF p hp).2] at this
    exact congrArg some (Except.ok.inj this).symm
  · push Not at hall
    obtain ⟨i, hi, hf⟩ := hall
    rcases h i hi with ⟨e, e', he, he'⟩ | ⟨x, y, hx, hy⟩
    · rw [hbad hi ⟨e, he⟩, hbad hi ⟨e', he'⟩]
    · exact absurd hy (hf x y hx)

/-- Fixed values to add to the tapes with which `r`, `s`, the program and the assignment are packed. -/
structure WitnessShift (F : Type) where
  r : Nat → F
  s : Nat → F
  qapA : Nat → Nat → F
  qapB : Nat → Nat → F
  qapC : Nat → Nat → F
  a : Nat → Nat → F
  ax : Nat → Nat → F

/-- The client's tape with the values added; the tapes of the masks stay as they are. -/
def _root_.ZkSaas.ClientTape.shift {G1 G2 : Type} (t : ClientTape F G1 G2) (δ : WitnessShift F) : ClientTape F G1 G2 :=
  { t with
    r := fun i => t.r i + δ.r i
    s := fun i => t.s i + δ.s i
    qapA := fun c i => t.qapA c i + δ.qapA c i
    qapB := fun c i => t.qapB c i + δ.qapB c i
    qapC := fun c i => t.qapC c i + δ.qapC c i
    a := fun c i => t.a c i + δ.a c i
    ax := fun c i => t.ax c i + δ.ax c i }

theorem pack_fresh {dbg₀ : Bool} {b : Nat} {pp : PSS F} (hpp : PSS.new dbg₀ (2 ^ b) = .ok pp) (dbg : Bool) (r : F) (rng : Nat → F) :
    pp.pack dbg (List.replicate (2 ^ b) r) rng = .ok ((List.range (4 * 2 ^ b)).map fun p =>
      (pp.freshVec 1 (fun _ => List.replicate (2 ^ b) r) (fun _ => rng) p).getD 0 0) := by
  have hg := PSS.good_of_new hpp
  have hle := l_eq hpp
  rw [PSS.pack_eq hg dbg (by simp [hle])]
  congr 1
  apply list_ext_getD 0 (by simp [hg.share_size, hle])
  intro p hp
  rw [Domain.fft_length, hg.share_size] at hp
  rw [getD_map_range, if_pos (by rw [← hle]; exact hp), PSS.freshVec_getD hg _ _ _ hp one_pos]

section deal
variable {G1 G2 : Type} [AddCommGroup G1] [Module F G1] [DecidableEq G1] [FixedWire G1]
  [AddCommGroup G2] [Module F G2] [DecidableEq G2] [FixedWire G2]

/-- **C57** The dealing hides the assignment and `r`, `s` from `l` servers: for two assignments of the same circuit and any `r`, `s`,
`r'`, `s'` there are fixed values such that adding them to the client's random tape turns the one dealing into the other, as far as the
`l` servers can see. So with a uniform tape everything they are given is distributed in the same way in both cases. -/
theorem C57_dealing_hides_witness {dbg₀ : Bool} {b : Nat} {pp : PSS F} (hpp : PSS.new dbg₀ (2 ^ b) = .ok pp)
    (hgen : (FftField.GENERATOR : F) ^ (4 * 2 ^ b) ≠ 1) (dbg : Bool) (a : Nat)
    {mats : ConstraintMatrices F} {z z' : List F} {dom dom2 : Domain F} (hcirc : Circuit a b mats z dom dom2)
    (hcirc' : Circuit a b mats z' dom dom2) (hz : z.length = z'.length) (r s r' s' : F) (pk : ProvingKey G1 G2) (gen1 : G1) (gen2 : G2)
    (P : Fin (2 ^ b) → Nat) (hinj : Function.Injective P) (hlt : ∀ i, P i < 4 * 2 ^ b) :
    ∃ δ : WitnessShift F, ∀ (t : ClientTape F G1 G2) (i : Fin (2 ^ b)),
      partOf (pp.deal dbg (2 ^ b) mats z' pk gen1 gen2 r' s' (t.shift δ)) (P i) =
        partOf (pp.deal dbg (2 ^ b) mats z pk gen1 gen2 r s t) (P i) := by
  have hg := PSS.good_of_new hpp
  have hle := l_eq hpp
  have hb0 : 0 < 2 ^ b := by positivity
  obtain ⟨q, eq, hd, hni, hnc, la, lb, lc, -⟩ := C29_qap mats z hcirc.domain hcirc.rowsA hcirc.rowsB hcirc.colsA hcirc.colsB hcirc.wires
  obtain ⟨q', eq', hd', hni', hnc', la', lb', lc', -⟩ :=
    C29_qap mats z' hcirc'.domain hcirc'.rowsA hcirc'.rowsB hcirc'.colsA hcirc'.colsB hcirc'.wires
  rw [hcirc.size] at la lb lc la' lb' lc'
  have hoff := offset_eq hpp
  have key : ∀ {N : Nat} {sec sec' : Nat → List F}, (∀ c < N, (sec c).length = 2 ^ b) → (∀ c < N, (sec' c).length = 2 ^ b) → _ :=
    fun {N sec sec'} h h' => PSS.freshVec_shift hg hle (by rwa [hoff]) (N := N) (sec := sec) (sec' := sec') h h' P hinj hlt
  have lq : ∀ (v : List F), ∀ c < 2 ^ a, (qapSecrets a b v c).length = 2 ^ b := fun v c _ => by simp [qapSecrets]
  have lw : ∀ (N : Nat) (v : List F), ∀ c < N, (chunks pp.l (fun i => v.getD i 0) c).length = 2 ^ b := fun N v c _ => by
    simp [chunks, hle]
  have l1 : ∀ (r : F), ∀ c < 1, ((fun _ : Nat => List.replicate (2 ^ b) r) c).length = 2 ^ b := fun r c _ => by simp
  obtain ⟨dr, hdr⟩ := key (l1 r) (l1 r')
  obtain ⟨ds, hds⟩ := key (l1 s) (l1 s')
  obtain ⟨dA, hdA⟩ := key (lq q.a) (lq q'.a)
  obtain ⟨dB, hdB⟩ := key (lq q.b) (lq q'.b)
  obtain ⟨dC, hdC⟩ := key (lq q.c) (lq q'.c)
  have nx : numChunks (z'.drop mats.numInstanceVariables) pp.l = numChunks (z.drop mats.numInstanceVariables) pp.l := by
    simp [numChunks, hz]
  have n1 : numChunks (z'.drop 1) pp.l = numChunks (z.drop 1) pp.l := by simp [numChunks, hz]
  obtain ⟨dx, hdx⟩ := key (lw (numChunks (z.drop mats.numInstanceVariables) pp.l) (z.drop mats.numInstanceVariables))
    (lw _ (z'.drop mats.numInstanceVariables))
  obtain ⟨da, hda⟩ := key (lw (numChunks (z.drop 1) pp.l) (z.drop 1)) (lw _ (z'.drop 1))
  rw [hle] at nx n1 hdx hda
  refine ⟨⟨dr 0, ds 0, dA, dB, dC, da, dx⟩, fun t i => ?_⟩
  unfold PSS.deal
  simp only [eq, eq', ok_bind, unwrap_some, pack_fresh hpp, QAP.pss_fresh hg dbg hle q la lb lc, QAP.pss_fresh hg dbg hle q' la' lb' lc',
    PSS.packFromWitness_fresh hg, ClientTape.shift, nx, n1, hz, hd, hd', hni, hni', hnc, hnc', hg.n_eq, hle]
  refine partOf_bind fun crs => partOf_bind fun _ => partOf_bind fun _ => ?_
  rw [rd_range _ (by omega), rd_range _ (by omega), ok_bind, ok_bind]
  refine partOf_bind fun _ => partOf_bind fun m0 => partOf_bind fun m1 => partOf_bind fun m2 => partOf_bind fun m3 =>
    partOf_bind fun m4 => partOf_bind fun m5 => partOf_bind fun dg => partOf_bind fun n0 => partOf_bind fun n1 => partOf_bind fun n2 =>
    partOf_bind fun n3 => partOf_bind fun k => ?_
  refine partOf_mapM (hlt i) (fun p hp => ?_) ?_
  · simp only [rd_range _ hp, ok_bind]
    exact Alike.bind fun _ => Alike.bind fun _ => Alike.bind fun _ => Alike.bind fun _ => Alike.bind fun _ => .inr ⟨_, _, rfl, rfl⟩
  · have one : ∀ (x y : F) (rng : Nat → F) (d : Nat → Nat → F), (∀ (rng : Nat → Nat → F) (i : Fin (2 ^ b)),
        pp.freshVec 1 (fun _ => List.replicate (2 ^ b) y) (fun c j => rng c j + d c j) (P i) =
          pp.freshVec 1 (fun _ => List.replicate (2 ^ b) x) rng (P i)) →
        (pp.freshVec 1 (fun _ => List.replicate (2 ^ b) y) (fun _ j => rng j + d 0 j) (P i)).getD 0 0 =
          (pp.freshVec 1 (fun _ => List.replicate (2 ^ b) x) (fun _ => rng) (P i)).getD 0 0 := by
      intro x y rng d h
      have hp : P i < 4 * pp.l := by rw [hle]; exact hlt i
      rw [← h (fun _ => rng) i, PSS.freshVec_getD hg _ _ _ hp one_pos, PSS.freshVec_getD hg _ _ _ hp one_pos]
    simp only [rd_range _ (hlt i), ok_bind, one _ _ _ _ hdr, one _ _ _ _ hds, hdA, hdB, hdC]
    simp only [hdx, hda]

theorem partOf_bind_some {α β : Type} {x : Res α} {f : α → Res (List β)} {p : Nat} {v : β} (h : partOf (x >>= f) p = some v) :
    ∃ y, x = .ok y ∧ partOf (f y) p = some v := by
  cases x with
  | error e => cases h
  | ok y => exact ⟨y, rfl, h⟩

theorem bind_ok {α β : Type} {x : Res α} {f : α → Res β} {v : β} (h : (x >>= f) = .ok v) : ∃ y, x = .ok y ∧ f y = .ok v := by
  cases x with
  | error e => cases h
  | ok y => exact ⟨y, rfl, h⟩

theorem mapM_getElem? {α β : Type} {f : α → Res β} {xs : List α} {ys : List β} (h : xs.mapM f = .ok ys) {i : Nat} {x : α} {y : β}
    (hx : xs[i]? = some x) (hy : ys[i]? = some y) : f x = .ok y := by
  induction xs generalizing ys i with
  | nil => cases hx
  | cons a xs ih =>
    rw [List.mapM_cons] at h
    obtain ⟨y0, h0, h⟩ := bind_ok h
    obtain ⟨zs, h1, h⟩ := bind_ok h
    cases h
    cases i with
    | zero =>
      rw [List.getElem?_cons_zero] at hx hy
      cases hx; cases hy; exact h0
    | succ i => rw [List.getElem?_cons_succ] at hx hy; exact ih h1 hx hy

theorem partOf_rd {α : Type} {xs : List α} {p : Nat} {v : α} (h : rd xs p = .ok v) : partOf (.ok xs) p = some v := by
  unfold rd at h
  simp only [partOf]
  cases hx : xs[p]? with
  | none => rw [hx] at h; cases h
  | some y => rw [hx] at h; cases h; rfl

theorem partOf_mapM_some {α : Type} {n p : Nat} {f : Nat → Res α} {v : α} (h : partOf ((List.range n).mapM f) p = some v) :
    f p = .ok v := by
  cases hm : (List.range n).mapM f with
  | error e => rw [hm] at h; cases h
  | ok ys =>
    rw [hm] at h
    simp only [partOf] at h
    have hp : p < n := by
      have := mapM_ok_length hm
      rw [List.length_range] at this
      rw [← this]
      exact (List.getElem?_eq_some_iff.1 h).1
    exact mapM_getElem? hm (List.getElem?_range hp) h

/-- The parts of what one server is given. -/
theorem deal_parts {pp : PSS F} {dbg : Bool} {copies : Nat} {mats : ConstraintMatrices F} {z : List F} {pk : ProvingKey G1 G2} {gen1 : G1}
    {gen2 : G2} {r s : F} {t : ClientTape F G1 G2} {p : Nat} {x : ServerInput F G1 G2}
    (h : partOf (pp.deal dbg copies mats z pk gen1 gen2 r s t) p = some x) :
    ∃ q, qap mats z = .ok (some q) ∧ partOf (q.pss pp dbg t.qapA t.qapB t.qapC) p = some x.q ∧
      partOf (pp.pack dbg (List.replicate copies r) t.r) p = some x.r ∧ partOf (pp.pack dbg (List.replicate copies s) t.s) p = some x.s ∧
      partOf (pp.packFromWitness dbg (z.drop mats.numInstanceVariables) t.ax) p = some x.ax ∧
      partOf (pp.packFromWitness dbg (z.drop 1) t.a) p = some x.a := by
  unfold PSS.deal at h
  obtain ⟨q?, eq, h⟩ := partOf_bind_some h
  obtain ⟨q, eu, h⟩ := partOf_bind_some h
  obtain ⟨rs, er, h⟩ := partOf_bind_some h
  obtain ⟨ss, es, h⟩ := partOf_bind_some h
  obtain ⟨qs, eqs, h⟩ := partOf_bind_some h
  obtain ⟨crs, -, h⟩ := partOf_bind_some h
  obtain ⟨-, -, h⟩ := partOf_bind_some h
  obtain ⟨axs, eax, h⟩ := partOf_bind_some h
  obtain ⟨-, -, h⟩ := partOf_bind_some h
  obtain ⟨as, ea, h⟩ := partOf_bind_some h
  iterate 14 obtain ⟨_, -, h⟩ := partOf_bind_some h
  have hq : qap mats z = .ok (some q) := by
    rw [eq]
    cases q? with
    | none => cases eu
    | some q' => cases eu; rfl
  have this := partOf_mapM_some h
  obtain ⟨_, -, this⟩ := bind_ok this
  obtain ⟨a, ha, this⟩ := bind_ok this
  obtain ⟨ax, hax, this⟩ := bind_ok this
  obtain ⟨qq, hqq, this⟩ := bind_ok this
  obtain ⟨rr, hr, this⟩ := bind_ok this
  obtain ⟨sv, hs, this⟩ := bind_ok this
  iterate 4 obtain ⟨_, -, this⟩ := bind_ok this
  cases this
  exact ⟨q, hq, eqs ▸ partOf_rd hqq, er ▸ partOf_rd hr, es ▸ partOf_rd hs, eax ▸ partOf_rd hax, ea ▸ partOf_rd ha⟩

/-- **C57** (negation for the example) `main` packs `n` copies of `r` and `s`; in a release build every single server is given `r` and
`s` themselves, so no change of the tape can hide them. -/
theorem C57_example_reveals {dbg₀ : Bool} {b : Nat} {pp : PSS F} (hpp : PSS.new dbg₀ (2 ^ b) = .ok pp)
    (mats : ConstraintMatrices F) (z : List F) (pk : ProvingKey G1 G2) (gen1 : G1) (gen2 : G2) (r s : F) (t : ClientTape F G1 G2)
    (p : Nat) (x : ServerInput F G1 G2) (h : partOf (pp.deal false pp.n mats z pk gen1 gen2 r s t) p = some x) :
    x.r = r ∧ x.s = s := by
  obtain ⟨_, -, -, hr, hs, -⟩ := deal_parts h
  rw [C37_release_reveals hpp, partOf] at hr hs
  exact ⟨(List.eq_of_mem_replicate (List.mem_of_getElem? hr)), (List.eq_of_mem_replicate (List.mem_of_getElem? hs))⟩

/-- **C56** The dealing with a known tape for the program (the code takes `test_rng` there): if `l` servers cannot tell two dealings
apart, then the assignments agree on every row of `A` and of `B` and on the instance variables — whatever the other tapes. -/
theorem C56_dealing_known_tape {dbg₀ : Bool} {b : Nat} {pp : PSS F} (hpp : PSS.new dbg₀ (2 ^ b) = .ok pp)
    (hgen : (FftField.GENERATOR : F) ^ (4 * 2 ^ b) ≠ 1) (dbg : Bool) (copies a : Nat)
    {mats : ConstraintMatrices F} {z z' : List F} {dom dom2 : Domain F} (hcirc : Circuit a b mats z dom dom2)
    (hcirc' : Circuit a b mats z' dom dom2) (r s r' s' : F) (pk : ProvingKey G1 G2) (gen1 : G1) (gen2 : G2)
    (P : Fin (2 ^ b) → Nat) (hinj : Function.Injective P) (hlt : ∀ i, P i < 4 * 2 ^ b) (t t' : ClientTape F G1 G2)
    (hA : t.qapA = t'.qapA) (hB : t.qapB = t'.qapB) (hC : t.qapC = t'.qapC) (x : Fin (2 ^ b) → ServerInput F G1 G2)
    (h : ∀ i, partOf (pp.deal dbg copies mats z pk gen1 gen2 r s t) (P i) = some (x i))
    (h' : ∀ i, partOf (pp.deal dbg copies mats z' pk gen1 gen2 r' s' t') (P i) = some (x i)) :
    (∀ i < mats.numConstraints, dot (mats.a.getD i []) z = dot (mats.a.getD i []) z' ∧
      dot (mats.b.getD i []) z = dot (mats.b.getD i []) z') ∧
    ∀ j < mats.numInstanceVariables, z.getD j 0 = z'.getD j 0 := by
  obtain ⟨q, eq, -, -, -, la, lb, lc, v1, v2, -⟩ := C29_qap mats z hcirc.domain hcirc.rowsA hcirc.rowsB hcirc.colsA hcirc.colsB hcirc.wires
  obtain ⟨q', eq', -, -, -, la', lb', lc', v1', v2', -⟩ :=
    C29_qap mats z' hcirc'.domain hcirc'.rowsA hcirc'.rowsB hcirc'.colsA hcirc'.colsB hcirc'.wires
  rw [hcirc.size] at la lb lc la' lb' lc'
  have hq : ∀ i, partOf (q.pss pp dbg t.qapA t.qapB t.qapC) (P i) = some (x i).q := fun i => by
    obtain ⟨q0, e, hx, -⟩ := deal_parts (h i)
    rw [eq] at e; cases e; exact hx
  have hq' : ∀ i, partOf (q'.pss pp dbg t'.qapA t'.qapB t'.qapC) (P i) = some (x i).q := fun i => by
    obtain ⟨q0, e, hx, -⟩ := deal_parts (h' i)
    rw [eq'] at e; cases e; exact hx
  obtain ⟨ea, eb, -⟩ := C56_qap_known_tape hpp hgen dbg a _ _ _ q q' la lb lc la' lb' lc' P hinj hlt fun i =>
    (hq i).trans (by rw [hA, hB, hC]; exact (hq' i).symm)
  exact ⟨fun i hi => ⟨by rw [← (v1 i hi).1, ← (v1' i hi).1, ea], by rw [← (v1 i hi).2, ← (v1' i hi).2, eb]⟩,
    fun j hj => by rw [← (v2 j hj).1, ← (v2' j hj).1, ea]⟩

/-- The dealing with `l` copies of `r` and `s` succeeds for every tape. -/
theorem deal_succeeds {dbg₀ : Bool} {b : Nat} {pp : PSS F} [FixedWire F] (hpp : PSS.new dbg₀ (2 ^ b) = .ok pp) (dbg : Bool) (a : Nat)
    {mats : ConstraintMatrices F} {z : List F} {dom dom2 : Domain F} (hcirc : Circuit a b mats z dom dom2)
    {pa pb pc : Nat → F[X]} {t : Toxic F} {g1 : G1} {g2 : G2} {pk : ProvingKey G1 G2}
    (hk : IsCircomKey t g1 g2 z.length mats.numInstanceVariables (2 ^ (a + b)) dom2.groupGen pa pb pc pk)
    (hal : dbg = true → KeyAligned (2 ^ b) pk) (gen1 : G1) (gen2 : G2) (r s : F) (tape : ClientTape F G1 G2) :
    ∃ ins : Nat → ServerInput F G1 G2, pp.deal dbg (2 ^ b) mats z pk gen1 gen2 r s tape = .ok ((List.range (4 * 2 ^ b)).map ins) := by
  obtain ⟨hdom, hsize, hdom2, hA, hB, hcA, hcB, -, hin, hz, -⟩ := hcirc
  have hg := PSS.good_of_new hpp
  have hle := l_eq hpp
  have hb0 : 0 < 2 ^ b := by positivity
  have hdom' : Domain.new (2 ^ (a + b)) = some dom := hsize ▸ Domain.new_size hdom
  obtain ⟨hwf, -, -, -⟩ := Domain.new_pow2 hdom'
  have hprim : IsPrimitiveRoot dom.groupGen (2 ^ (a + b)) := by rw [← hsize]; exact hwf.prim
  have hprim' : IsPrimitiveRoot dom.groupGenInv (2 ^ (a + b)) := by rw [hwf.ginv]; exact hprim.inv
  obtain ⟨q, eq, rfl, -, -, la, lb, lc, -⟩ := C29_qap mats z hdom hA hB hcA hcB hz
  rw [hsize] at la lb lc
  have hcons : ∀ {T : Type} {v : List T} {f : Nat → T}, v = (List.range z.length).map f → ∃ x xs, v = x :: xs := by
    intro T v f h
    cases v with
    | nil => have := congrArg List.length h; simp at this; omega
    | cons x xs => exact ⟨x, xs, rfl⟩
  obtain ⟨a0, as, hqa⟩ := hcons hk.aQuery
  obtain ⟨b0, bs, hqb⟩ := hcons hk.bG1Query
  obtain ⟨v0, vs, hqv⟩ := hcons hk.bG2Query
  obtain ⟨crs, ec, -⟩ := C33_pack_key hpp dbg pk hal hqa hqb hqv
  have fm : ∀ (rearrange : Bool) (g gen : F), IsPrimitiveRoot gen (2 ^ (a + b)) → ∀ vt : VecTape F,
      ∃ ms : List (FftMask F), FftMask.sample pp dbg rearrange g gen (2 ^ (a + b)) vt.vals vt.rngIn vt.rngOut = .ok ms ∧
        ms.length = 4 * 2 ^ b := by
    intro rearrange g gen hp vt
    obtain ⟨ms, e, hl, -⟩ := MasksOk.of_sample hg dbg hle hp rearrange g vt.vals vt.rngIn vt.rngOut
    exact ⟨ms, e, by rw [hl, hle]⟩
  have mm : ∀ {T : Type} [AddCommGroup T] [Module F T] [DecidableEq T] (gen : T) (mt : MsmTape F T),
      ∃ ms : List (MsmMask T), MsmMask.sample pp dbg gen mt.vals mt.rngIn mt.rngOut = .ok ms ∧ ms.length = 4 * 2 ^ b := by
    intro T _ _ _ gen mt
    obtain ⟨ms, e, hl, -⟩ := MsmMasksOk.of_sample hg dbg gen mt.vals mt.rngIn mt.rngOut
    exact ⟨ms, e, by rw [hl, hle]⟩
  have hroot := fun x : F => fm true x q.domain.groupGenInv hprim'
  obtain ⟨m0, em0, lm0⟩ := hroot (dom2.element 1) (tape.fft 0)
  obtain ⟨m1, em1, lm1⟩ := hroot (dom2.element 1) (tape.fft 1)
  obtain ⟨m2, em2, lm2⟩ := hroot (dom2.element 1) (tape.fft 2)
  obtain ⟨m3, em3, lm3⟩ := fm false 1 q.domain.groupGen hprim (tape.fft 3)
  obtain ⟨m4, em4, lm4⟩ := fm false 1 q.domain.groupGen hprim (tape.fft 4)
  obtain ⟨m5, em5, lm5⟩ := fm false 1 q.domain.groupGen hprim (tape.fft 5)
  obtain ⟨n0, en0, ln0⟩ := mm gen1 (tape.msm1 0)
  obtain ⟨n1, en1, ln1⟩ := mm gen1 (tape.msm1 1)
  obtain ⟨n2, en2, ln2⟩ := mm gen1 (tape.msm1 2)
  obtain ⟨n3, en3, ln3⟩ := mm gen1 (tape.msm1 3)
  obtain ⟨k, ek, lk⟩ := mm gen2 tape.msm2
  obtain ⟨dr, ed, ld, -⟩ := DegRedMasksOk.of_sample hg dbg (1 : F) (N := 2 ^ a) (by positivity) tape.degred.vals tape.degred.rngIn
    tape.degred.rngOut
  rw [hle] at ld
  have hdiv : 2 ^ (a + b) / 2 ^ b = 2 ^ a := by rw [pow_add, Nat.mul_div_cancel _ hb0]
  refine ⟨fun p => ⟨crs p, ⟨q.numInputs, q.numConstraints, pp.freshVec (2 ^ a) (qapSecrets a b q.a) tape.qapA p,
      pp.freshVec (2 ^ a) (qapSecrets a b q.b) tape.qapB p, pp.freshVec (2 ^ a) (qapSecrets a b q.c) tape.qapC p, q.domain⟩,
    pp.freshVec (numChunks (z.drop 1) (2 ^ b)) (fun c => chunks (2 ^ b) (fun i => (z.drop 1).getD i 0) c) tape.a p,
    pp.freshVec (numChunks (z.drop mats.numInstanceVariables) (2 ^ b))
      (fun c => chunks (2 ^ b) (fun i => (z.drop mats.numInstanceVariables).getD i 0) c) tape.ax p,
    (pp.freshVec 1 (fun _ => List.replicate (2 ^ b) r) (fun _ => tape.r) p).getD 0 0,
    (pp.freshVec 1 (fun _ => List.replicate (2 ^ b) s) (fun _ => tape.s) p).getD 0 0,
    [m0.getD p (FftMask.zero 0), m1.getD p (FftMask.zero 0), m2.getD p (FftMask.zero 0), m3.getD p (FftMask.zero 0),
      m4.getD p (FftMask.zero 0), m5.getD p (FftMask.zero 0)], dr.getD p (DegRedMask.zero 0),
    [n0.getD p MsmMask.zero, n1.getD p MsmMask.zero, n2.getD p MsmMask.zero, n3.getD p MsmMask.zero], k.getD p MsmMask.zero⟩, ?_⟩
  unfold PSS.deal
  simp only [eq, ok_bind, unwrap_some, pack_fresh hpp, QAP.pss_fresh hg dbg hle q la lb lc, PSS.packFromWitness_fresh hg, ec, hle]
  rw [assert_of (by simpa using hz), ok_bind, assert_of (by simp; omega), ok_bind, rd_range _ (by omega), ok_bind]
  simp only [hsize]
  rw [show 2 * 2 ^ (a + b) = 2 ^ (a + b + 1) by rw [pow_succ, mul_comm], hdom2]
  simp only [unwrap_some, ok_bind, em0, em1, em2, em3, em4, em5, hdiv, ed, en0, en1, en2, en3, ek]
  rw [hg.n_eq, hle]
  refine mapM_ok fun p hp => ?_
  have hp := List.mem_range.1 hp
  simp only [rd_range _ hp, ok_bind, rd_getD (DegRedMask.zero 0) (ld ▸ hp),
    rd_getD MsmMask.zero (lk ▸ hp), List.mapM_cons, List.mapM_nil, rd_getD (FftMask.zero 0) (lm0 ▸ hp),
    rd_getD (FftMask.zero 0) (lm1 ▸ hp), rd_getD (FftMask.zero 0) (lm2 ▸ hp), rd_getD (FftMask.zero 0) (lm3 ▸ hp),
    rd_getD (FftMask.zero 0) (lm4 ▸ hp), rd_getD (FftMask.zero 0) (lm5 ▸ hp), rd_getD MsmMask.zero (ln0 ▸ hp),
    rd_getD MsmMask.zero (ln1 ▸ hp), rd_getD MsmMask.zero (ln2 ▸ hp), rd_getD MsmMask.zero (ln3 ▸ hp), pure_ok]

end deal

/-! ### Examples -/

/-- Parties 3 and 6 of eight. -/
def pair17 (i : Fin (2 ^ 1)) : Nat := if i = 0 then 3 else 6

theorem pair17_inj : Function.Injective pair17 := by decide
theorem pair17_lt : ∀ i, pair17 i < 4 * 2 ^ 1 := by decide
theorem gen17 : (FftField.GENERATOR : ZMod 17) ^ (4 * 2 ^ 1) ≠ 1 := by decide

/-- C54: some tape gives parties 3 and 6 only zeros for the vector `[3, 5, 7, 11]`. -/
example : ∃ tape : Fin 2 → Fin (2 ^ 1) → ZMod 17, ∀ (c : Fin 2) i,
    entryOf (pp17.packVec true ([3, 5, 7, 11] : List (ZMod 17)) (ext2 tape)) c (pair17 i) = some 0 :=
  (C54_pack_vec (pp17_eq true) gen17 true (N := 2) [3, 5, 7, 11] rfl pair17 pair17_inj pair17_lt fun _ _ => 0).exists

/-- C54: an assignment of three values. -/
example : ∃ tape : Fin 2 → Fin (2 ^ 1) → ZMod 17, ∀ i,
    partOf (pp17.packFromWitness true ([3, 5, 7] : List (ZMod 17)) (ext2 tape)) (pair17 i) = some [1, 2] :=
  (C54_pack_from_witness (pp17_eq true) gen17 true (N := 2) [3, 5, 7] rfl pair17 pair17_inj pair17_lt
    fun c _ => (c.val : ZMod 17) + 1).exists

/-- C54: the program of `x·x = y`. -/
example : ∃ t : (Fin 2 → Fin 2 → ZMod 17) × (Fin 2 → Fin 2 → ZMod 17) × (Fin 2 → Fin 2 → ZMod 17), ∀ i,
    partOf (QAP.pss ⟨2, 2, [3, 9, 1, 9], [3, 1, 0, 0], [9, 9, 0, 0], dom17⟩ pp17 true (ext2 t.1) (ext2 t.2.1) (ext2 t.2.2)) (pair17 i) =
      some ⟨2, 2, [0, 0], [1, 1], [2, 2], dom17⟩ :=
  (C54_qap_pss (pp17_eq true) gen17 true 1 ⟨2, 2, [3, 9, 1, 9], [3, 1, 0, 0], [9, 9, 0, 0], dom17⟩ rfl rfl rfl pair17 pair17_inj pair17_lt
    (fun _ _ => 0) (fun _ _ => 1) (fun _ _ => 2)).exists

/-- C55: the transform of `[3, 5, 7, 11]`; for some tape of the king parties 3 and 6 end with zeros. -/
example : ∃ (sh : Nat → List (ZMod 17)) (tape : Fin (2 ^ 1) → Fin (2 ^ 1) → ZMod 17) (outs : Nat → List (ZMod 17)),
    HoldsOutput pp17 true 1 1 sh [3, 5, 7, 11] ∧
    AlwaysYields (Net.init fun i : Fin (4 * 2 ^ 1) =>
      pp17.dFft true (4 * 2 ^ 1) i (sh i) (FftMask.zero 2) false dom17 .zero (ext2 tape)) (fun i => outs i) ∧
    ∀ (i : Fin (2 ^ 1)) (c : Fin (2 ^ 1)), (outs (pair17 i)).getD c.val 0 = 0 := by
  obtain ⟨sh, -, h⟩ := C27_fresh_input (pp17_eq true) true 1 [3, 5, 7, 11] rfl fun _ _ => 1
  obtain ⟨outs, h1, h2⟩ := C55_d_fft_fresh (pp17_eq true) gen17 true 1 (by norm_num) dom17_eq _ _ h.input false
    (fun _ => FftMask.zero 2) (.inr fun _ => rfl) .zero pair17 pair17_inj pair17_lt
  obtain ⟨tape, ht, -⟩ := h2 fun _ _ => 0
  exact ⟨_, tape, outs tape, h, h1 tape, ht⟩

/-- C55: the same vector, interpolated. -/
example : ∃ (sh : Nat → List (ZMod 17)) (tape : Fin (2 ^ 1) → Fin (2 ^ 1) → ZMod 17) (outs : Nat → List (ZMod 17)),
    HoldsOutput pp17 true 1 1 sh [3, 5, 7, 11] ∧
    AlwaysYields (Net.init fun i : Fin (4 * 2 ^ 1) =>
      pp17.dIfft true (4 * 2 ^ 1) i (sh i) (FftMask.zero 2) false dom17 3 .zero (ext2 tape)) (fun i => outs i) ∧
    ∀ (i : Fin (2 ^ 1)) (c : Fin (2 ^ 1)), (outs (pair17 i)).getD c.val 0 = 0 := by
  obtain ⟨sh, -, h⟩ := C27_fresh_input (pp17_eq true) true 1 [3, 5, 7, 11] rfl fun _ _ => 1
  obtain ⟨outs, h1, h2⟩ := C55_d_ifft_fresh (pp17_eq true) gen17 true 1 (by norm_num) dom17_eq _ _ h.input 3 false
    (fun _ => FftMask.zero 2) (.inr fun _ => rfl) .zero pair17 pair17_inj pair17_lt
  obtain ⟨tape, ht, -⟩ := h2 fun _ _ => 0
  exact ⟨_, tape, outs tape, h, h1 tape, ht⟩

/-- C55: reducing the degree of shares of `[3, 5]`. -/
example : ∃ (sh : Nat → List (ZMod 17)) (tape : Fin 1 → Fin (2 ^ 1) → ZMod 17) (outs : Nat → List (ZMod 17)),
    HoldsChunks pp17 1 sh [3, 5] ∧
    AlwaysYields (Net.init fun i : Fin (4 * 2 ^ 1) =>
      pp17.degRed true (4 * 2 ^ 1) i (sh i) (DegRedMask.zero 1) .zero (ext2 tape)) (fun i => outs i) ∧
    ∀ (i : Fin (2 ^ 1)) (c : Fin 1), (outs (pair17 i)).getD c.val 0 = 0 := by
  obtain ⟨sh, -, h⟩ := packFromWitness_holds (b := 1) (pp17_eq true) true ([3, 5] : List (ZMod 17)) fun _ _ => 1
  obtain ⟨outs, h1, h2⟩ := C55_deg_red_fresh (T := ZMod 17) (pp17_eq true) gen17 true (N := 1) (d := 2 * 2 ^ 1) (by norm_num) (by norm_num)
    (by norm_num) (by norm_num) sh (fun c => chunks (2 ^ 1) (fun i => [3, 5].getD i 0) c) h (fun _ => DegRedMask.zero 1) (.inr fun _ => rfl) .zero pair17 pair17_inj pair17_lt
  obtain ⟨tape, ht, -⟩ := h2 fun _ _ => 0
  exact ⟨sh, tape, outs tape, h, h1 tape, ht⟩

/-- C56: different secrets packed with the same tape differ for party 3 or for party 6. -/
example (rng : Nat → ZMod 17) : ∃ i, partOf (pp17.pack true ([3, 5] : List (ZMod 17)) rng) (pair17 i) ≠
    partOf (pp17.pack true [3, 6] rng) (pair17 i) := by
  by_contra h
  push Not at h
  exact absurd (C56_pack_known_tape (pp17_eq true) gen17 true rng [3, 5] [3, 6] rfl rfl pair17 pair17_inj pair17_lt h) (by decide)

/-- The other root of 9. -/
theorem circuit17' : Circuit 1 1 mats17 [1, 9, 14] dom17 dom17b where
  domain := by decide +kernel
  size := rfl
  double := dom17b_eq
  rowsA := rfl
  rowsB := rfl
  colsA := mats17_cols.1
  colsB := mats17_cols.2
  colsC := circuit17.colsC
  inputs := by decide
  wires := by decide
  one := rfl

example : Satisfies mats17.numConstraints mats17.a mats17.b mats17.c [1, 9, 14] := by
  intro i hi
  have : i = 0 ∨ i = 1 := by simp [mats17] at hi; omega
  rcases this with rfl | rfl <;> decide +kernel

/-- C56: the two roots of 9 are told apart by any two servers when the tape of the program is known. -/
example (pk : ProvingKey (ZMod 17) (ZMod 17)) (t t' : ClientTape (ZMod 17) (ZMod 17) (ZMod 17))
    (hA : t.qapA = t'.qapA) (hB : t.qapB = t'.qapB) (hC : t.qapC = t'.qapC) (x : Fin (2 ^ 1) → ServerInput (ZMod 17) (ZMod 17) (ZMod 17))
    (h : ∀ i, partOf (pp17.deal false 8 mats17 z17 pk 1 1 5 6 t) (pair17 i) = some (x i)) :
    ¬ ∀ i, partOf (pp17.deal false 8 mats17 [1, 9, 14] pk 1 1 5 6 t') (pair17 i) = some (x i) := by
  intro h'
  have := (C56_dealing_known_tape (pp17_eq true) gen17 false 8 1 circuit17 circuit17' 5 6 5 6 pk 1 1 pair17 pair17_inj pair17_lt t t'
    hA hB hC x h h').1 0 (by decide)
  exact absurd this.1 (by decide +kernel)

/-- C57: a dealing of the root 3 with `r = 5`, `s = 6` looks to servers 3 and 6 like one of the root 14 with `r = 7`, `s = 8`; and there is
something to see. -/
example (t : ClientTape (ZMod 17) (ZMod 17) (ZMod 17)) : ∃ (pk : ProvingKey (ZMod 17) (ZMod 17)) (δ : WitnessShift (ZMod 17)) (i : Fin (2 ^ 1) → _),
    ∀ k, partOf (pp17.deal false 2 mats17 z17 pk 1 1 5 6 t) (pair17 k) = some (i k) ∧
      partOf (pp17.deal false 2 mats17 [1, 9, 14] pk 1 1 7 8 (t.shift δ)) (pair17 k) = some (i k) := by
  obtain ⟨pa, pb, pc, pk, h1, h2⟩ := C35_key_exists circuit17 (⟨2, 3, 4, 5, 6⟩ : Toxic (ZMod 17)) (1 : ZMod 17) (1 : ZMod 17)
  obtain ⟨δ, hδ⟩ := C57_dealing_hides_witness (pp17_eq true) gen17 false 1 circuit17 circuit17' rfl 5 6 7 8 pk 1 1 pair17 pair17_inj pair17_lt
  obtain ⟨ins, hins⟩ := deal_succeeds (pp17_eq true) false 1 circuit17 h2 (by simp) 1 1 5 6 t
  refine ⟨pk, δ, fun k => ins (pair17 k), fun k => ⟨?_, ?_⟩⟩
  · exact hins ▸ partOf_range _ (pair17_lt k)
  · exact (hδ t k).trans (hins ▸ partOf_range _ (pair17_lt k))

/-- Example for C56: two programs that differ in one value, packed with the same tapes, differ for party 3 or for party 6. -/
example (rngA rngB rngC : Nat → Nat → ZMod 17) : ∃ i,
    partOf (QAP.pss ⟨2, 2, [3, 9, 1, 9], [3, 1, 0, 0], [9, 9, 0, 0], dom17⟩ pp17 true rngA rngB rngC) (pair17 i) ≠
      partOf (QAP.pss ⟨2, 2, [14, 9, 1, 9], [3, 1, 0, 0], [9, 9, 0, 0], dom17⟩ pp17 true rngA rngB rngC) (pair17 i) := by
  by_contra h
  push Not at h
  exact absurd (C56_qap_known_tape (pp17_eq true) gen17 true 1 rngA rngB rngC _ _ rfl rfl rfl rfl rfl rfl pair17 pair17_inj pair17_lt h).1
    (by decide)

/-- Example for C57: what server 6 gets from the example program with `r = 5` and `s = 6`. -/
example (t : ClientTape (ZMod 17) (ZMod 17) (ZMod 17)) : ∃ (pk : ProvingKey (ZMod 17) (ZMod 17)) (x : ServerInput (ZMod 17) (ZMod 17) (ZMod 17)),
    partOf (pp17.deal false 8 mats17 z17 pk 1 1 5 6 t) 6 = some x ∧ x.r = 5 ∧ x.s = 6 := by
  obtain ⟨pa, pb, pc, pk, h1, h2⟩ := C35_key_exists circuit17 (⟨2, 3, 4, 5, 6⟩ : Toxic (ZMod 17)) (1 : ZMod 17) (1 : ZMod 17)
  obtain ⟨ins, -, -, -, -, hins, -⟩ := C35_example_release (GT := ZMod 17) (pp17_eq true) 1 (by norm_num) circuit17 mats17_sat h1 h2
    (by decide) (by decide) 1 1 5 6 t fun _ i j => i + j
  have e : partOf (pp17.deal false 8 mats17 z17 pk 1 1 5 6 t) 6 = some (ins 6) := hins ▸ partOf_range _ (by norm_num)
  exact ⟨pk, ins 6, e, C57_example_reveals (pp17_eq true) mats17 z17 pk 1 1 5 6 t 6 (ins 6) e⟩

end ZkSaas.Properties
