import Verif.Properties.KingView

/-!
# C68: what the servers see of `d_pp`
-/

set_option linter.unusedSectionVars false

namespace ZkSaas.Properties

open Finset Spec

variable {F : Type} [Field F] [FftField F] [DecidableEq F] [FixedWire F]

/-- The king's answer in the first round of `d_pp` is a fresh packing of the running products. -/
theorem PSS.ppKing_fresh {pp : PSS F} (hg : pp.Good) (dbg : Bool) {d N : Nat} (hN : 0 < N) (hd : 0 < d)
    (hd4 : d ≤ 4 * pp.l - 1) {sh : Nat → List F} (x y : Nat → F) (hy : ∀ i < N * pp.l, y i ≠ 0)
    (hsh : pp.SharedVec d (N + N) sh (fun c => if c < N then chunks pp.l x c else chunks pp.l y (c - N)))
    (rng : Nat → Nat → F) :
    pp.ppKing dbg ((List.range (4 * pp.l)).map sh) (List.range (4 * pp.l)) rng =
      .ok ((List.range (4 * pp.l)).map (pp.freshVec N (chunks pp.l (runProd x y)) rng)) := by
  rw [PSS.ppKing_eq hg dbg hN hd hd4 x y hsh rng, ppProducts_ok _ _ _ hy, ok_bind,
    PSS.packVec_fresh hg dbg (N := N) (by simp) rng, ok_bind, ← PSS.transpose_fresh hg hN]
  congr 1
  apply List.map_congr_left
  intro c hc
  rw [chunk_eq_chunks _ _ _ (List.mem_range.1 hc)]

/-- `d_pp` with dealt masks, and all that the parties receive. -/
theorem PSS.dPp_view {pp : PSS F} (hg : pp.Good) (dbg : Bool) {n : Nat} (hn : n = 4 * pp.l) {N d : Nat} (hN : 0 < N)
    (hN64 : N + N < 2 ^ 64) (hd : 0 < d) (hd4 : d ≤ 4 * pp.l - 1) {num den : Nat → List F} (x y : Nat → F)
    (hy : ∀ i < N * pp.l, y i ≠ 0)
    (hnum : pp.SharedVec d N num (chunks pp.l x)) (hden : pp.SharedVec d N den (chunks pp.l y))
    (t : VecTape F) (sid : Sid) (rng rng' : Nat → Nat → F) :
    let ans := pp.freshVec N (chunks pp.l (runProd x y)) rng
    let ans' := pp.freshVec N (fun c => List.zipWith (· + ·) (chunks pp.l (runProd x y) c) (chunks pp.l t.vals c)) rng'
    let mask := pp.degDealt N t
    RunsV All (only sid) (fun i : Fin n => pp.dPp dbg n i (num i) (den i) (mask i) sid rng rng')
        (fun i => addMask (ans' i) (mask i).outMask)
        (fun i => if i.val = 0 then (gathered n fun p => num p ++ den p) ++ gathered n fun p => addMask (ans p) (mask p).inMask
          else [(0, Wire.enc (ans i)), (0, Wire.enc (ans' i))]) := by
  intro ans ans' mask
  have hl := hg.lpos
  have hn0 : 0 < n := by omega
  have hsh := SharedVec.append hnum hden
  have hK := PSS.ppKing_fresh hg dbg hN hd hd4 x y hy hsh rng
  have hans : pp.SharedVec (2 * pp.l) N ans (chunks pp.l (runProd x y)) :=
    PSS.freshVec_shared hg (fun c _ => chunks_length _ _ _) rng
  obtain ⟨r, -⟩ := PSS.degRed_view hg dbg hn hN (by omega : N < 2 ^ 64) le_rfl (by omega) hans t sid rng'
  refine RunsV.congr (runsV_round hn0 sid pp.t (fun i => num i ++ den i)
    (fun i hi => Wire.ok_list _ (by rw [hsh.1 i (by omega)]; exact hN64))
    (fun i rs => pp.ppKing dbg rs.shares rs.parties rng) ans (8 + N * FixedWire.width F) ?_ ?_
    (fun i y => pp.degRed dbg n i y (mask i) sid rng') r) (fun i => ?_) (fun i => rfl) (fun i => ?_)
  · rw [hn]; exact hK
  · intro i hi
    have := hans.1 i (by omega)
    exact ⟨Wire.ok_list _ (by rw [this]; omega), by rw [Wire.enc_list_length, this]⟩
  · exact PSS.dPp_eq _ _ _ _ _ _ _ _ _ _
  · by_cases hi : i.val = 0
    · simp only [hi, if_true]; rfl
    · simp only [hi, if_false]; rfl

/-- What the king can do with the messages of the first round: decode them, unpack every position, and cut the result in two. -/
def readNumDen (pp : PSS F) (tr : Transcript) : List F × List F :=
  match (tr.take pp.n).mapM (fun m => Wire.dec (T := List F) m.2) with
  | none => ([], [])
  | some shares =>
    match (do let rows ← transpose shares; rows.mapM fun x => pp.unpackMissingShares false x (List.range pp.n)) with
    | .error _ => ([], [])
    | .ok cs => (cs.flatten.take (cs.flatten.length / 2), cs.flatten.drop (cs.flatten.length / 2))

theorem mapM_some {α β : Type} {f : α → Option β} {g : α → β} : ∀ {xs : List α}, (∀ x ∈ xs, f x = some (g x)) → xs.mapM f = some (xs.map g)
  | [], _ => rfl
  | x :: xs, h => by
    rw [List.mapM_cons, h x (List.mem_cons_self ..), mapM_some fun y hy => h y (List.mem_cons_of_mem _ hy)]
    rfl

theorem readNumDen_ok {pp : PSS F} (hg : pp.Good) {N d : Nat} (hN : 0 < N) (hN64 : N + N < 2 ^ 64) (hd : 0 < d)
    (hd4 : d ≤ 4 * pp.l - 1) {num den : Nat → List F} (x y : Nat → F)
    (hnum : pp.SharedVec d N num (chunks pp.l x)) (hden : pp.SharedVec d N den (chunks pp.l y)) (rest : Transcript) :
    readNumDen pp ((gathered (4 * pp.l) fun p => num p ++ den p) ++ rest) =
      ((List.range (N * pp.l)).map x, (List.range (N * pp.l)).map y) := by
  have hsh := SharedVec.append hnum hden
  have hp : pp.Decodable false d (List.range (4 * pp.l)) := Or.inl rfl
  have e1 : (((gathered (4 * pp.l) fun p => num p ++ den p) ++ rest).take pp.n).mapM (fun m => Wire.dec (T := List F) m.2) =
      some ((List.range (4 * pp.l)).map fun p => num p ++ den p) := by
    have h0 : ((gathered (4 * pp.l) fun p => num p ++ den p) ++ rest).take pp.n = gathered (4 * pp.l) fun p => num p ++ den p := by
      rw [List.take_append_of_le_length (by simp [gathered, hg.n_eq]), List.take_of_length_le (by simp [gathered, hg.n_eq])]
    rw [h0]
    unfold gathered
    have h1 : ∀ p ∈ List.range (4 * pp.l), Wire.dec (Wire.enc (num p ++ den p)) = some (num p ++ den p) := fun p hp =>
      Wire.ok_list _ (lt_of_eq_of_lt (hsh.1 p (List.mem_range.1 hp)) hN64)
    rw [List.mapM_map]
    simp only [Function.comp_def]
    rw [mapM_some h1]
  have e2 := mapM_ok (g := fun c => if c < N then chunks pp.l x c else chunks pp.l y (c - N)) (xs := List.range (N + N))
    (fun c hc => PSS.unpackMissing_of_shares hg false hp hd4 _ (hsh.2 c (List.mem_range.1 hc)))
  unfold readNumDen
  rw [e1]
  dsimp only
  rw [hg.n_eq, transpose_received hg hd (by omega) hp hsh.1, ok_bind, List.mapM_map]
  simp only [Function.comp_def]
  rw [e2]
  dsimp only
  rw [flatten_numden]
  have hlen : ((List.range (N * pp.l)).map x ++ (List.range (N * pp.l)).map y).length / 2 = N * pp.l := by simp; omega
  rw [hlen, List.take_left' (by simp), List.drop_left' (by simp)]

theorem toKing_dPp (pp : PSS F) (dbg : Bool) (n me : Nat) (num den : List F) (mask : DegRedMask F) (sid : Sid) (rng rng' : Nat → Nat → F) :
    toKing (pp.dPp dbg n me num den mask sid rng rng') = some (Wire.enc (num ++ den)) := by
  rw [PSS.dPp_eq]
  exact toKing_round _ _ _ _ _ _

theorem map_getD_all (v : List F) {m : Nat} (h : v.length = m) : ((List.range m).map fun i => v.getD i 0) = v := by
  subst h
  apply list_ext_getD 0 (by simp)
  intro i hi
  rw [getD_map_range, if_pos (by simpa using hi)]

/-- **C68** The king learns the inputs of `d_pp`. One function, which depends on the sharing parameters only, recovers all numerators
and all denominators from what the parties send to the king in the first round, for all shared vectors, denominators zero or not,
all masks and all random values; and, when no denominator is zero, from what the king has received at the end of the run. -/
theorem C68_king_learns {dbg₀ : Bool} {b : Nat} {pp : PSS F} (hpp : PSS.new dbg₀ (2 ^ b) = .ok pp) :
    ∃ recover : Transcript → List F × List F, ∀ (dbg : Bool) {N : Nat}, 0 < N → N + N < 2 ^ 64 → ∀ num den : List F,
      num.length = N * 2 ^ b → den.length = N * 2 ^ b → ∀ sn sd : Nat → List F,
      Spec.SharedVec pp.share.groupGen pp.secret.offset (2 ^ b) (4 * 2 ^ b - 1) N sn
        (fun c => (List.range (2 ^ b)).map fun j => num.getD (c * 2 ^ b + j) 0) →
      Spec.SharedVec pp.share.groupGen pp.secret.offset (2 ^ b) (4 * 2 ^ b - 1) N sd
        (fun c => (List.range (2 ^ b)).map fun j => den.getD (c * 2 ^ b + j) 0) →
      ∀ (sid : Sid) (rng rng' : Nat → Nat → F),
        (∀ masks : Nat → DegRedMask F, recover ((List.range (4 * 2 ^ b)).map fun p =>
          (p, (toKing (pp.dPp dbg (4 * 2 ^ b) p (sn p) (sd p) (masks p) sid rng rng')).getD [])) = (num, den)) ∧
        ((∀ y ∈ den, y ≠ 0) → ∀ (t : VecTape F) (masks : Nat → DegRedMask F),
          DegRedMask.sample pp dbg (1 : F) N t.vals t.rngIn t.rngOut = .ok ((List.range (4 * 2 ^ b)).map masks) →
          ∃ (outs : Nat → List F) (views : Fin (4 * 2 ^ b) → Transcript),
            AlwaysYields (Net.init fun i : Fin (4 * 2 ^ b) =>
              (pp.dPp dbg (4 * 2 ^ b) i (sn i) (sd i) (masks i) sid rng rng').recorded) (fun i => (outs i, views i)) ∧
            ∀ i, i.val = 0 → recover (views i) = (num, den)) := by
  have hle := l_eq hpp
  have hg := PSS.good_of_new hpp
  have hl := hg.lpos
  refine ⟨readNumDen pp, fun dbg {N} hN hN64 num den hnum hden sn sd hsn hsd sid rng rng' => ?_⟩
  rw [← hle] at hsn hsd hnum hden
  have key := fun rest => readNumDen_ok hg hN hN64 (by omega) le_rfl (fun i => num.getD i 0) (fun i => den.getD i 0) hsn hsd rest
  rw [map_getD_all _ hnum, map_getD_all _ hden] at key
  refine ⟨fun masks => ?_, fun h0 t masks hm => ?_⟩
  · rw [← key []]
    congr 1
    rw [List.append_nil, gathered, hle]
    exact List.map_congr_left fun p _ => by rw [toKing_dPp]; rfl
  · have dm := DegRedMask.sample_dealt hg dbg hN t
    rw [hle] at dm
    have eqm : ∀ p < 4 * 2 ^ b, masks p = pp.degDealt N t p := fun p hp =>
      (List.map_inj_left.1 (Except.ok.inj (hm.symm.trans dm))) p (List.mem_range.2 hp)
    have r := PSS.dPp_view (n := 4 * 2 ^ b) hg dbg (by rw [hle]) hN hN64 (by omega) le_rfl (fun i => num.getD i 0)
      (fun i => den.getD i 0) (fun i hi => by
        rw [List.getD_eq_getElem _ _ (by omega)]
        exact h0 _ (List.getElem_mem _)) hsn hsd t sid rng rng'
    have r' := (r.congr (ps' := fun i : Fin (4 * 2 ^ b) => pp.dPp dbg (4 * 2 ^ b) i (sn i) (sd i) (masks i) sid rng rng')
      (fun i => by rw [eqm i i.2]) (fun _ => rfl) fun _ => rfl).alwaysYields fun i => PSS.dPp_wf _ (by positivity) _ _ _ _ _ _ _
    refine ⟨fun p => addMask (pp.freshVec N _ rng' p) (pp.degDealt N t p).outMask, _, r', fun i hi => ?_⟩
    rw [if_pos hi, ← hle]
    exact key _

/-- **C68** Nobody else learns them. For two pairs of vectors without zero denominators and any `l` parties there are values such
that adding them to the tape of the masks and to what the king draws in the first round turns a run on the first pair into a run on
the second one in which those of the `l` parties that are not the king are sent the same bytes, and the `l` parties hold the same masks
and end with the same outputs. -/
theorem C68_coalition {dbg₀ : Bool} {b : Nat} {pp : PSS F} (hpp : PSS.new dbg₀ (2 ^ b) = .ok pp)
    (hgen : (FftField.GENERATOR : F) ^ (4 * 2 ^ b) ≠ 1) (dbg : Bool) {N : Nat} (hN : 0 < N) (hN64 : N + N < 2 ^ 64)
    (num den num' den' : List F) (hden : den.length = N * 2 ^ b) (hden' : den'.length = N * 2 ^ b)
    (h0 : ∀ y ∈ den, y ≠ 0) (h0' : ∀ y ∈ den', y ≠ 0)
    (P : Fin (2 ^ b) → Nat) (hinj : Function.Injective P) (hlt : ∀ i, P i < 4 * 2 ^ b) :
    ∃ (δ : VecTape F) (ε : Nat → Nat → F), ∀ t : VecTape F, ∃ masks masks' : Nat → DegRedMask F,
      DegRedMask.sample pp dbg (1 : F) N t.vals t.rngIn t.rngOut = .ok ((List.range (4 * 2 ^ b)).map masks) ∧
      DegRedMask.sample pp dbg (1 : F) N (t.add δ).vals (t.add δ).rngIn (t.add δ).rngOut =
        .ok ((List.range (4 * 2 ^ b)).map masks') ∧
      (∀ i, masks (P i) = masks' (P i)) ∧
      ∀ sn sd sn' sd' : Nat → List F,
        Spec.SharedVec pp.share.groupGen pp.secret.offset (2 ^ b) (4 * 2 ^ b - 1) N sn
          (fun c => (List.range (2 ^ b)).map fun j => num.getD (c * 2 ^ b + j) 0) →
        Spec.SharedVec pp.share.groupGen pp.secret.offset (2 ^ b) (4 * 2 ^ b - 1) N sd
          (fun c => (List.range (2 ^ b)).map fun j => den.getD (c * 2 ^ b + j) 0) →
        Spec.SharedVec pp.share.groupGen pp.secret.offset (2 ^ b) (4 * 2 ^ b - 1) N sn'
          (fun c => (List.range (2 ^ b)).map fun j => num'.getD (c * 2 ^ b + j) 0) →
        Spec.SharedVec pp.share.groupGen pp.secret.offset (2 ^ b) (4 * 2 ^ b - 1) N sd'
          (fun c => (List.range (2 ^ b)).map fun j => den'.getD (c * 2 ^ b + j) 0) →
        ∀ (sid : Sid) (rng rng' : Nat → Nat → F),
        ∃ (outs outs' : Nat → List F) (views views' : Fin (4 * 2 ^ b) → Transcript),
          AlwaysYields (Net.init fun i : Fin (4 * 2 ^ b) =>
            (pp.dPp dbg (4 * 2 ^ b) i (sn i) (sd i) (masks i) sid rng rng').recorded) (fun i => (outs i, views i)) ∧
          AlwaysYields (Net.init fun i : Fin (4 * 2 ^ b) =>
            (pp.dPp dbg (4 * 2 ^ b) i (sn' i) (sd' i) (masks' i) sid (fun c j => rng c j + ε c j) rng').recorded)
            (fun i => (outs' i, views' i)) ∧
          (∀ (i : Fin (4 * 2 ^ b)) (j : Fin (2 ^ b)), i.val = P j → i.val ≠ 0 → views i = views' i) ∧
          ∀ i, outs (P i) = outs' (P i) := by
  have hle := l_eq hpp
  have hg := PSS.good_of_new hpp
  have hl := hg.lpos
  rw [← offset_eq hpp] at hgen
  have nz : ∀ {v : List F}, v.length = N * 2 ^ b → (∀ y ∈ v, y ≠ 0) → ∀ i < N * pp.l, (fun i => v.getD i 0) i ≠ 0 := by
    intro v hv h i hi
    rw [hle] at hi
    dsimp only
    rw [List.getD_eq_getElem _ _ (by omega)]
    exact h _ (List.getElem_mem _)
  have hz := nz hden h0
  have hz' := nz hden' h0'
  generalize hX : runProd (fun i => num.getD i 0) (fun i => den.getD i 0) = X
  generalize hX' : runProd (fun i => num'.getD i 0) (fun i => den'.getD i 0) = X'
  obtain ⟨δ, hδ, hm⟩ := PSS.degDealt_shift hg hle hgen N P hinj hlt fun i => X i - X' i
  obtain ⟨ε, hε⟩ := PSS.freshVec_shift_add hg hle hgen (N := N) (D := chunks pp.l fun i => X' i - X i)
    (fun c _ => by rw [chunks_length, hle]) P hinj hlt
  have dm := fun t => DegRedMask.sample_dealt hg dbg hN t
  rw [hle] at dm
  refine ⟨δ, ε, fun t => ⟨_, _, dm t, dm (t.add δ), fun i => (hm t i).symm, fun sn sd sn' sd' hsn hsd hsn' hsd' sid rng rng' => ?_⟩⟩
  rw [← hle] at hsn hsd hsn' hsd'
  have r := PSS.dPp_view (n := 4 * 2 ^ b) hg dbg (by rw [hle]) hN hN64 (by omega) le_rfl (fun i => num.getD i 0)
    (fun i => den.getD i 0) hz hsn hsd t sid rng rng'
  have r' := PSS.dPp_view (n := 4 * 2 ^ b) hg dbg (by rw [hle]) hN hN64 (by omega) le_rfl (fun i => num'.getD i 0)
    (fun i => den'.getD i 0) hz' hsn' hsd' (t.add δ) sid (fun c j => rng c j + ε c j) rng'
  rw [hX] at r
  rw [hX'] at r'
  dsimp only at r r'
  have e1 : ∀ i, pp.freshVec N (chunks pp.l X') (fun c j => rng c j + ε c j) (P i) = pp.freshVec N (chunks pp.l X) rng (P i) := by
    refine fun i => hε _ _ _ i (fun c _ => by rw [chunks_length, hle]) fun c _ => ?_
    rw [chunks_zipWith]
    congr 1
    funext i
    ring
  have e2 : ∀ p, pp.freshVec N (fun c => List.zipWith (· + ·) (chunks pp.l X' c) (chunks pp.l (t.add δ).vals c)) rng' p =
      pp.freshVec N (fun c => List.zipWith (· + ·) (chunks pp.l X c) (chunks pp.l t.vals c)) rng' p := by
    refine fun p => PSS.freshVec_congr (fun c hc => ?_) _ _
    rw [chunks_zipWith, chunks_zipWith]
    congr 1
    funext i
    show X' i + (t.vals i + δ.vals i) = _
    rw [hδ]
    ring
  simp only [e2] at r'
  refine ⟨fun p => addMask (pp.freshVec N (fun c => List.zipWith (· + ·) (chunks pp.l X c) (chunks pp.l t.vals c)) rng' p) (pp.degDealt N t p).outMask,
    fun p => addMask (pp.freshVec N (fun c => List.zipWith (· + ·) (chunks pp.l X c) (chunks pp.l t.vals c)) rng' p)
      (pp.degDealt N (t.add δ) p).outMask, _, _,
    r.alwaysYields fun i => PSS.dPp_wf _ (by positivity) _ _ _ _ _ _ _,
    r'.alwaysYields fun i => PSS.dPp_wf _ (by positivity) _ _ _ _ _ _ _, fun i j hij hi => ?_, fun i => by dsimp only; rw [hm]⟩
  rw [if_neg hi, if_neg hi, hij, e1]

/-! ### Examples -/

theorem deal17 (dbg : Bool) (v : List (ZMod 17)) (hv : v.length = 2 * 2 ^ 1) (rng : Nat → Nat → ZMod 17) :
    ∃ shares, (do let rows ← pp17.packVec dbg v rng; transpose rows) = .ok shares ∧
      Spec.SharedVec pp17.share.groupGen pp17.secret.offset (2 ^ 1) (4 * 2 ^ 1 - 1) 2 (fun p => shares.getD p [])
        (fun c => (List.range (2 ^ 1)).map fun j => v.getD (c * 2 ^ 1 + j) 0) := by
  obtain ⟨sh, e, h⟩ := deal (pp17_eq dbg) dbg (N := 2) (by norm_num) v hv rng
  exact ⟨sh, e, h.1, fun c hc => Shares.mono (pp := pp17) (by norm_num) (h.2 c hc)⟩

/-- The king reads `[2, 3, 1, 4]` and `[1, 0, 2, 3]` off the messages of the first round, though it panics on them, and `[5, 6, 7, 8]` and
`[1, 1, 2, 3]` off what it has received at the end. -/
example (dbg : Bool) (sid : Sid) (r1 r2 r3 r4 rng rng' : Nat → Nat → ZMod 17) (t : VecTape (ZMod 17)) :
    ∃ (recover : Transcript → List (ZMod 17) × List (ZMod 17)) (sn sd sn' sd' : List (List (ZMod 17))) (masks : Nat → DegRedMask (ZMod 17))
      (outs : Nat → List (ZMod 17)) (views : Fin (4 * 2 ^ 1) → Transcript),
      (do let rows ← pp17.packVec dbg [2, 3, 1, 4] r1; transpose rows) = .ok sn ∧
      (do let rows ← pp17.packVec dbg [1, 0, 2, 3] r2; transpose rows) = .ok sd ∧
      (do let rows ← pp17.packVec dbg [5, 6, 7, 8] r3; transpose rows) = .ok sn' ∧
      (do let rows ← pp17.packVec dbg [1, 1, 2, 3] r4; transpose rows) = .ok sd' ∧
      recover ((List.range (4 * 2 ^ 1)).map fun p =>
        (p, (toKing (pp17.dPp dbg (4 * 2 ^ 1) p (sn.getD p []) (sd.getD p []) (masks p) sid rng rng')).getD [])) =
          ([2, 3, 1, 4], [1, 0, 2, 3]) ∧
      AlwaysYields (Net.init fun i : Fin (4 * 2 ^ 1) =>
        (pp17.dPp dbg (4 * 2 ^ 1) i (sn'.getD i []) (sd'.getD i []) (masks i) sid rng rng').recorded) (fun i => (outs i, views i)) ∧
      recover (views 0) = ([5, 6, 7, 8], [1, 1, 2, 3]) := by
  obtain ⟨recover, h⟩ := C68_king_learns (pp17_eq dbg)
  obtain ⟨sn, e1, h1⟩ := deal17 dbg [2, 3, 1, 4] rfl r1
  obtain ⟨sd, e2, h2⟩ := deal17 dbg [1, 0, 2, 3] rfl r2
  obtain ⟨sn', e3, h3⟩ := deal17 dbg [5, 6, 7, 8] rfl r3
  obtain ⟨sd', e4, h4⟩ := deal17 dbg [1, 1, 2, 3] rfl r4
  have hm := DegRedMask.sample_dealt (PSS.good_of_new (pp17_eq dbg)) dbg (N := 2) (by norm_num) t
  rw [show pp17.l = 2 ^ 1 from l_eq (pp17_eq dbg)] at hm
  obtain ⟨outs, views, hy, hv⟩ := (h dbg (by norm_num) (by norm_num) _ _ rfl rfl _ _ h3 h4 sid rng rng').2 (by decide) t _ hm
  exact ⟨recover, sn, sd, sn', sd', _, outs, views, e1, e2, e3, e4,
    (h dbg (by norm_num) (by norm_num) _ _ rfl rfl _ _ h1 h2 sid rng rng').1 _, hy, hv 0 rfl⟩

/-- Parties 2 and 3. -/
def two17 (i : Fin (2 ^ 1)) : Nat := i + 2

/-- To parties 2 and 3 the running products of `[2, 3, 1, 4] / [1, 1, 2, 3]` and of `[5, 6, 7, 8] / [1, 2, 2, 3]` may look the same. -/
example (dbg : Bool) (sid : Sid) (r1 r2 r3 r4 rng rng' : Nat → Nat → ZMod 17) (t : VecTape (ZMod 17)) :
    ∃ (ε : Nat → Nat → ZMod 17) (sn sd sn' sd' : List (List (ZMod 17))) (masks masks' : Nat → DegRedMask (ZMod 17))
      (outs outs' : Nat → List (ZMod 17)) (views views' : Fin (4 * 2 ^ 1) → Transcript),
      (do let rows ← pp17.packVec dbg [2, 3, 1, 4] r1; transpose rows) = .ok sn ∧
      (do let rows ← pp17.packVec dbg [1, 1, 2, 3] r2; transpose rows) = .ok sd ∧
      (do let rows ← pp17.packVec dbg [5, 6, 7, 8] r3; transpose rows) = .ok sn' ∧
      (do let rows ← pp17.packVec dbg [1, 2, 2, 3] r4; transpose rows) = .ok sd' ∧
      AlwaysYields (Net.init fun i : Fin (4 * 2 ^ 1) =>
        (pp17.dPp dbg (4 * 2 ^ 1) i (sn.getD i []) (sd.getD i []) (masks i) sid rng rng').recorded) (fun i => (outs i, views i)) ∧
      AlwaysYields (Net.init fun i : Fin (4 * 2 ^ 1) =>
        (pp17.dPp dbg (4 * 2 ^ 1) i (sn'.getD i []) (sd'.getD i []) (masks' i) sid (fun c j => rng c j + ε c j) rng').recorded)
        (fun i => (outs' i, views' i)) ∧
      views 2 = views' 2 ∧ views 3 = views' 3 ∧ outs 2 = outs' 2 ∧ outs 3 = outs' 3 ∧ masks 2 = masks' 2 ∧ masks 3 = masks' 3 := by
  obtain ⟨sn, e1, h1⟩ := deal17 dbg [2, 3, 1, 4] rfl r1
  obtain ⟨sd, e2, h2⟩ := deal17 dbg [1, 1, 2, 3] rfl r2
  obtain ⟨sn', e3, h3⟩ := deal17 dbg [5, 6, 7, 8] rfl r3
  obtain ⟨sd', e4, h4⟩ := deal17 dbg [1, 2, 2, 3] rfl r4
  obtain ⟨δ, ε, h⟩ := C68_coalition (pp17_eq dbg) gen17 dbg (N := 2) (by norm_num) (by norm_num) [2, 3, 1, 4] [1, 1, 2, 3] [5, 6, 7, 8]
    [1, 2, 2, 3] rfl rfl (by decide) (by decide) two17 (by decide) (by decide)
  obtain ⟨masks, masks', -, -, hm, hr⟩ := h t
  obtain ⟨outs, outs', views, views', y1, y2, hv, ho⟩ := hr _ _ _ _ h1 h2 h3 h4 sid rng rng'
  exact ⟨ε, sn, sd, sn', sd', masks, masks', outs, outs', views, views', e1, e2, e3, e4, y1, y2, hv 2 0 rfl (by decide),
    hv 3 1 rfl (by decide), ho 0, ho 1, hm 0, hm 1⟩

end ZkSaas.Properties
