import Verif.Lemmas.Groth16
import Verif.Properties.Qap
import Verif.Lemmas.Stall

/-!
# C33, C34, C36, C37: the packed proving key and the parts of the proof
-/

set_option linter.unusedSectionVars false

namespace ZkSaas.Properties

open Finset Spec Polynomial

variable {F : Type} [Field F] [DecidableEq F] [FftField F]

/-! ### C33 -/

section chunks
variable {T : Type} [AddCommGroup T] [Module F T] [DecidableEq T]

/-- The parties hold the vector `v`, padded with zeros to whole chunks of `l = 2^b`, with `2l` coefficients per chunk. -/
def HoldsChunks (pp : PSS F) (b : Nat) (sh : Nat → List T) (v : List T) : Prop :=
  Spec.SharedVec pp.share.groupGen pp.secret.offset (2 ^ b) (2 * 2 ^ b) ((v.length + 2 ^ b - 1) / 2 ^ b) sh
    (chunks (2 ^ b) fun i => v.getD i 0)

/-- What plain unpacking of such shares gives. -/
theorem HoldsChunks.opened {dbg₀ : Bool} {b : Nat} {pp : PSS F} (hpp : PSS.new dbg₀ (2 ^ b) = .ok pp) {sh : Nat → List T}
    {v : List T} (h : HoldsChunks pp b sh v) :
    opened pp ((v.length + 2 ^ b - 1) / 2 ^ b) sh =
      v ++ List.replicate ((v.length + 2 ^ b - 1) / 2 ^ b * 2 ^ b - v.length) 0 := by
  rw [opened_dealt hpp h]
  have hN : v.length ≤ (v.length + 2 ^ b - 1) / 2 ^ b * 2 ^ b := numChunks_mul v (by positivity)
  apply list_ext_getD 0 (by simp; omega)
  intro i hi
  simp only [List.length_map, List.length_range] at hi
  rw [getD_map_range, if_pos hi, getD_append']
  split
  · rfl
  · rename_i hlt
    rw [getD_of_ge 0 (by omega), getD_replicate', ite_self]

theorem detPackChunks_holds {dbg₀ : Bool} {b : Nat} {pp : PSS F} (hpp : PSS.new dbg₀ (2 ^ b) = .ok pp) (dbg : Bool) (v : List T)
    (hd : dbg = true → 2 ^ b ∣ v.length) :
    ∃ rows, pp.detPackChunks dbg v = .ok rows ∧
      (∀ p < 4 * 2 ^ b, column rows p = .ok (rows.map fun x => x.getD p 0)) ∧
      HoldsChunks pp b (fun p => rows.map fun x => x.getD p 0) v := by
  have hle := l_eq hpp
  obtain ⟨rows, e, h1, h2⟩ := PSS.detPackChunks_shares (PSS.good_of_new hpp) dbg v (by rw [hle]; exact hd)
  rw [hle] at h1
  rw [PSS.SharedVec, hle] at h2
  exact ⟨rows, e, h1, h2⟩

end chunks

section key
variable {G1 G2 : Type} [AddCommGroup G1] [Module F G1] [DecidableEq G1] [AddCommGroup G2] [Module F G2] [DecidableEq G2]

/-- The lengths of the five vectors that are packed are multiples of `l`. -/
def KeyAligned (l : Nat) (pk : ProvingKey G1 G2) : Prop :=
  l ∣ pk.aQuery.length - 1 ∧ l ∣ pk.hQuery.length ∧ l ∣ pk.lQuery.length ∧ l ∣ pk.bG1Query.length - 1 ∧ l ∣ pk.bG2Query.length - 1

/-- **C33** Packing a proving key: `n` shares, each with the public points unchanged; each party's five vectors are its shares of
the five query vectors (without the first entry of the `a` and `b` queries) cut into chunks of `l`. In a debug build the vectors
have to be multiples of `l` long; in a release build the last chunk is padded with zeros. -/
theorem C33_pack_key {dbg₀ : Bool} {b : Nat} {pp : PSS F} (hpp : PSS.new dbg₀ (2 ^ b) = .ok pp) (dbg : Bool) (pk : ProvingKey G1 G2)
    (hal : dbg = true → KeyAligned (2 ^ b) pk) {a0 b0 : G1} {v0 : G2} {as bs : List G1} {vs : List G2}
    (ha : pk.aQuery = a0 :: as) (hb : pk.bG1Query = b0 :: bs) (hv : pk.bG2Query = v0 :: vs) :
    ∃ sh : Nat → PackedProvingKeyShare G1 G2, packFromArkworksProvingKey dbg pk pp = .ok ((List.range (4 * 2 ^ b)).map sh) ∧
      (∀ p, (sh p).aQuery0 = a0 ∧ (sh p).bG1Query0 = b0 ∧ (sh p).bG2Query0 = v0 ∧ (sh p).deltaG1 = pk.deltaG1 ∧
        (sh p).deltaG2 = pk.vk.deltaG2 ∧ (sh p).alphaG1 = pk.vk.alphaG1 ∧ (sh p).betaG1 = pk.betaG1 ∧
        (sh p).betaG2 = pk.vk.betaG2) ∧
      HoldsChunks pp b (fun p => (sh p).s) as ∧ HoldsChunks pp b (fun p => (sh p).u) pk.hQuery ∧
      HoldsChunks pp b (fun p => (sh p).w) pk.lQuery ∧ HoldsChunks pp b (fun p => (sh p).h) bs ∧
      HoldsChunks pp b (fun p => (sh p).v) vs := by
  have hle := l_eq hpp
  have hg := PSS.good_of_new hpp
  obtain ⟨rs, es, cs, hs⟩ := detPackChunks_holds hpp dbg as (fun h => by have := (hal h).1; rwa [ha] at this)
  obtain ⟨ru, eu, cu, hu⟩ := detPackChunks_holds hpp dbg pk.hQuery (fun h => (hal h).2.1)
  obtain ⟨rw', ew, cw, hw⟩ := detPackChunks_holds hpp dbg pk.lQuery (fun h => (hal h).2.2.1)
  obtain ⟨rh, eh, ch, hh⟩ := detPackChunks_holds hpp dbg bs (fun h => by have := (hal h).2.2.2.1; rwa [hb] at this)
  obtain ⟨rv, ev, cv, hv'⟩ := detPackChunks_holds hpp dbg vs (fun h => by have := (hal h).2.2.2.2; rwa [hv] at this)
  refine ⟨fun p => ⟨_, _, _, _, _, a0, b0, v0, pk.deltaG1, pk.vk.deltaG2, pk.vk.alphaG1, pk.betaG1, pk.vk.betaG2⟩, ?_,
    fun p => ⟨rfl, rfl, rfl, rfl, rfl, rfl, rfl, rfl⟩, hs, hu, hw, hh, hv'⟩
  unfold packFromArkworksProvingKey
  rw [ha, hb, hv]
  simp only [List.drop_succ_cons, List.drop_zero]
  rw [es, ok_bind, eu, ok_bind, ew, ok_bind, eh, ok_bind, ev, ok_bind, hg.n_eq, hle]
  refine mapM_ok fun p hp => ?_
  have hp := List.mem_range.1 hp
  rw [cs p hp, ok_bind, cu p hp, ok_bind, cv p hp, ok_bind, cw p hp, ok_bind, ch p hp, ok_bind]
  rfl

/-- **C33** Unpacking the shares gives back the key, padded with zeros. -/
theorem C33_unpacks {dbg₀ : Bool} {b : Nat} {pp : PSS F} (hpp : PSS.new dbg₀ (2 ^ b) = .ok pp) {sh : Nat → List G1}
    {v : List G1} (h : HoldsChunks pp b sh v) :
    opened pp ((v.length + 2 ^ b - 1) / 2 ^ b) sh =
      v ++ List.replicate ((v.length + 2 ^ b - 1) / 2 ^ b * 2 ^ b - v.length) 0 := h.opened hpp

/-- **C33** A debug build panics on every key with a vector whose length is not a multiple of `l`. -/
theorem C33_debug_panics {dbg₀ : Bool} {b : Nat} {pp : PSS F} (hpp : PSS.new dbg₀ (2 ^ b) = .ok pp) (pk : ProvingKey G1 G2)
    (hal : ¬ KeyAligned (2 ^ b) pk) : packFromArkworksProvingKey true pk pp = panic' := by
  have hle := l_eq hpp
  have hg := PSS.good_of_new hpp
  have key : ∀ {T : Type} [AddCommGroup T] [Module F T] [DecidableEq T] (v : List T),
      (¬ 2 ^ b ∣ v.length ∧ pp.detPackChunks true v = panic') ∨ (2 ^ b ∣ v.length ∧ ∃ rows, pp.detPackChunks true v = .ok rows) := by
    intro T _ _ _ v
    by_cases h : 2 ^ b ∣ v.length
    · obtain ⟨rows, e, -⟩ := detPackChunks_holds hpp true v fun _ => h
      exact .inr ⟨h, rows, e⟩
    · exact .inl ⟨h, PSS.detPackChunks_panic hg.lpos v (by rwa [hle])⟩
  unfold packFromArkworksProvingKey
  rcases key (pk.aQuery.drop 1) with ⟨-, e⟩ | ⟨h1, _, e1⟩
  · rw [e]; rfl
  rw [e1, ok_bind]
  rcases key pk.hQuery with ⟨-, e⟩ | ⟨h2, _, e2⟩
  · rw [e]; rfl
  rw [e2, ok_bind]
  rcases key pk.lQuery with ⟨-, e⟩ | ⟨h3, _, e3⟩
  · rw [e]; rfl
  rw [e3, ok_bind]
  rcases key (pk.bG1Query.drop 1) with ⟨-, e⟩ | ⟨h4, _, e4⟩
  · rw [e]; rfl
  rw [e4, ok_bind]
  rcases key (pk.bG2Query.drop 1) with ⟨-, e⟩ | ⟨h5, _, e5⟩
  · rw [e]; rfl
  rw [List.length_drop] at h1 h4 h5
  exact absurd ⟨h1, h2, h3, h4, h5⟩ hal

/-- **C33** An empty `a` or `b` query makes every build panic. -/
theorem C33_empty_query_panics {dbg₀ : Bool} {b : Nat} {pp : PSS F} (hpp : PSS.new dbg₀ (2 ^ b) = .ok pp) (dbg : Bool)
    (pk : ProvingKey G1 G2) (h : pk.aQuery = [] ∨ pk.bG1Query = [] ∨ pk.bG2Query = []) :
    packFromArkworksProvingKey dbg pk pp = panic' := by
  have hle := l_eq hpp
  have hg := PSS.good_of_new hpp
  by_cases hal : dbg = true → KeyAligned (2 ^ b) pk
  · obtain ⟨rs, es, cs, -⟩ := detPackChunks_holds hpp dbg (pk.aQuery.drop 1) (fun h => by rw [List.length_drop]; exact (hal h).1)
    obtain ⟨ru, eu, cu, -⟩ := detPackChunks_holds hpp dbg pk.hQuery (fun h => (hal h).2.1)
    obtain ⟨rw', ew, cw, -⟩ := detPackChunks_holds hpp dbg pk.lQuery (fun h => (hal h).2.2.1)
    obtain ⟨rh, eh, ch, -⟩ := detPackChunks_holds hpp dbg (pk.bG1Query.drop 1)
      (fun h => by rw [List.length_drop]; exact (hal h).2.2.2.1)
    obtain ⟨rv, ev, cv, -⟩ := detPackChunks_holds hpp dbg (pk.bG2Query.drop 1)
      (fun h => by rw [List.length_drop]; exact (hal h).2.2.2.2)
    unfold packFromArkworksProvingKey
    rw [es, ok_bind, eu, ok_bind, ew, ok_bind, eh, ok_bind, ev, ok_bind, hg.n_eq, hle]
    have hp : ∀ p < 4 * 2 ^ b, (do
        let s ← column rs p
        let u ← column ru p
        let v ← column rv p
        let w ← column rw' p
        let h ← column rh p
        let aQuery0 ← rd pk.aQuery 0
        let bG1Query0 ← rd pk.bG1Query 0
        let bG2Query0 ← rd pk.bG2Query 0
        (pure { s, u, w, h, v, aQuery0, bG1Query0, bG2Query0, deltaG1 := pk.deltaG1, deltaG2 := pk.vk.deltaG2,
                alphaG1 := pk.vk.alphaG1, betaG1 := pk.betaG1, betaG2 := pk.vk.betaG2 } :
          Res (PackedProvingKeyShare G1 G2))) = panic' := by
      intro p hp
      rw [cs p hp, ok_bind, cu p hp, ok_bind, cv p hp, ok_bind, cw p hp, ok_bind, ch p hp, ok_bind]
      have hrd : ∀ {T : Type} (v : List T), rd v 0 = panic' ∨ ∃ x, rd v 0 = .ok x := by
        intro T v
        cases v with
        | nil => exact .inl rfl
        | cons x _ => exact .inr ⟨x, rfl⟩
      rcases hrd pk.aQuery with e1 | ⟨x1, e1⟩
      · rw [e1]; rfl
      rcases hrd pk.bG1Query with e2 | ⟨x2, e2⟩
      · rw [e1, e2]; rfl
      rcases hrd pk.bG2Query with e3 | ⟨x3, e3⟩
      · rw [e1, e2, e3]; rfl
      rcases h with h | h | h
      · rw [h] at e1; cases e1
      · rw [h] at e2; cases e2
      · rw [h] at e3; cases e3
    exact mapM_panic (x := 0) (List.mem_range.2 (by positivity)) (hp 0 (by positivity)) fun p hm => .inl (hp p (List.mem_range.1 hm))
  · have h1 : dbg = true := by by_contra h; exact hal fun h' => absurd h' h
    subst h1
    exact C33_debug_panics hpp pk fun h => hal fun _ => h

end key

/-! ### C34 -/

section prove
variable {G : Type} [AddCommGroup G] [Module F G] [DecidableEq G] [FixedWire G]

/-- The parties hold one value each: a sharing with `2l` coefficients of `l = 2^b` copies of `v`. -/
def HoldsValue {T : Type} [AddCommGroup T] [Module F T] (pp : PSS F) (b : Nat) (out : Nat → T) (v : T) : Prop :=
  Spec.SharedValue pp.share.groupGen pp.secret.offset (2 ^ b) (2 * 2 ^ b) out v

/-- The same with `4l-1` coefficients, the degree of a product of two sharings. -/
def HoldsProduct {T : Type} [AddCommGroup T] [Module F T] (pp : PSS F) (b : Nat) (out : Nat → T) (v : T) : Prop :=
  Spec.SharedValue pp.share.groupGen pp.secret.offset (2 ^ b) (4 * 2 ^ b - 1) out v

theorem HoldsProduct.unpack2 {T : Type} [AddCommGroup T] [Module F T] [DecidableEq T] {dbg₀ : Bool} {b : Nat} {pp : PSS F}
    (hpp : PSS.new dbg₀ (2 ^ b) = .ok pp) (dbg : Bool) {out : Nat → T} {v : T} (h : HoldsProduct pp b out v) :
    pp.unpack2 dbg ((List.range (4 * 2 ^ b)).map out) = .ok (List.replicate (2 ^ b) v) := by
  have hle := l_eq hpp
  rw [HoldsProduct, ← hle] at h
  have := PSS.unpack2_of_shares (PSS.good_of_new hpp) dbg le_rfl h
  rwa [hle] at this

theorem HoldsValue.product {T : Type} [AddCommGroup T] [Module F T] {b : Nat} {pp : PSS F} {out : Nat → T} {v : T}
    (h : HoldsValue pp b out v) : HoldsProduct pp b out v := by
  obtain ⟨h1, h2, c, h3, h4⟩ := h
  have hb : 0 < 2 ^ b := by positivity
  have hd : 2 * 2 ^ b ≤ 4 * 2 ^ b - 1 := by omega
  exact ⟨h1, h2, _, fun i hi => (h3 i hi).trans (pval_extend hd _), fun i hi => (h4 i hi).trans (pval_extend hd _)⟩

theorem HoldsValue.unpack2 {T : Type} [AddCommGroup T] [Module F T] [DecidableEq T] {dbg₀ : Bool} {b : Nat} {pp : PSS F}
    (hpp : PSS.new dbg₀ (2 ^ b) = .ok pp) (dbg : Bool) {out : Nat → T} {v : T} (h : HoldsValue pp b out v) :
    pp.unpack2 dbg ((List.range (4 * 2 ^ b)).map out) = .ok (List.replicate (2 ^ b) v) := h.product.unpack2 hpp dbg

/-- `d_msm` on chunked vectors of equal length, with `4l` or `4l - 1` servers. -/
theorem dMsm_chunks_few {dbg₀ : Bool} {b : Nat} {pp : PSS F} (hpp : PSS.new dbg₀ (2 ^ b) = .ok pp) (dbg : Bool) {n : Nat}
    (hn : n = 4 * 2 ^ b ∨ n + 1 = 4 * 2 ^ b) {y : List G}
    {x : List F} (hlen : x.length = y.length) {bs : Nat → List G} {ss : Nat → List F} (hb : HoldsChunks pp b bs y)
    (hs : HoldsChunks pp b ss x) {masks : Nat → MsmMask G} (hm : IsMsmMasks pp masks) (sid : Sid) :
    ∃ outs : Nat → G,
      Runs (Sized (FixedWire.width G)) (only sid) (fun i : Fin n => pp.dMsm dbg n i (bs i) (ss i) (masks i) sid) (fun i => outs i) ∧
      HoldsValue pp b outs (∑ i ∈ range y.length, x.getD i 0 • y.getD i 0) := by
  have hle := l_eq hpp
  have hg := PSS.good_of_new hpp
  have hl := hg.lpos
  rw [HoldsChunks, ← hle] at hb hs
  rw [hlen] at hs
  obtain ⟨outs, hr, ho⟩ := PSS.dMsm_few (n := n) hg dbg (by omega) (by omega) (by omega) (by omega) (decodable_range hpp dbg hn (by omega)) hb hs (hm.ok hpp) sid
  rw [sum_chunks, sum_padded (N := (y.length + pp.l - 1) / pp.l * pp.l) _ _ rfl (numChunks_mul y hl)] at ho
  refine ⟨outs, hr, ?_⟩
  rw [HoldsValue, ← hle]
  exact ho

/-- `d_msm` on chunked vectors of equal length. -/
theorem dMsm_chunks_runs {dbg₀ : Bool} {b : Nat} {pp : PSS F} (hpp : PSS.new dbg₀ (2 ^ b) = .ok pp) (dbg : Bool) {y : List G}
    {x : List F} (hlen : x.length = y.length) {bs : Nat → List G} {ss : Nat → List F} (hb : HoldsChunks pp b bs y)
    (hs : HoldsChunks pp b ss x) {masks : Nat → MsmMask G} (hm : IsMsmMasks pp masks) (sid : Sid) :
    ∃ outs : Nat → G,
      Runs (Sized (FixedWire.width G)) (only sid) (fun i : Fin (4 * 2 ^ b) => pp.dMsm dbg (4 * 2 ^ b) i (bs i) (ss i) (masks i) sid) (fun i => outs i) ∧
      HoldsValue pp b outs (∑ i ∈ range y.length, x.getD i 0 • y.getD i 0) :=
  dMsm_chunks_few hpp dbg (Or.inl rfl) hlen hb hs hm sid

theorem proveA_few {dbg₀ : Bool} {b : Nat} {pp : PSS F} (hpp : PSS.new dbg₀ (2 ^ b) = .ok pp) (dbg : Bool) {n : Nat}
    (hn : n = 4 * 2 ^ b ∨ n + 1 = 4 * 2 ^ b) (L N AG1 : G)
    {S : List G} {a : List F} (hlen : a.length = S.length) {Ssh : Nat → List G} {ash : Nat → List F} (hS : HoldsChunks pp b Ssh S)
    (ha : HoldsChunks pp b ash a) {rsh : Nat → F} {r : F} (hr : HoldsValue pp b rsh r) {masks : Nat → MsmMask G}
    (hm : IsMsmMasks pp masks) (sid : Sid) :
    ∃ outs : Nat → G,
      Runs (Sized (FixedWire.width G)) (only sid) (fun i : Fin n => pp.proveA dbg n i L N AG1 (Ssh i) (ash i) (rsh i) (masks i) sid)
        (fun i => outs i) ∧
      HoldsValue pp b outs (L + r • N + (∑ i ∈ range S.length, a.getD i 0 • S.getD i 0) + AG1) := by
  have hle := l_eq hpp
  have hl := (PSS.good_of_new hpp).lpos
  obtain ⟨outs, hrun, ho⟩ := dMsm_chunks_few hpp dbg hn hlen hS ha hm sid
  refine ⟨fun p => (L + rsh p • N) + outs p + AG1, Runs.bind hrun (Runs.done _), ?_⟩
  rw [HoldsValue, ← hle] at hr ho ⊢
  have hc : ∀ v : G, pp.SharedValue (2 * pp.l) (fun _ => v) v := fun v => SharedValue.const (by omega) v
  exact SharedValue.add (SharedValue.add (SharedValue.add (hc L) (SharedValue.mulConst hr N)) ho) (hc AG1)

theorem proveA_runs {dbg₀ : Bool} {b : Nat} {pp : PSS F} (hpp : PSS.new dbg₀ (2 ^ b) = .ok pp) (dbg : Bool) (L N AG1 : G)
    {S : List G} {a : List F} (hlen : a.length = S.length) {Ssh : Nat → List G} {ash : Nat → List F} (hS : HoldsChunks pp b Ssh S)
    (ha : HoldsChunks pp b ash a) {rsh : Nat → F} {r : F} (hr : HoldsValue pp b rsh r) {masks : Nat → MsmMask G}
    (hm : IsMsmMasks pp masks) (sid : Sid) :
    ∃ outs : Nat → G,
      Runs (Sized (FixedWire.width G)) (only sid) (fun i : Fin (4 * 2 ^ b) => pp.proveA dbg (4 * 2 ^ b) i L N AG1 (Ssh i) (ash i) (rsh i) (masks i) sid)
        (fun i => outs i) ∧
      HoldsValue pp b outs (L + r • N + (∑ i ∈ range S.length, a.getD i 0 • S.getD i 0) + AG1) :=
  proveA_few hpp dbg (Or.inl rfl) L N AG1 hlen hS ha hr hm sid

theorem proveB_eq_A (pp : PSS F) (dbg : Bool) (n me : Nat) (Z K BG : G) (H : List G) (a : List F) (s : F) (mask : MsmMask G)
    (sid : Sid) : pp.proveBInG2 dbg n me Z K BG H a s mask sid = pp.proveA dbg n me Z K BG H a s mask sid := rfl

theorem proveBInG1_eq_A (pp : PSS F) (dbg : Bool) (n me : Nat) (Z K BG : G) (H : List G) (a : List F) {s r : F} (hr : r ≠ 0)
    (mask : MsmMask G) (sid : Sid) :
    pp.proveBInG1 dbg n me Z K BG H a s r mask sid = pp.proveA dbg n me Z K BG H a s mask sid := by
  rw [PSS.proveBInG1, if_neg hr]; rfl

theorem proveA_wf {pp : PSS F} (dbg : Bool) {n : Nat} (hn : 0 < n) (me : Nat) (L N AG1 : G) (S : List G) (a : List F) (r : F)
    (mask : MsmMask G) (sid : Sid) : (pp.proveA dbg n me L N AG1 S a r mask sid).WF (only sid) :=
  (PSS.dMsm_wf _ hn _ _ _ _ _).bind fun _ => .done _ _

/-- **C34** `A::compute`: under every schedule every party ends with its share of `L + r·N + Σ aᵢ·Sᵢ + α`. -/
theorem C34_A {dbg₀ : Bool} {b : Nat} {pp : PSS F} (hpp : PSS.new dbg₀ (2 ^ b) = .ok pp) (dbg : Bool) (L N AG1 : G)
    (S : List G) (a : List F) (hlen : a.length = S.length) (Ssh : Nat → List G) (ash : Nat → List F) (hS : HoldsChunks pp b Ssh S)
    (ha : HoldsChunks pp b ash a) (rsh : Nat → F) (r : F) (hr : HoldsValue pp b rsh r) (masks : Nat → MsmMask G)
    (hm : IsMsmMasks pp masks) (sid : Sid) :
    ∃ outs : Nat → G,
      AlwaysYields (Net.init fun i : Fin (4 * 2 ^ b) =>
        pp.proveA dbg (4 * 2 ^ b) i L N AG1 (Ssh i) (ash i) (rsh i) (masks i) sid) (fun i => outs i) ∧
      HoldsValue pp b outs (L + r • N + (∑ i ∈ range S.length, a.getD i 0 • S.getD i 0) + AG1) ∧
      pp.unpack2 dbg ((List.range (4 * 2 ^ b)).map outs) =
        .ok (List.replicate (2 ^ b) (L + r • N + (∑ i ∈ range S.length, a.getD i 0 • S.getD i 0) + AG1)) := by
  obtain ⟨outs, h1, h2⟩ := proveA_runs hpp dbg L N AG1 hlen hS ha hr hm sid
  exact ⟨outs, h1.alwaysYields fun i => proveA_wf _ (by positivity) _ _ _ _ _ _ _ _ _, h2, h2.unpack2 hpp dbg⟩

/-- **C34** `BInG2::compute`: shares of `Z + s·K + Σ aᵢ·Vᵢ + β`. -/
theorem C34_B_in_G2 {dbg₀ : Bool} {b : Nat} {pp : PSS F} (hpp : PSS.new dbg₀ (2 ^ b) = .ok pp) (dbg : Bool) (Z K BG2 : G)
    (V : List G) (a : List F) (hlen : a.length = V.length) (Vsh : Nat → List G) (ash : Nat → List F) (hV : HoldsChunks pp b Vsh V)
    (ha : HoldsChunks pp b ash a) (ssh : Nat → F) (s : F) (hs : HoldsValue pp b ssh s) (masks : Nat → MsmMask G)
    (hm : IsMsmMasks pp masks) (sid : Sid) :
    ∃ outs : Nat → G,
      AlwaysYields (Net.init fun i : Fin (4 * 2 ^ b) =>
        pp.proveBInG2 dbg (4 * 2 ^ b) i Z K BG2 (Vsh i) (ash i) (ssh i) (masks i) sid) (fun i => outs i) ∧
      HoldsValue pp b outs (Z + s • K + (∑ i ∈ range V.length, a.getD i 0 • V.getD i 0) + BG2) ∧
      pp.unpack2 dbg ((List.range (4 * 2 ^ b)).map outs) =
        .ok (List.replicate (2 ^ b) (Z + s • K + (∑ i ∈ range V.length, a.getD i 0 • V.getD i 0) + BG2)) :=
  C34_A hpp dbg Z K BG2 V a hlen Vsh ash hV ha ssh s hs masks hm sid

/-- **C34** `BInG1::compute` when no party's share of `r` is zero: shares of `Z + s·K + Σ aᵢ·Hᵢ + β`. -/
theorem C34_B_in_G1 {dbg₀ : Bool} {b : Nat} {pp : PSS F} (hpp : PSS.new dbg₀ (2 ^ b) = .ok pp) (dbg : Bool) (Z K BG1 : G)
    (H : List G) (a : List F) (hlen : a.length = H.length) (Hsh : Nat → List G) (ash : Nat → List F) (hH : HoldsChunks pp b Hsh H)
    (ha : HoldsChunks pp b ash a) (ssh : Nat → F) (s : F) (hs : HoldsValue pp b ssh s) (rsh : Nat → F)
    (hr : ∀ p < 4 * 2 ^ b, rsh p ≠ 0) (masks : Nat → MsmMask G) (hm : IsMsmMasks pp masks) (sid : Sid) :
    ∃ outs : Nat → G,
      AlwaysYields (Net.init fun i : Fin (4 * 2 ^ b) =>
        pp.proveBInG1 dbg (4 * 2 ^ b) i Z K BG1 (Hsh i) (ash i) (ssh i) (rsh i) (masks i) sid) (fun i => outs i) ∧
      HoldsValue pp b outs (Z + s • K + (∑ i ∈ range H.length, a.getD i 0 • H.getD i 0) + BG1) ∧
      pp.unpack2 dbg ((List.range (4 * 2 ^ b)).map outs) =
        .ok (List.replicate (2 ^ b) (Z + s • K + (∑ i ∈ range H.length, a.getD i 0 • H.getD i 0) + BG1)) := by
  simp only [fun i : Fin (4 * 2 ^ b) => proveBInG1_eq_A pp dbg (4 * 2 ^ b) i Z K BG1 (Hsh i) (ash i) (s := ssh i) (hr i i.2)
    (masks i) sid]
  exact C34_A hpp dbg Z K BG1 H a hlen Hsh ash hH ha ssh s hs masks hm sid

theorem proveC_few {dbg₀ : Bool} {b : Nat} {pp : PSS F} (hpp : PSS.new dbg₀ (2 ^ b) = .ok pp) (dbg : Bool) {n : Nat}
    (hn : n = 4 * 2 ^ b ∨ n + 1 = 4 * 2 ^ b) (M : G)
    {Ash Bsh : Nat → G} {A B : G} (hA : HoldsValue pp b Ash A)
    {rsh ssh : Nat → F} {r s : F} (hr : HoldsValue pp b rsh r) (hs : HoldsValue pp b ssh s)
    (hrB : HoldsProduct pp b (fun p => rsh p • Bsh p) (r • B))
    {W U : List G} {ax h : List F} (hWl : ax.length = W.length) (hUl : h.length = U.length) {Wsh Ush : Nat → List G}
    {axsh hsh : Nat → List F} (hW : HoldsChunks pp b Wsh W) (hU : HoldsChunks pp b Ush U) (hax : HoldsChunks pp b axsh ax)
    (hh : HoldsChunks pp b hsh h) {m0 m1 : Nat → MsmMask G} (hm0 : IsMsmMasks pp m0) (hm1 : IsMsmMasks pp m1) :
    ∃ outs : Nat → G,
      Runs (Sized (FixedWire.width G)) (fun _ => True) (fun i : Fin n => pp.proveC dbg n i (Ash i) (Bsh i) (ssh i) (rsh i) M (Wsh i) (Ush i)
        (axsh i) (hsh i) (m0 i) (m1 i)) (fun i => outs i) ∧
      HoldsProduct pp b outs (s • A + r • B - (r * s) • M + (∑ i ∈ range W.length, ax.getD i 0 • W.getD i 0) +
        ∑ i ∈ range U.length, h.getD i 0 • U.getD i 0) := by
  have hle := l_eq hpp
  have hl := (PSS.good_of_new hpp).lpos
  obtain ⟨w, hw, how⟩ := dMsm_chunks_few hpp dbg hn hWl hW hax hm0 .zero
  obtain ⟨u, hu, hou⟩ := dMsm_chunks_few hpp dbg hn hUl hU hh hm1 .one
  refine ⟨fun p => ssh p • Ash p + rsh p • Bsh p - (rsh p * ssh p) • M + w p + u p,
    Runs.par hw hu (fun _ _ => trivial) (fun _ _ => trivial) (Runs.done _), ?_⟩
  have how := how.product
  have hou := hou.product
  rw [HoldsValue, ← hle] at hA hr hs
  rw [HoldsProduct, ← hle] at how hou hrB ⊢
  have hd : 2 * pp.l + 2 * pp.l - 1 = 4 * pp.l - 1 := by omega
  have h1 := SharedValue.mul hs hA
  have h2 := SharedValue.mulConst (SharedValue.mul hr hs) M
  rw [hd] at h1 h2
  exact SharedValue.add (SharedValue.add (SharedValue.sub (SharedValue.add h1 hrB) h2) how) hou

theorem proveC_runs {dbg₀ : Bool} {b : Nat} {pp : PSS F} (hpp : PSS.new dbg₀ (2 ^ b) = .ok pp) (dbg : Bool) (M : G)
    {Ash Bsh : Nat → G} {A B : G} (hA : HoldsValue pp b Ash A)
    {rsh ssh : Nat → F} {r s : F} (hr : HoldsValue pp b rsh r) (hs : HoldsValue pp b ssh s)
    (hrB : HoldsProduct pp b (fun p => rsh p • Bsh p) (r • B))
    {W U : List G} {ax h : List F} (hWl : ax.length = W.length) (hUl : h.length = U.length) {Wsh Ush : Nat → List G}
    {axsh hsh : Nat → List F} (hW : HoldsChunks pp b Wsh W) (hU : HoldsChunks pp b Ush U) (hax : HoldsChunks pp b axsh ax)
    (hh : HoldsChunks pp b hsh h) {m0 m1 : Nat → MsmMask G} (hm0 : IsMsmMasks pp m0) (hm1 : IsMsmMasks pp m1) :
    ∃ outs : Nat → G,
      Runs (Sized (FixedWire.width G)) (fun _ => True) (fun i : Fin (4 * 2 ^ b) => pp.proveC dbg (4 * 2 ^ b) i (Ash i) (Bsh i) (ssh i) (rsh i) M (Wsh i) (Ush i)
        (axsh i) (hsh i) (m0 i) (m1 i)) (fun i => outs i) ∧
      HoldsProduct pp b outs (s • A + r • B - (r * s) • M + (∑ i ∈ range W.length, ax.getD i 0 • W.getD i 0) +
        ∑ i ∈ range U.length, h.getD i 0 • U.getD i 0) :=
  proveC_few hpp dbg (Or.inl rfl) M hA hr hs hrB hWl hUl hW hU hax hh hm0 hm1

theorem proveC_wf {pp : PSS F} (dbg : Bool) {n : Nat} (hn : 0 < n) (me : Nat) (A B : G) (s r : F) (M : G) (W U : List G)
    (ax h : List F) (m0 m1 : MsmMask G) : (pp.proveC dbg n me A B s r M W U ax h m0 m1).WF fun _ => True :=
  .par (S1 := only .zero) (S2 := only .one) (by intro s h h'; rw [h] at h'; cases h') (fun _ _ => trivial) (fun _ _ => trivial)
    (PSS.dMsm_wf _ hn _ _ _ _ _) (PSS.dMsm_wf _ hn _ _ _ _ _) fun _ _ => .done _ _

theorem HoldsValue.mul {T : Type} [AddCommGroup T] [Module F T] [DecidableEq T] {dbg₀ : Bool} {b : Nat} {pp : PSS F}
    (hpp : PSS.new dbg₀ (2 ^ b) = .ok pp) {x : Nat → F} {y : Nat → T} {v : F} {w : T} (hx : HoldsValue pp b x v)
    (hy : HoldsValue pp b y w) : HoldsProduct pp b (fun p => x p • y p) (v • w) := by
  have hle := l_eq hpp
  have hl := (PSS.good_of_new hpp).lpos
  rw [HoldsValue, ← hle] at hx hy
  rw [HoldsProduct, ← hle]
  have := SharedValue.mul hx hy
  rwa [show 2 * pp.l + 2 * pp.l - 1 = 4 * pp.l - 1 by omega] at this

/-- **C34** `C::compute` from shares of `A`, `B`, `r`, `s`: shares of `s·A + r·B - rs·M + Σ axᵢ·Wᵢ + Σ hᵢ·Uᵢ`, with `4l-1`
coefficients, so that `unpack2` opens them. -/
theorem C34_C {dbg₀ : Bool} {b : Nat} {pp : PSS F} (hpp : PSS.new dbg₀ (2 ^ b) = .ok pp) (dbg : Bool) (M : G)
    (Ash Bsh : Nat → G) (A B : G) (hA : HoldsValue pp b Ash A) (hB : HoldsValue pp b Bsh B)
    (rsh ssh : Nat → F) (r s : F) (hr : HoldsValue pp b rsh r) (hs : HoldsValue pp b ssh s)
    (W U : List G) (ax h : List F) (hWl : ax.length = W.length) (hUl : h.length = U.length) (Wsh Ush : Nat → List G)
    (axsh hsh : Nat → List F) (hW : HoldsChunks pp b Wsh W) (hU : HoldsChunks pp b Ush U) (hax : HoldsChunks pp b axsh ax)
    (hh : HoldsChunks pp b hsh h) (m0 m1 : Nat → MsmMask G) (hm0 : IsMsmMasks pp m0) (hm1 : IsMsmMasks pp m1) :
    ∃ outs : Nat → G,
      AlwaysYields (Net.init fun i : Fin (4 * 2 ^ b) => pp.proveC dbg (4 * 2 ^ b) i (Ash i) (Bsh i) (ssh i) (rsh i) M (Wsh i) (Ush i)
        (axsh i) (hsh i) (m0 i) (m1 i)) (fun i => outs i) ∧
      pp.unpack2 dbg ((List.range (4 * 2 ^ b)).map outs) = .ok (List.replicate (2 ^ b)
        (s • A + r • B - (r * s) • M + (∑ i ∈ range W.length, ax.getD i 0 • W.getD i 0) +
          ∑ i ∈ range U.length, h.getD i 0 • U.getD i 0)) := by
  obtain ⟨outs, h1, h2⟩ := proveC_runs hpp dbg M hA hr hs (hr.mul hpp hB) hWl hUl hW hU hax hh hm0 hm1
  exact ⟨outs, h1.alwaysYields fun i => proveC_wf _ (by positivity) _ _ _ _ _ _ _ _ _ _ _ _, h2.unpack2 hpp dbg⟩

/-- Packing `l` copies of a value. -/
theorem pack_holdsValue {T : Type} [AddCommGroup T] [Module F T] [DecidableEq T] {dbg₀ : Bool} {b : Nat} {pp : PSS F}
    (hpp : PSS.new dbg₀ (2 ^ b) = .ok pp) (dbg : Bool) (v : T) (rng : Nat → T) :
    ∃ sh, pp.pack dbg (List.replicate (2 ^ b) v) rng = .ok sh ∧ sh.length = 4 * 2 ^ b ∧ HoldsValue pp b (fun p => sh.getD p 0) v := by
  have hle := l_eq hpp
  obtain ⟨sh, e, h⟩ := PSS.pack_shares (PSS.good_of_new hpp) dbg (secrets := List.replicate (2 ^ b) v) (by simp [hle]) rng
  have hl : sh.length = 4 * 2 ^ b := by have := h.1; rwa [hle] at this
  refine ⟨sh, e, hl, ?_⟩
  rw [HoldsValue, Spec.SharedValue, ← hl, map_getD_range]
  · rwa [PSS.Shares, hle] at h
  · rfl

/-- `pack_from_witness` gives shares of the padded vector. -/
theorem packFromWitness_holds {dbg₀ : Bool} {b : Nat} {pp : PSS F} (hpp : PSS.new dbg₀ (2 ^ b) = .ok pp) (dbg : Bool) (v : List F)
    (rng : Nat → Nat → F) :
    ∃ sh : Nat → List F, pp.packFromWitness dbg v rng = .ok ((List.range (4 * 2 ^ b)).map sh) ∧ HoldsChunks pp b sh v := by
  have hle := l_eq hpp
  obtain ⟨sh, e, h⟩ := PSS.packFromWitness_shares (PSS.good_of_new hpp) dbg v rng
  rw [hle] at e
  rw [PSS.SharedVec, hle] at h
  exact ⟨sh, e, h⟩

end prove

/-! ### C36 -/

section c36
variable {G : Type} [AddCommGroup G] [Module F G] [DecidableEq G] [FixedWire G]

/-- **C36** (negation) A party whose *share* of `r` is zero returns the identity at once, without sending or receiving anything,
whatever `r`, `s`, the key and the witness are. -/
theorem C36_zero_share_returns_identity (pp : PSS F) (dbg : Bool) (n me : Nat) (Z K BG1 : G) (H : List G) (a : List F) (s : F)
    (mask : MsmMask G) (sid : Sid) : pp.proveBInG1 dbg n me Z K BG1 H a s 0 mask sid = .done (.ok 0) := by
  rw [PSS.proveBInG1, if_pos rfl]

/-- What the parts of the proof do first. -/
theorem proveA_shape (pp : PSS F) (dbg : Bool) (n me : Nat) (L N AG1 : G) (S : List G) (a : List F) (r : F) (mask : MsmMask G)
    (sid : Sid) (hlen : S.length = a.length) : ∃ msg : Bytes,
      (me = 0 → ∃ k, pp.proveA dbg n me L N AG1 S a r mask sid = .gather sid n msg (fun _ => none) k) ∧
      (me ≠ 0 → ∃ k, pp.proveA dbg n me L N AG1 S a r mask sid = .send 0 sid msg (.recv 0 sid k)) := by
  unfold PSS.proveA PSS.dMsm
  rw [debugAssert_of (by simp [hlen]), msm, if_pos hlen]
  refine ⟨Wire.enc ((List.map (fun p => p.1 • p.2) (a.zip S)).sum + mask.inMask), fun h => ?_, fun h => ?_⟩
  rotate_left
  · unfold clientSendOrKingReceiveSer clientSendOrKingReceive clientReceiveOrKingSendSer
    simp only [if_neg h]
    refine ⟨fun bs => (Proc.done (decodeOrError bs)).bind fun x =>
      .done (.ok ((L + r • N) + (x + mask.outMask) + AG1)), ?_⟩
    show Proc.send 0 sid _ (Proc.bind (Proc.bind (Proc.bind (clientReceiveOrKingSend n me none sid) _) _) _) = _
    simp only [clientReceiveOrKingSend, if_neg h]
    show Proc.send 0 sid _ (Proc.recv 0 sid fun bs => Proc.bind (Proc.bind (Proc.done (decodeOrError bs)) _) _) = _
    congr 2
    funext bs
    cases (decodeOrError bs : Res G) <;> rfl
  · unfold clientSendOrKingReceiveSer clientSendOrKingReceive
    simp only [if_pos h]
    exact ⟨_, rfl⟩

/-- **C36** (negation) Suppose at least one party's share of `r` is zero. Then, whatever the schedule, `BInG1::compute` comes to a halt with
exactly the parties with a zero share finished (with the identity). Every other party waits forever: the king for the message of a
party that has returned, the clients for the king. -/
theorem C36_stall (pp : PSS F) (dbg : Bool) {n : Nat} (hn : 0 < n) (Z K BG1 : G) (Hsh : Nat → List G) (ash : Nat → List F)
    (hlen : ∀ p < n, (Hsh p).length = (ash p).length) (ssh rsh : Nat → F) (hz : ∃ p < n, rsh p = 0) (masks : Nat → MsmMask G)
    (sid : Sid) :
    AlwaysHalts (Net.init fun i : Fin n => pp.proveBInG1 dbg n i Z K BG1 (Hsh i) (ash i) (ssh i) (rsh i) (masks i) sid) fun c =>
      ∀ i : Fin n, if rsh i = 0 then c.procs i = .done (.ok 0) else
        if i.val = 0 then ∃ own got k, c.procs i = .gather sid n own got k ∧
          ∃ j < n, rsh j = 0 ∧ got j = none ∧ c.queues (j, 0, sid) = []
        else ∃ k, c.procs i = .recv 0 sid k ∧ c.queues (0, i, sid) = [] := by
  have hsh := fun i : Fin n => proveA_shape pp dbg n i Z K BG1 (Hsh i) (ash i) (ssh i) (masks i) sid (hlen i i.2)
  choose msg hking hclient using hsh
  obtain ⟨k0, hk0⟩ := hking ⟨0, hn⟩ rfl
  have hk : ∀ i : Fin n, ∃ k, i.val ≠ 0 →
      pp.proveA dbg n i Z K BG1 (Hsh i) (ash i) (ssh i) (masks i) sid = .send 0 sid (msg i) (.recv 0 sid k) := by
    intro i
    by_cases h : i.val ≠ 0
    · obtain ⟨k, hk⟩ := hclient i h; exact ⟨k, fun _ => hk⟩
    · exact ⟨fun _ => .done (.ok 0), fun h' => absurd h' h⟩
  choose k hk using hk
  refine star_stall hn sid (fun p => rsh p = 0) (fun p => if h : p < n then msg ⟨p, h⟩ else []) k0 k (fun _ => .ok 0) hz _
    (fun i => ⟨only sid, ?_⟩) fun i => ?_
  · by_cases h : rsh i = 0
    · rw [PSS.proveBInG1, if_pos h]; exact .done _ _
    · rw [proveBInG1_eq_A _ _ _ _ _ _ _ _ _ h]; exact proveA_wf _ hn _ _ _ _ _ _ _ _ _
  · by_cases h : rsh i = 0
    · rw [if_pos h, PSS.proveBInG1, if_pos h]
    · rw [if_neg h, proveBInG1_eq_A _ _ _ _ _ _ _ _ _ h]
      by_cases hi : i.val = 0
      · obtain rfl : i = ⟨0, hn⟩ := Fin.ext hi
        rw [if_pos rfl, hk0, dif_pos hn]
      · rw [if_neg hi, hk i hi, dif_pos i.2]

/-- A sharing of a non-zero value has a non-zero share. -/
theorem HoldsValue.exists_ne_zero {dbg₀ : Bool} {b : Nat} {pp : PSS F} (hpp : PSS.new dbg₀ (2 ^ b) = .ok pp) {sh : Nat → F} {v : F}
    (h : HoldsValue pp b sh v) (hv : v ≠ 0) : ∃ p < 4 * 2 ^ b, sh p ≠ 0 := by
  by_contra hcon
  push Not at hcon
  have h1 := h.unpack2 hpp false
  have h2 : HoldsValue pp b sh (0 : F) := by
    have := SharedValue.const (pp := pp) (d := 2 * pp.l) (by have := (PSS.good_of_new hpp).lpos; omega) (0 : F)
    rw [PSS.SharedValue, l_eq hpp, Spec.SharedValue] at this
    rw [HoldsValue, Spec.SharedValue]
    rwa [List.map_congr_left (g := sh) fun p hp => (hcon p (List.mem_range.1 hp)).symm] at this
  rw [h2.unpack2 hpp false] at h1
  have h3 := congrArg (fun x : Res (List F) => match x with | .ok l => l.getD 0 0 | .error _ => 0) h1
  have hb : 0 < 2 ^ b := by positivity
  simp only [getD_replicate', if_pos hb] at h3
  exact hv h3.symm

/-- **C36** (negation) It happens for every non-zero `r` and every party `p`: some choice of the random values in `pack` makes `p`'s share of
`r` zero, and then `BInG1::compute` never ends: party `p` returns the identity and some other party waits forever, whatever the
schedule. -/
theorem C36_deadlock {dbg₀ : Bool} {b : Nat} {pp : PSS F} (hpp : PSS.new dbg₀ (2 ^ b) = .ok pp)
    (hgen : (FftField.GENERATOR : F) ^ (4 * 2 ^ b) ≠ 1) (dbg : Bool) (r : F) (hr : r ≠ 0) (p : Fin (4 * 2 ^ b))
    (Z K BG1 : G) (Hsh : Nat → List G) (ash : Nat → List F) (hlen : ∀ p < 4 * 2 ^ b, (Hsh p).length = (ash p).length)
    (ssh : Nat → F) (masks : Nat → MsmMask G) (sid : Sid) :
    ∃ (rng : Nat → F) (rsh : List F), pp.pack dbg (List.replicate (2 ^ b) r) rng = .ok rsh ∧ rsh.getD p 0 = 0 ∧
      AlwaysHalts (Net.init fun i : Fin (4 * 2 ^ b) =>
        pp.proveBInG1 dbg (4 * 2 ^ b) i Z K BG1 (Hsh i) (ash i) (ssh i) (rsh.getD i 0) (masks i) sid) fun c =>
        c.procs p = .done (.ok 0) ∧ ∃ q : Fin (4 * 2 ^ b), ∀ x, c.procs q ≠ .done x := by
  have hb : 0 < 2 ^ b := by positivity
  -- parties p, p+1, ... (mod n)
  obtain ⟨tape, htape, -⟩ := C07_privacy hpp hgen dbg (List.replicate (2 ^ b) r) (by simp)
    (fun i => (p + i) % (4 * 2 ^ b)) (fun i j h => by
      simp only at h
      have h := Nat.ModEq.add_left_cancel' _ (show Nat.ModEq _ _ _ from h)
      have := Nat.ModEq.eq_of_lt_of_lt h (by omega) (by omega)
      exact Fin.ext this) (fun i => Nat.mod_lt _ (by omega)) (fun _ => 0)
  have h0 := htape ⟨0, hb⟩
  rw [shareOf] at h0
  split at h0
  · rename_i rsh e
    obtain ⟨rsh', e', -, hv⟩ := pack_holdsValue hpp dbg r (fun i => if h : i < 2 ^ b then tape ⟨i, h⟩ else 0)
    obtain rfl : rsh' = rsh := by rw [e] at e'; cases e'; rfl
    simp only [Nat.add_zero, Nat.mod_eq_of_lt p.2] at h0
    have hp0 : rsh'.getD p 0 = 0 := by rw [List.getD_eq_getElem?_getD, h0]; rfl
    obtain ⟨q, hq, hq0⟩ := hv.exists_ne_zero hpp hr
    obtain ⟨h1, h2⟩ := C36_stall pp dbg (show 0 < 4 * 2 ^ b by omega) Z K BG1 Hsh ash hlen ssh (fun p => rsh'.getD p 0)
      ⟨p, p.2, hp0⟩ masks sid
    refine ⟨_, rsh', e, hp0, h1, fun k c hc hst => ?_⟩
    have h3 := h2 k c hc hst
    refine ⟨by simpa only [hp0, if_true] using h3 p, ⟨q, hq⟩, fun x hx => ?_⟩
    have h4 := h3 ⟨q, hq⟩
    simp only [hq0, if_false] at h4
    split at h4
    · obtain ⟨_, _, _, h5, _⟩ := h4; rw [hx] at h5; cases h5
    · obtain ⟨_, h5, _⟩ := h4; rw [hx] at h5; cases h5
  · cases h0

end c36

/-! ### C37 -/

/-- **C37** (negation) `sha256.rs:203-204` packs `n` copies of `r`. A debug build panics. -/
theorem C37_debug_panics {dbg₀ : Bool} {b : Nat} {pp : PSS F} (hpp : PSS.new dbg₀ (2 ^ b) = .ok pp) (r : F) (rng : Nat → F) :
    pp.pack true (List.replicate pp.n r) rng = panic' := by
  have hg := PSS.good_of_new hpp
  have hl := hg.lpos
  unfold PSS.pack
  rw [show debugAssert true ((List.replicate pp.n r).length == pp.l) = panic' by
    have : 4 * pp.l ≠ pp.l := by omega
    simp [debugAssert, List.length_replicate, hg.n_eq, this]]
  rfl

/-- **C37** (negation) A release build gives every party the value `r` itself, whatever the random tape: nothing is hidden. -/
theorem C37_release_reveals {dbg₀ : Bool} {b : Nat} {pp : PSS F} (hpp : PSS.new dbg₀ (2 ^ b) = .ok pp) (r : F) (rng : Nat → F) :
    pp.pack false (List.replicate pp.n r) rng = .ok (List.replicate (4 * 2 ^ b) r) := by
  have hg := PSS.good_of_new hpp
  have hl := hg.lpos
  have hle := l_eq hpp
  have e1 : pp.secret.ifft (List.replicate pp.n r ++ (List.range pp.t).map rng) =
      (List.range pp.secret.size).map fun j => if j = 0 then r else 0 := by
    apply Domain.ifft_evals hg.secret_wf
    intro i hi
    rw [hg.secret_size] at hi ⊢
    rw [getD_append', if_pos (by rw [List.length_replicate, hg.n_eq]; omega), getD_replicate', if_pos (by rw [hg.n_eq]; omega),
      sum_eq_single 0 (fun j _ h => by rw [if_neg h, smul_zero]) (fun h => absurd (mem_range.2 (by omega)) h), pow_zero, if_pos rfl,
      one_smul]
  unfold PSS.pack
  dsimp only
  rw [e1]
  show Except.ok (pp.share.fft _) = _
  congr 1
  apply list_ext_getD 0 (by simp [Domain.fft, hg.share_size, hle])
  intro i hi
  have hi : i < 4 * pp.l := by simpa [Domain.fft, hg.share_size] using hi
  rw [Domain.fft_getD _ _ (by rw [hg.share_size]; exact hi), getD_replicate', if_pos (by rw [← hle]; exact hi),
    sum_eq_single 0, getD_map_range, if_pos (by rw [hg.secret_size]; omega), if_pos rfl, pow_zero, one_smul]
  · intro j _ h
    rw [getD_map_range]
    rw [if_neg h, ite_self, smul_zero]
  · intro h
    exact absurd (mem_range.2 (by rw [hg.share_size]; omega)) h

/-! ### Examples -/

/-- A key over `F17` (both groups `F17`), aligned to `l = 2`. -/
def pk17 : ProvingKey (ZMod 17) (ZMod 17) where
  vk := ⟨2, 3, 4, 5, [6, 7]⟩
  betaG1 := 3
  deltaG1 := 5
  aQuery := [1, 2, 3, 4, 5]
  bG1Query := [6, 7, 8, 9, 10]
  bG2Query := [6, 7, 8, 9, 10]
  hQuery := [11, 12, 13, 14]
  lQuery := [15, 16]

/-- C33: an aligned key, packed and opened; and one that is not aligned. -/
example (dbg : Bool) : ∃ sh : Nat → PackedProvingKeyShare (ZMod 17) (ZMod 17),
    packFromArkworksProvingKey dbg pk17 pp17 = .ok ((List.range (4 * 2 ^ 1)).map sh) ∧
      opened pp17 2 (fun p => (sh p).s) = [2, 3, 4, 5] := by
  obtain ⟨sh, h1, -, h2, -⟩ := C33_pack_key (b := 1) (pp17_eq dbg) dbg pk17 (fun _ => by unfold KeyAligned pk17; decide) rfl rfl rfl
  exact ⟨sh, h1, C33_unpacks (pp17_eq dbg) h2⟩

example : packFromArkworksProvingKey true { pk17 with lQuery := [15, 16, 1] } pp17 = panic' :=
  C33_debug_panics (b := 1) (pp17_eq true) _ (by unfold KeyAligned pk17; decide)

/-- C34: `A::compute` with `L = 3`, `N = 5`, `r = 4`, `S = [2, 3, 5]`, `a = [1, 1, 2]`, `α = 7`: the parts open to `3 + 20 + 15 + 7`. -/
example (dbg : Bool) (rng1 rng2 : Nat → Nat → ZMod 17) (rng3 : Nat → ZMod 17) : ∃ (Ssh ash : Nat → List (ZMod 17)) (rsh : List (ZMod 17))
    (outs : Nat → ZMod 17), pp17.packFromWitness dbg [2, 3, 5] rng1 = .ok ((List.range (4 * 2 ^ 1)).map Ssh) ∧
    pp17.packFromWitness dbg [1, 1, 2] rng2 = .ok ((List.range (4 * 2 ^ 1)).map ash) ∧ pp17.pack dbg [4, 4] rng3 = .ok rsh ∧
    AlwaysYields (Net.init fun i : Fin (4 * 2 ^ 1) =>
      pp17.proveA dbg (4 * 2 ^ 1) i 3 5 7 (Ssh i) (ash i) (rsh.getD i 0) MsmMask.zero .zero) (fun i => outs i) ∧
    pp17.unpack2 dbg ((List.range (4 * 2 ^ 1)).map outs) = .ok [11, 11] := by
  obtain ⟨Ssh, e1, h1⟩ := packFromWitness_holds (b := 1) (pp17_eq dbg) dbg [2, 3, 5] rng1
  obtain ⟨ash, e2, h2⟩ := packFromWitness_holds (b := 1) (pp17_eq dbg) dbg [1, 1, 2] rng2
  obtain ⟨rsh, e3, -, h3⟩ := pack_holdsValue (b := 1) (pp17_eq dbg) dbg 4 rng3
  obtain ⟨outs, h4, -, h5⟩ := C34_A (b := 1) (pp17_eq dbg) dbg 3 5 7 [2, 3, 5] [1, 1, 2] rfl Ssh ash h1 h2 _ 4 h3
    (fun _ => MsmMask.zero) (Or.inr fun _ => rfl) .zero
  exact ⟨Ssh, ash, rsh, outs, e1, e2, e3, h4, h5⟩

/-- C36: seven shares `1, …, 7` and the share 0 of party 3. -/
example (dbg : Bool) : AlwaysHalts (Net.init fun i : Fin 8 =>
      pp17.proveBInG1 dbg 8 i (1 : ZMod 17) 2 3 [4, 5] [6, 7] 1 (if i.val = 3 then 0 else i + 1) MsmMask.zero .zero) fun c =>
    c.procs 3 = .done (.ok 0) ∧ ∃ k, c.procs 4 = .recv 0 .zero k ∧ c.queues (0, 4, .zero) = [] := by
  obtain ⟨h1, h2⟩ := C36_stall pp17 dbg (n := 8) (by decide) (1 : ZMod 17) 2 3 (fun _ => [4, 5]) (fun _ => [6, 7]) (fun _ _ => rfl)
    (fun _ => 1) (fun i => if i = 3 then (0 : ZMod 17) else i + 1) ⟨3, by decide, rfl⟩ (fun _ => MsmMask.zero) .zero
  exact ⟨h1, fun k c hc hst => ⟨h2 k c hc hst 3, h2 k c hc hst 4⟩⟩

/-- C36: the hypotheses of `C36_deadlock` over `F17`. -/
example : (FftField.GENERATOR : ZMod 17) ^ (4 * 2 ^ 1) ≠ 1 ∧ (5 : ZMod 17) ≠ 0 := by decide

/-- C37: the shares of 5. -/
example (rng : Nat → ZMod 17) : pp17.pack false (List.replicate 8 5) rng = .ok [5, 5, 5, 5, 5, 5, 5, 5] :=
  C37_release_reveals (b := 1) (pp17_eq true) 5 rng

/-- Example for C33: a key without `a_query`. -/
example (dbg : Bool) : packFromArkworksProvingKey dbg { pk17 with aQuery := [] } pp17 = panic' :=
  C33_empty_query_panics (b := 1) (pp17_eq true) dbg _ (.inl rfl)

/-- Example for C34: `B` in `G2` with `Z = 3`, `K = 5`, `s = 4`, `V = [2, 3, 5]`, `a = [1, 1, 2]`, `β = 7`. -/
example (dbg : Bool) (rng1 rng2 : Nat → Nat → ZMod 17) (rng3 : Nat → ZMod 17) : ∃ (Vsh ash : Nat → List (ZMod 17)) (ssh : List (ZMod 17))
    (outs : Nat → ZMod 17), pp17.packFromWitness dbg [2, 3, 5] rng1 = .ok ((List.range (4 * 2 ^ 1)).map Vsh) ∧
    pp17.packFromWitness dbg [1, 1, 2] rng2 = .ok ((List.range (4 * 2 ^ 1)).map ash) ∧ pp17.pack dbg [4, 4] rng3 = .ok ssh ∧
    AlwaysYields (Net.init fun i : Fin (4 * 2 ^ 1) =>
      pp17.proveBInG2 dbg (4 * 2 ^ 1) i 3 5 7 (Vsh i) (ash i) (ssh.getD i 0) MsmMask.zero .zero) (fun i => outs i) ∧
    pp17.unpack2 dbg ((List.range (4 * 2 ^ 1)).map outs) = .ok [11, 11] := by
  obtain ⟨Vsh, e1, h1⟩ := packFromWitness_holds (b := 1) (pp17_eq dbg) dbg [2, 3, 5] rng1
  obtain ⟨ash, e2, h2⟩ := packFromWitness_holds (b := 1) (pp17_eq dbg) dbg [1, 1, 2] rng2
  obtain ⟨ssh, e3, -, h3⟩ := pack_holdsValue (b := 1) (pp17_eq dbg) dbg 4 rng3
  obtain ⟨outs, h4, -, h5⟩ := C34_B_in_G2 (b := 1) (pp17_eq dbg) dbg 3 5 7 [2, 3, 5] [1, 1, 2] rfl Vsh ash h1 h2 _ 4 h3
    (fun _ => MsmMask.zero) (Or.inr fun _ => rfl) .zero
  exact ⟨Vsh, ash, ssh, outs, e1, e2, e3, h4, h5⟩

/-- Example for C34: `B` in `G1` with the same numbers and shares of `r` that are not zero. -/
example (dbg : Bool) (rng1 rng2 : Nat → Nat → ZMod 17) (rng3 : Nat → ZMod 17) : ∃ (Hsh ash : Nat → List (ZMod 17)) (ssh : List (ZMod 17))
    (outs : Nat → ZMod 17), pp17.packFromWitness dbg [2, 3, 5] rng1 = .ok ((List.range (4 * 2 ^ 1)).map Hsh) ∧
    pp17.packFromWitness dbg [1, 1, 2] rng2 = .ok ((List.range (4 * 2 ^ 1)).map ash) ∧ pp17.pack dbg [4, 4] rng3 = .ok ssh ∧
    AlwaysYields (Net.init fun i : Fin (4 * 2 ^ 1) =>
      pp17.proveBInG1 dbg (4 * 2 ^ 1) i 3 5 7 (Hsh i) (ash i) (ssh.getD i 0) 6 MsmMask.zero .zero) (fun i => outs i) ∧
    pp17.unpack2 dbg ((List.range (4 * 2 ^ 1)).map outs) = .ok [11, 11] := by
  obtain ⟨Hsh, e1, h1⟩ := packFromWitness_holds (b := 1) (pp17_eq dbg) dbg [2, 3, 5] rng1
  obtain ⟨ash, e2, h2⟩ := packFromWitness_holds (b := 1) (pp17_eq dbg) dbg [1, 1, 2] rng2
  obtain ⟨ssh, e3, -, h3⟩ := pack_holdsValue (b := 1) (pp17_eq dbg) dbg 4 rng3
  obtain ⟨outs, h4, -, h5⟩ := C34_B_in_G1 (b := 1) (pp17_eq dbg) dbg 3 5 7 [2, 3, 5] [1, 1, 2] rfl Hsh ash h1 h2 _ 4 h3
    (fun _ => 6) (fun _ _ => by decide) (fun _ => MsmMask.zero) (Or.inr fun _ => rfl) .zero
  exact ⟨Hsh, ash, ssh, outs, e1, e2, e3, h4, h5⟩

/-- Example for C34: `C` with `A = 3`, `B = 5`, `r = 4`, `s = 6`, `M = 2`, `W = [2, 3, 5]`, `ax = [1, 1, 2]`, `U = [7, 1]`, `h = [1, 2]`. -/
example (dbg : Bool) (rng : Nat → ZMod 17) (rng' : Nat → Nat → ZMod 17) :
    ∃ (Ash Bsh rsh ssh : List (ZMod 17)) (Wsh Ush axsh hsh : Nat → List (ZMod 17)) (outs : Nat → ZMod 17),
    pp17.pack dbg [4, 4] rng = .ok rsh ∧ pp17.packFromWitness dbg [2, 3, 5] rng' = .ok ((List.range (4 * 2 ^ 1)).map Wsh) ∧
    AlwaysYields (Net.init fun i : Fin (4 * 2 ^ 1) => pp17.proveC dbg (4 * 2 ^ 1) i (Ash.getD i 0) (Bsh.getD i 0) (ssh.getD i 0) (rsh.getD i 0)
      2 (Wsh i) (Ush i) (axsh i) (hsh i) MsmMask.zero MsmMask.zero) (fun i => outs i) ∧
    pp17.unpack2 dbg ((List.range (4 * 2 ^ 1)).map outs) = .ok [14, 14] := by
  obtain ⟨Wsh, e1, h1⟩ := packFromWitness_holds (b := 1) (pp17_eq dbg) dbg [2, 3, 5] rng'
  obtain ⟨Ush, e2, h2⟩ := packFromWitness_holds (b := 1) (pp17_eq dbg) dbg [7, 1] rng'
  obtain ⟨axsh, e3, h3⟩ := packFromWitness_holds (b := 1) (pp17_eq dbg) dbg [1, 1, 2] rng'
  obtain ⟨hsh, e4, h4⟩ := packFromWitness_holds (b := 1) (pp17_eq dbg) dbg [1, 2] rng'
  obtain ⟨rsh, e5, -, h5⟩ := pack_holdsValue (b := 1) (pp17_eq dbg) dbg 4 rng
  obtain ⟨ssh, e6, -, h6⟩ := pack_holdsValue (b := 1) (pp17_eq dbg) dbg 6 rng
  obtain ⟨Ash, e7, -, h7⟩ := pack_holdsValue (b := 1) (pp17_eq dbg) dbg 3 rng
  obtain ⟨Bsh, e8, -, h8⟩ := pack_holdsValue (b := 1) (pp17_eq dbg) dbg 5 rng
  obtain ⟨outs, h9, h10⟩ := C34_C (b := 1) (pp17_eq dbg) dbg 2 (fun i => Ash.getD i 0) (fun i => Bsh.getD i 0) 3 5 h7 h8
    (fun i => rsh.getD i 0) (fun i => ssh.getD i 0) 4 6 h5 h6 [2, 3, 5] [7, 1] [1, 1, 2] [1, 2] rfl rfl Wsh Ush axsh hsh h1 h2 h3 h4
    (fun _ => MsmMask.zero) (fun _ => MsmMask.zero) (Or.inr fun _ => rfl) (Or.inr fun _ => rfl)
  exact ⟨Ash, Bsh, rsh, ssh, Wsh, Ush, axsh, hsh, outs, e5, e1, h9, h10⟩

/-- Example for C36: a proof with `r = 5`; for some tape the share of party 3 is zero, and then somebody never finishes. -/
example (dbg : Bool) : ∃ (rng : Nat → ZMod 17) (rsh : List (ZMod 17)), pp17.pack dbg [5, 5] rng = .ok rsh ∧ rsh.getD 3 0 = 0 ∧
    AlwaysHalts (Net.init fun i : Fin (4 * 2 ^ 1) =>
      pp17.proveBInG1 dbg (4 * 2 ^ 1) i (1 : ZMod 17) 2 3 [4, 5] [6, 7] 1 (rsh.getD i 0) MsmMask.zero .zero) fun c =>
      c.procs ⟨3, by norm_num⟩ = .done (.ok 0) ∧ ∃ q, ∀ x, c.procs q ≠ .done x :=
  C36_deadlock (b := 1) (pp17_eq dbg) (by decide) dbg 5 (by decide) ⟨3, by norm_num⟩ (1 : ZMod 17) 2 3 (fun _ => [4, 5]) (fun _ => [6, 7])
    (fun _ _ => rfl) (fun _ => 1) (fun _ => MsmMask.zero) .zero

example : pp17.proveBInG1 true 8 3 (1 : ZMod 17) 2 3 [4, 5] [6, 7] 1 0 MsmMask.zero .zero = .done (.ok 0) :=
  C36_zero_share_returns_identity pp17 true 8 3 1 2 3 [4, 5] [6, 7] 1 MsmMask.zero .zero

/-- Example for C37: the debug build refuses the eight copies. -/
example (rng : Nat → ZMod 17) : pp17.pack true [5, 5, 5, 5, 5, 5, 5, 5] rng = panic' :=
  C37_debug_panics (b := 1) (pp17_eq true) 5 rng

end ZkSaas.Properties
