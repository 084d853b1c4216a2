import Verif.Lemmas.SmallDomain
import Verif.Properties.Proof

/-!
# C85: circuits with fewer domain points than a packed vector has slots
-/

set_option linter.unusedSectionVars false

namespace ZkSaas.Properties

open Finset Spec Polynomial

variable {F : Type} [Field F] [DecidableEq F]

/-- **C85** A program over fewer than `l` points is shared without a complaint, in every build: all shares of `a`, `b` and `c` are
empty. -/
theorem C85_pss_empty {dbg₀ : Bool} {b : Nat} {pp : PSS F} [FftField F] (hpp : PSS.new dbg₀ (2 ^ b) = .ok pp) (dbg : Bool) {k : Nat} (hk : k < b)
    (q : QAP F) (ha : q.a.length = 2 ^ k) (hb : q.b.length = 2 ^ k) (hc : q.c.length = 2 ^ k) (rngA rngB rngC : Nat → Nat → F) :
    q.pss pp dbg rngA rngB rngC = .ok ((List.range (4 * 2 ^ b)).map fun _ =>
      { numInputs := q.numInputs, numConstraints := q.numConstraints, a := [], b := [], c := [], domain := q.domain }) := by
  have hle := l_eq hpp
  have hg := PSS.good_of_new hpp
  have hlt : 2 ^ k < pp.l := by rw [hle]; exact Nat.pow_lt_pow_right (by omega) hk
  have key : ∀ (v : List F) (rng : Nat → Nat → F), v.length = 2 ^ k → pp.packQapVec dbg v rng = .ok [] := by
    intro v rng hv
    unfold PSS.packQapVec
    rw [fftInPlaceRearrange_eq k v 0 hv, ok_bind, PSS.packStrided_short (by simpa using hlt)]
  unfold QAP.pss
  rw [key _ _ ha, key _ _ hb, key _ _ hc]
  simp only [ok_bind]
  have : ∀ l : List Nat, (l.mapM fun i => do
      let a ← column ([] : List (List F)) i
      let b ← column ([] : List (List F)) i
      let c ← column ([] : List (List F)) i
      pure (⟨q.numInputs, q.numConstraints, a, b, c, q.domain⟩ : PackedQAPShare F) : Res _) =
      .ok (l.map fun _ => ⟨q.numInputs, q.numConstraints, [], [], [], q.domain⟩) := by
    intro l
    induction l with
    | nil => rfl
    | cons x l ih =>
      rw [List.mapM_cons, ih]
      rfl
  rw [this, hg.n_eq, hle]

/-- **C85** The masks of a transform that rearranges its result cannot be drawn for fewer than `l` points: the sampler panics in every
build. -/
theorem C85_masks_panic {dbg₀ : Bool} {b : Nat} {pp : PSS F} [FftField F] (hpp : PSS.new dbg₀ (2 ^ b) = .ok pp) (dbg : Bool) {m : Nat} (hm : m < 2 ^ b)
    (g gen : F) (vals : Nat → F) (rngIn rngOut : Nat → Nat → F) :
    FftMask.sample pp dbg true g gen m vals rngIn rngOut = panic' :=
  FftMask.sample_short (by rw [l_eq hpp]; exact hm) _ _ _ _ _ _

section net
variable [FixedWire F] {pp : PSS F}

theorem fft1_nil (gen : F) : pp.fft1InPlace [] gen = .ok [] := by
  unfold PSS.fft1InPlace
  dsimp only
  have : log2 (([] : List F).length * pp.l) - log2 pp.l = 0 := by
    rw [List.length_nil, Nat.zero_mul]
    simp [log2]
  rw [this]
  rfl

theorem fft2_nil_fails {n : Nat} (hn : 0 < n) (dbg re : Bool) (g gen : F) (masks : Nat → FftMask F) (sid : Sid) (rng : Nat → Nat → F) :
    AlwaysKingFails (Net.init fun i : Fin n => pp.fft2WithRearrange dbg n i [] (masks i) re g gen sid rng) .panic := by
  refine round_king_fails hn sid pp.t (fun i => addMask [] (masks i).inMask)
    (fun i _ => Wire.ok_list _ (by simp [addMask]))
    (fun i rs => pp.fft2King dbg (addMask [] (masks i).inMask).length ([] : List F).length g gen re rs.shares rs.parties rng) .panic ?_
    (fun i y => Proc.done (.ok (addMask y (masks i).outMask))) (fun i y => .done _ _)
  obtain ⟨m, hm⟩ : ∃ m, n = m + 1 := ⟨n - 1, by omega⟩
  dsimp only
  rw [hm, List.range_succ_eq_map]
  rfl

/-- **C85** In a debug build every party panics at the start of a transform of empty shares over any domain. -/
theorem C85_debug_panics (dbg : Bool) (hdbg : dbg = true) (n me : Nat) (mask : FftMask F) (re : Bool) {dom : Domain F}
    (hd : dom.size ≠ 0) (g : F) (sid : Sid) (rng : Nat → Nat → F) :
    pp.dFft dbg n me [] mask re dom sid rng = .done panic' ∧ pp.dIfft dbg n me [] mask re dom g sid rng = .done panic' := by
  subst hdbg
  have h : debugAssert true (([] : List F).length * pp.l == dom.size) = panic' := by
    have : (([] : List F).length * pp.l == dom.size) = false := by
      rw [List.length_nil, Nat.zero_mul, beq_eq_false_iff_ne]
      exact hd.symm
    rw [this]
    rfl
  constructor
  · show (Proc.done (debugAssert true _)).bind _ = _
    rw [h]
    rfl
  · show (Proc.done (debugAssert true _)).bind _ = _
    rw [h]
    rfl

/-- **C85** In a release build `d_fft` on empty shares, with any parameters and masks, makes the king panic on every schedule, and every other server waits for an
answer that never comes. -/
theorem C85_d_fft_hangs {n : Nat} (hn : 0 < n) (masks : Nat → FftMask F) (re : Bool) (dom : Domain F) (sid : Sid)
    (rng : Nat → Nat → F) :
    AlwaysKingFails (Net.init fun i : Fin n => pp.dFft false n i [] (masks i) re dom sid rng) .panic := by
  have : (fun i : Fin n => pp.dFft false n i [] (masks i) re dom sid rng) =
      fun i : Fin n => pp.fft2WithRearrange false n i [] (masks i) re 1 dom.groupGen sid rng := by
    funext i
    show (Proc.done (debugAssert false _)).bind (fun _ => (Proc.done (pp.fft1InPlace [] dom.groupGen)).bind _) = _
    rw [fft1_nil]
    rfl
  rw [this]
  exact fft2_nil_fails hn _ _ _ _ _ _ _

/-- **C85** The same of `d_ifft`. -/
theorem C85_d_ifft_hangs {n : Nat} (hn : 0 < n) (masks : Nat → FftMask F) (re : Bool) (dom : Domain F) (g : F) (sid : Sid)
    (rng : Nat → Nat → F) :
    AlwaysKingFails (Net.init fun i : Fin n => pp.dIfft false n i [] (masks i) re dom g sid rng) .panic := by
  have : (fun i : Fin n => pp.dIfft false n i [] (masks i) re dom g sid rng) =
      fun i : Fin n => pp.fft2WithRearrange false n i [] (masks i) re g dom.groupGenInv sid rng := by
    funext i
    show (Proc.done (debugAssert false _)).bind (fun _ => (Proc.done (pp.fft1InPlace [] dom.groupGenInv)).bind _) = _
    rw [fft1_nil]
    rfl
  rw [this]
  exact fft2_nil_fails hn _ _ _ _ _ _ _

end net

section groups
variable {G1 G2 : Type} [AddCommGroup G1] [Module F G1] [DecidableEq G1] [FixedWire G1]
  [AddCommGroup G2] [Module F G2] [DecidableEq G2] [FixedWire G2] [FftField F] [FixedWire F]

theorem pss_domain {q : QAP F} {pp : PSS F} {dbg : Bool} {rngA rngB rngC : Nat → Nat → F} {sh : List (PackedQAPShare F)}
    (h : q.pss pp dbg rngA rngB rngC = .ok sh) : ∀ x ∈ sh, x.domain = q.domain := by
  unfold QAP.pss at h
  obtain ⟨pa, -, h⟩ := bind_ok_inv h
  obtain ⟨pb, -, h⟩ := bind_ok_inv h
  obtain ⟨pc, -, h⟩ := bind_ok_inv h
  have : ∀ (l : List Nat) (sh : List (PackedQAPShare F)), (l.mapM fun i => do
      let a ← column pa i
      let b ← column pb i
      let c ← column pc i
      pure (⟨q.numInputs, q.numConstraints, a, b, c, q.domain⟩ : PackedQAPShare F) : Res _) = .ok sh → ∀ x ∈ sh, x.domain = q.domain := by
    intro l
    induction l with
    | nil => intro sh h; cases h; simp
    | cons i l ih =>
      intro sh h
      rw [List.mapM_cons] at h
      obtain ⟨x, e, h⟩ := bind_ok_inv h
      obtain ⟨xs, e', h⟩ := bind_ok_inv h
      cases h
      obtain ⟨_, -, e⟩ := bind_ok_inv e
      obtain ⟨_, -, e⟩ := bind_ok_inv e
      obtain ⟨_, -, e⟩ := bind_ok_inv e
      cases e
      intro y hy
      rcases List.mem_cons.1 hy with rfl | hy
      · rfl
      · exact ih _ e' y hy
  exact this _ _ h

theorem qap_domain {mats : ConstraintMatrices F} {z : List F} {dom : Domain F} {q : QAP F}
    (hdom : Domain.new (mats.numConstraints + mats.numInstanceVariables) = some dom) (h : qap mats z = .ok (some q)) : q.domain = dom := by
  unfold qap at h
  simp only [hdom] at h
  obtain ⟨_, -, h⟩ := bind_ok_inv h
  obtain ⟨_, -, h⟩ := bind_ok_inv h
  obtain ⟨_, -, h⟩ := bind_ok_inv h
  cases h
  rfl

/-- **C85** A circuit whose domain has fewer than `l` points cannot be handed to the servers: dealing panics, in every build, with any
key, assignment and randomness, before a server has been started. -/
theorem C85_deal_panics {dbg₀ : Bool} {b : Nat} {pp : PSS F} (hpp : PSS.new dbg₀ (2 ^ b) = .ok pp) (dbg : Bool) (copies : Nat)
    {mats : ConstraintMatrices F} {dom : Domain F} (hdom : Domain.new (mats.numConstraints + mats.numInstanceVariables) = some dom)
    (hsmall : dom.size < 2 ^ b) (z : List F) (pk : ProvingKey G1 G2) (gen1 : G1) (gen2 : G2) (r s : F) (tape : ClientTape F G1 G2) :
    pp.deal dbg copies mats z pk gen1 gen2 r s tape = panic' := by
  refine onlyPanics_eq (PSS.deal_onlyPanics _ _ _ _ _ _ _ _ _ _ _) fun ins h => ?_
  unfold PSS.deal at h
  obtain ⟨oq, e1, h⟩ := bind_ok_inv h
  obtain ⟨q, e2, h⟩ := bind_ok_inv h
  have e2 : oq = some q := by
    cases oq <;> cases e2
    rfl
  rw [e2] at e1
  have hq := qap_domain hdom e1
  obtain ⟨_, -, h⟩ := bind_ok_inv h
  obtain ⟨_, -, h⟩ := bind_ok_inv h
  obtain ⟨sh, e3, h⟩ := bind_ok_inv h
  obtain ⟨_, -, h⟩ := bind_ok_inv h
  obtain ⟨_, -, h⟩ := bind_ok_inv h
  obtain ⟨_, -, h⟩ := bind_ok_inv h
  obtain ⟨_, -, h⟩ := bind_ok_inv h
  obtain ⟨_, -, h⟩ := bind_ok_inv h
  obtain ⟨x, e4, h⟩ := bind_ok_inv h
  obtain ⟨_, -, h⟩ := bind_ok_inv h
  have hx : x.domain = dom := by
    rw [← hq]
    refine pss_domain e3 x ?_
    unfold rd at e4
    split at e4
    · next y hy =>
      cases e4
      exact List.mem_of_getElem? hy
    · cases e4
  dsimp only at h
  rw [hx, C85_masks_panic hpp dbg hsmall] at h
  cases h

/-- **C85** So, with a key that fits, the example's client gets as far as starting the servers exactly if the domain of the circuit has
at least as many points as a packed vector has slots. -/
theorem C85_deal_iff {dbg₀ : Bool} {b : Nat} {pp : PSS F} (hpp : PSS.new dbg₀ (2 ^ b) = .ok pp) {k : Nat} (hk64 : k < 64)
    {mats : ConstraintMatrices F} {z : List F} {dom dom2 : Domain F} (hcirc : Circuit k 0 mats z dom dom2) {pa pb pc : Nat → F[X]}
    (hqap : IsQap mats z.length dom.groupGen (2 ^ k) pa pb pc) {t : Toxic F} {g1 : G1} {g2 : G2} {pk : ProvingKey G1 G2}
    (hk : IsCircomKey t g1 g2 z.length mats.numInstanceVariables (2 ^ k) dom2.groupGen pa pb pc pk) (hγ : t.gamma ≠ 0)
    (hδ : t.delta ≠ 0) (gen1 : G1) (gen2 : G2) (r s : F) (tape : ClientTape F G1 G2) :
    (∃ ins, pp.deal false pp.n mats z pk gen1 gen2 r s tape = .ok ins) ↔ 2 ^ b ≤ dom.size := by
  constructor
  · rintro ⟨ins, h⟩
    by_contra hlt
    rw [C85_deal_panics hpp false pp.n hcirc.domain (by omega)] at h
    cases h
  · intro h
    have hsz : dom.size = 2 ^ k := hcirc.size
    have hbk : b ≤ k := by
      rw [hsz] at h
      exact (Nat.pow_le_pow_iff_right (by omega)).1 h
    obtain ⟨a, rfl⟩ : ∃ a, k = a + b := ⟨k - b, by omega⟩
    have hc : Circuit a b mats z dom dom2 :=
      ⟨hcirc.domain, hcirc.size, hcirc.double, hcirc.rowsA, hcirc.rowsB, hcirc.colsA, hcirc.colsB, hcirc.colsC, hcirc.inputs,
        hcirc.wires, hcirc.one⟩
    obtain ⟨ins, _, _, _, _, _, h1, -⟩ := example_session (GT := F) hpp a (by omega) hc hqap hk hγ hδ gen1 gen2 r s tape fun _ _ _ => 0
    exact ⟨_, h1⟩

end groups

/-! ### Examples: one constraint `x·x = x` and the constant, two points, packed four to a vector -/

def mats17s : ConstraintMatrices (ZMod 17) :=
  { numInstanceVariables := 1, numConstraints := 1, a := [[(1, 1)]], b := [[(1, 1)]], c := [[(1, 1)]] }

def dom17s : Domain (ZMod 17) := ⟨2, 16, 16, 9, 1, 1⟩

theorem dom17s_eq : Domain.new (F := ZMod 17) (2 ^ 1) = some dom17s := by decide +kernel

/-- `l = 4`, `n = 16`. -/
def pp17f : PSS (ZMod 17) :=
  { t := 4, l := 4, n := 16, share := ⟨16, 3, 6, 16, 1, 1⟩, secret := ⟨8, 9, 2, 15, 3, 6⟩, secret2 := ⟨16, 3, 6, 16, 3, 6⟩ }

theorem pp17f_eq (dbg : Bool) : PSS.new (F := ZMod 17) dbg (2 ^ 2) = .ok pp17f := by
  cases dbg <;> decide +kernel

theorem circuit17s : Circuit 1 0 mats17s [1, 1] dom17s dom17 where
  domain := dom17s_eq
  size := rfl
  double := dom17_eq
  rowsA := rfl
  rowsB := rfl
  colsA := by intro row hr t ht; simp [mats17s] at hr; subst hr; simp at ht; subst ht; decide
  colsB := by intro row hr t ht; simp [mats17s] at hr; subst hr; simp at ht; subst ht; decide
  colsC := by intro row hr t ht; simp [mats17s] at hr; subst hr; simp at ht; subst ht; decide
  inputs := by decide
  wires := by decide
  one := rfl

/-- Example for C85: the shares are empty, the masks cannot be drawn, dealing panics. -/
example (dbg : Bool) (rngA rngB rngC : Nat → Nat → ZMod 17) (vals : Nat → ZMod 17) (pk : ProvingKey (ZMod 17) (ZMod 17))
    (tape : ClientTape (ZMod 17) (ZMod 17) (ZMod 17)) :
    QAP.pss ⟨1, 1, [1, 1], [1, 0], [1, 0], dom17s⟩ pp17f dbg rngA rngB rngC = .ok ((List.range 16).map fun _ =>
      { numInputs := 1, numConstraints := 1, a := [], b := [], c := [], domain := dom17s }) ∧
    FftMask.sample pp17f dbg true 4 16 2 vals rngA rngB = panic' ∧
    pp17f.deal dbg 16 mats17s [1, 1] pk 1 1 5 6 tape = panic' :=
  ⟨C85_pss_empty (b := 2) (k := 1) (pp17f_eq true) dbg (by norm_num) _ rfl rfl rfl _ _ _,
    C85_masks_panic (b := 2) (pp17f_eq true) dbg (by norm_num) _ _ _ _ _,
    C85_deal_panics (b := 2) (pp17f_eq true) dbg 16 circuit17s.domain (by decide) _ _ _ _ _ _ _⟩

/-- Example for C85: with two to a vector the same circuit is dealt, with four it is not. -/
example (tape : ClientTape (ZMod 17) (ZMod 17) (ZMod 17)) : ∃ pk : ProvingKey (ZMod 17) (ZMod 17),
    (∃ ins, pp17.deal false pp17.n mats17s [1, 1] pk 1 1 5 6 tape = .ok ins) ∧
    ¬ ∃ ins, pp17f.deal false pp17f.n mats17s [1, 1] pk 1 1 5 6 tape = .ok ins := by
  obtain ⟨pa, pb, pc, pk, h1, h2⟩ := C35_key_exists circuit17s (⟨2, 3, 4, 5, 6⟩ : Toxic (ZMod 17)) (1 : ZMod 17) (1 : ZMod 17)
  refine ⟨pk, ?_, ?_⟩
  · exact (C85_deal_iff (b := 1) (pp17_eq true) (by norm_num) circuit17s h1 h2 (by decide) (by decide) 1 1 5 6 tape).2 (by decide)
  · rw [C85_deal_iff (b := 2) (pp17f_eq true) (by norm_num) circuit17s h1 h2 (by decide) (by decide) 1 1 5 6 tape]
    decide

/-- Example for C85: empty shares of the two-point program, transformed by eight servers. -/
example : AlwaysKingFails (Net.init fun i : Fin (4 * 2 ^ 1) =>
      pp17.dIfft false (4 * 2 ^ 1) i [] (FftMask.zero 0) true dom17s 4 .one fun _ _ => 3) .panic ∧
    AlwaysKingFails (Net.init fun i : Fin (4 * 2 ^ 1) => pp17.dFft false (4 * 2 ^ 1) i [] (FftMask.zero 0) true dom17s .one fun _ _ => 3) .panic ∧
    pp17.dFft true 8 3 [] (FftMask.zero 0) true dom17s .one (fun _ _ => 3) = .done panic' :=
  ⟨C85_d_ifft_hangs (by norm_num) (fun _ => FftMask.zero 0) true dom17s 4 .one _,
    C85_d_fft_hangs (by norm_num) (fun _ => FftMask.zero 0) true dom17s .one _,
    (C85_debug_panics true rfl 8 3 _ _ (by decide) 1 _ _).1⟩

end ZkSaas.Properties
