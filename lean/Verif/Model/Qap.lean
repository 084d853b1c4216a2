import Verif.Model.Protocols

/-!
# `groth16/src/qap.rs` and `groth16/src/ext_wit.rs`

The evaluation domain `D` is `Radix2EvaluationDomain`, the only one the repository instantiates.
-/

namespace ZkSaas

/-- `ark_relations::r1cs::ConstraintMatrices<F>`: the fields that are used. A row of a matrix is the list of its
`(coefficient, column)` entries. -/
structure ConstraintMatrices (F : Type) where
  numInstanceVariables : Nat
  numConstraints : Nat
  a : List (List (F × Nat))
  b : List (List (F × Nat))
  c : List (List (F × Nat))

/-- `groth16/src/qap.rs:14-26` `struct QAP`. -/
structure QAP (F : Type) where
  numInputs : Nat
  numConstraints : Nat
  a : List F
  b : List F
  c : List F
  domain : Domain F

/-- `groth16/src/qap.rs:29-40` `struct PackedQAPShare`. -/
structure PackedQAPShare (F : Type) where
  numInputs : Nat
  numConstraints : Nat
  a : List F
  b : List F
  c : List F
  domain : Domain F

variable {F : Type} [Field F] [DecidableEq F]

/-- `ark_groth16::r1cs_to_qap::evaluate_constraint`, called at `groth16/src/qap.rs:63-64`: adds up
`coefficient · assignment[column]` (no multiplication for coefficient one); a column out of range panics. -/
def evaluateConstraint (terms : List (F × Nat)) (assignment : List F) : Res F :=
  terms.foldlM (fun sum t => do
    let v ← rd assignment t.2
    pure (if t.1 = 1 then sum + v else sum + v * t.1)) 0

/-- `groth16/src/qap.rs:42-89` `qap`. `none` stands for `Err(SynthesisError::PolynomialDegreeTooLarge)`. The zips stop at
the shortest vector. -/
def qap [FftField F] (matrices : ConstraintMatrices F) (fullAssignment : List F) : Res (Option (QAP F)) :=
  let numInputs := matrices.numInstanceVariables
  let numConstraints := matrices.numConstraints
  match Domain.new (F := F) (numConstraints + numInputs) with
  | none => .ok none
  | some domain => do
    let domainSize := domain.size
    let a : List F := List.replicate domainSize 0
    let b : List F := List.replicate domainSize 0
    let (a, b) ← forUp (min numConstraints (min matrices.a.length matrices.b.length)) (fun i (st : List F × List F) => do
      let at_i ← rd matrices.a i
      let bt_i ← rd matrices.b i
      let x ← evaluateConstraint at_i fullAssignment
      let y ← evaluateConstraint bt_i fullAssignment
      let a ← wr st.1 i x
      let b ← wr st.2 i y
      pure (a, b)) (a, b)
    let a ← forUp numInputs (fun j (a : List F) => do
      let x ← rd fullAssignment j
      wr a (numConstraints + j) x) a
    let c : List F := List.replicate domainSize 0
    let c ← forUp numConstraints (fun i (c : List F) => do
      let x ← rd a i
      let y ← rd b i
      wr c i (x * y)) c
    pure (some { numInputs, numConstraints, a, b, c, domain })

/-- `(0..rows.len()).map(|j| rows[j][i])`: what party `i` gets of packed rows
(`groth16/src/qap.rs:121-123`, `groth16/src/proving_key.rs:90-104`, `groth16/examples/sha256.rs:149-155`). -/
def column {T : Type} (rows : List (List T)) (i : Nat) : Res (List T) := rows.mapM fun x => rd x i

/-- `groth16/src/qap.rs:101-115`: the closure `pack` of `QAP::pss`. -/
def PSS.packQapVec (pp : PSS F) (dbg : Bool) (x : List F) (rng : Nat → Nat → F) : Res (List (List F)) := do
  let x ← fftInPlaceRearrange x
  pp.packStrided dbg x rng

/-- `groth16/src/qap.rs:92-134` `QAP::pss`. `rngA`, `rngB`, `rngC` are the parts of the stream of one `test_rng` used for
the three vectors. -/
def QAP.pss (q : QAP F) (pp : PSS F) (dbg : Bool) (rngA rngB rngC : Nat → Nat → F) : Res (List (PackedQAPShare F)) := do
  let packedA ← pp.packQapVec dbg q.a rngA
  let packedB ← pp.packQapVec dbg q.b rngB
  let packedC ← pp.packQapVec dbg q.c rngC
  (List.range pp.n).mapM fun i => do
    let a ← column packedA i
    let b ← column packedB i
    let c ← column packedC i
    pure { numInputs := q.numInputs, numConstraints := q.numConstraints, a, b, c, domain := q.domain }

/-- `tokio::try_join!` of three futures followed by a continuation (`groth16/src/ext_wit.rs:62-63` and elsewhere). -/
def tryJoin3 {α β γ δ : Type} (p : Proc α) (q : Proc β) (u : Proc γ) (k : α → β → γ → Proc δ) : Proc δ :=
  .par (.par p q fun x y => .done (.ok (x, y))) u fun xy z => k xy.1 xy.2 z

/-- `groth16/src/ext_wit.rs:14-102` `libsnark_h`. `mask i` is `fft_mask[i]`, `rng i` the king's randomness in the `i`-th
transform. -/
def PSS.libsnarkH [FftField F] [FixedWire F] (pp : PSS F) (dbg : Bool) (n me : Nat) (q : PackedQAPShare F)
    (mask : Nat → FftMask F) (rng : Nat → Nat → Nat → F) : Proc (List F) := do
  let domain := q.domain
  let cosetDom ← unwrap (domain.getCoset FftField.GENERATOR)
  tryJoin3 (pp.dIfft dbg n me q.a (mask 0) true domain cosetDom.offset .zero (rng 0))
    (pp.dIfft dbg n me q.b (mask 1) true domain cosetDom.offset .one (rng 1))
    (pp.dIfft dbg n me q.c (mask 2) true domain cosetDom.offset .two (rng 2)) fun aCoeff bCoeff cCoeff =>
  tryJoin3 (pp.dFft dbg n me aCoeff (mask 3) true domain .zero (rng 3))
    (pp.dFft dbg n me bCoeff (mask 4) true domain .one (rng 4))
    (pp.dFft dbg n me cCoeff (mask 5) true domain .two (rng 5)) fun aEval bEval cEval => do
  let vanishingInv ← unwrap (fieldInverse (domain.evalVanishing FftField.GENERATOR))
  let hEval := List.zipWith (fun ab c => (ab.1 * ab.2 - c) * vanishingInv) (List.zip aEval bEval) cEval
  pp.dIfft dbg n me hEval (mask 6) false domain cosetDom.offsetInv .zero (rng 6)

/-- `groth16/src/ext_wit.rs:104-181` `circom_h`. `rng i` for `i < 6` is the king's randomness in the `i`-th transform,
`rng 6` in the degree reduction. -/
def PSS.circomH [FftField F] [FixedWire F] (pp : PSS F) (dbg : Bool) (n me : Nat) (q : PackedQAPShare F)
    (mask : Nat → FftMask F) (degredMask : DegRedMask F) (rng : Nat → Nat → Nat → F) : Proc (List F) := do
  let domain := q.domain
  let domainDouble ← unwrap (Domain.new (F := F) (2 * domain.size))
  let root := domainDouble.element 1
  tryJoin3 (pp.dIfft dbg n me q.a (mask 0) true domain root .zero (rng 0))
    (pp.dIfft dbg n me q.b (mask 1) true domain root .one (rng 1))
    (pp.dIfft dbg n me q.c (mask 2) true domain root .two (rng 2)) fun aCoeff bCoeff cCoeff =>
  tryJoin3 (pp.dFft dbg n me aCoeff (mask 3) false domain .zero (rng 3))
    (pp.dFft dbg n me bCoeff (mask 4) false domain .one (rng 4))
    (pp.dFft dbg n me cCoeff (mask 5) false domain .two (rng 5)) fun aEval bEval cEval => do
  let hEval := List.zipWith (fun ab c => ab.1 * ab.2 - c) (List.zip aEval bEval) cEval
  pp.degRed dbg n me hEval degredMask .zero (rng 6)

end ZkSaas
