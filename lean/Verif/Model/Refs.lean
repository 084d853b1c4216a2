import Verif.Model.Qap

/-!
# The single-machine references in the tests of `groth16/src/ext_wit.rs`

The tests compare what the servers compute with these functions. `CircomReduction::witness_map_from_matrices` belongs to
`ark-circom`, which is not in `/repo`; its contract is given as it is documented there.
-/

namespace ZkSaas

variable {F : Type} [Field F] [DecidableEq F]

/-- `ark_poly` `mul_polynomials_in_evaluation_domain`: `assert_eq!` on the lengths, then entry by entry. -/
def mulInEvaluationDomain (a b : List F) : Res (List F) := do
  assert (a.length == b.length)
  pure (List.zipWith (· * ·) a b)

/-- `ark_poly` `distribute_powers_and_mul_by_const(coeffs, g, c)`: coefficient `i` times `c·g^i`. -/
def distributePowersAndMulByConst (v : List F) (g c : F) : List F := v.mapIdx fun i x => x * (c * g ^ i)

/-- `groth16/src/ext_wit.rs:204-237` `libsnark_ref`. -/
def libsnarkRef [FftField F] (a b c : List F) (domain : Domain F) : Res (List F) := do
  let a := domain.ifft a
  let b := domain.ifft b
  let c := domain.ifft c
  let cosetDomain ← unwrap (domain.getCoset FftField.GENERATOR)
  let a := cosetDomain.fft a
  let b := cosetDomain.fft b
  let c := cosetDomain.fft c
  let ab ← mulInEvaluationDomain a b
  let v ← unwrap (fieldInverse (domain.evalVanishing FftField.GENERATOR))
  let ab := List.zipWith (fun x y => (x - y) * v) ab c
  pure (cosetDomain.ifft ab)

/-- `groth16/src/ext_wit.rs:239-285` `circom_ref`. -/
def circomRef [FftField F] (a b c : List F) (domain : Domain F) : Res (List F) := do
  let a := domain.ifft a
  let b := domain.ifft b
  let domainDouble ← unwrap (Domain.new (F := F) (2 * domain.size))
  let root := domainDouble.element 1
  let a := distributePowersAndMulByConst a root 1
  let b := distributePowersAndMulByConst b root 1
  let a := domain.fft a
  let b := domain.fft b
  let ab ← mulInEvaluationDomain a b
  let c := domain.ifft c
  let c := distributePowersAndMulByConst c root 1
  let c := domain.fft c
  pure (List.zipWith (· - ·) ab c)

/-- `ark_circom::CircomReduction::witness_map_from_matrices`, called at `groth16/src/ext_wit.rs:559-564`: evaluate the
constraints and the inputs on the domain, let `c = a∘b` on the constraints, and do what `circom_ref` does. `none` stands for
`Err(PolynomialDegreeTooLarge)`. -/
def witnessMapFromMatrices [FftField F] (matrices : ConstraintMatrices F) (numInputs numConstraints : Nat)
    (fullAssignment : List F) : Res (Option (List F)) :=
  match Domain.new (F := F) (numConstraints + numInputs) with
  | none => .ok none
  | some domain => do
    let a : List F := List.replicate domain.size 0
    let b : List F := List.replicate domain.size 0
    let (a, b) ← forUp (min numConstraints (min matrices.a.length matrices.b.length)) (fun i (st : List F × List F) => do
      let at_i ← rd matrices.a i
      let bt_i ← rd matrices.b i
      let x ← evaluateConstraint at_i fullAssignment
      let y ← evaluateConstraint bt_i fullAssignment
      let a ← wr st.1 i x
      let b ← wr st.2 i y
      pure (a, b)) (a, b)
    let a ← forUp numInputs (fun j (a : List F) => do
      let x ← rd fullAssignment j
      wr a (numConstraints + j) x) a
    let c : List F := List.replicate domain.size 0
    let c ← forUp numConstraints (fun i (c : List F) => do
      let x ← rd a i
      let y ← rd b i
      wr c i (x * y)) c
    let h ← circomRef a b c domain
    pure (some h)

section open'
variable {T : Type} [AddCommGroup T] [Module F T] [DecidableEq T]

/-- `groth16/src/ext_wit.rs:403-406`, `:532-535`: transpose what the parties returned, `unpack2` every row, concatenate. -/
def PSS.openRows2 (pp : PSS F) (dbg : Bool) (result : List (List T)) : Res (List T) := do
  let rows ← transpose result
  let parts ← rows.mapM (pp.unpack2 dbg)
  pure parts.flatten

/-- `groth16/src/ext_wit.rs:671-674`: the same with `unpack`. -/
def PSS.openRows (pp : PSS F) (result : List (List T)) : Res (List T) := do
  let rows ← transpose result
  pure (rows.map pp.unpack).flatten

end open'

end ZkSaas
