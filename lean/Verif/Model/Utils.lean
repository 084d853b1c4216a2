import Verif.Model.Ark

/-!
# `secret-sharing/src/utils.rs`
-/

namespace ZkSaas

variable {F : Type} [Field F]

/-- `secret-sharing/src/utils.rs:7-15` `eval`: Horner, from the last coefficient. -/
def eval (p : List F) (x : F) : F := p.reverse.foldl (fun acc coeff => acc * x + coeff) 0

/-- `secret-sharing/src/utils.rs:18-23` `eval_many`. -/
def evalMany (p : List F) (xs : List F) : List F := xs.map fun x => eval p x

/-- `secret-sharing/src/utils.rs:47-54`, the `a == 1` branch of `syn_div_in_place`: walking the slice from
the end, `*coeff += b*c; swap(coeff, c)`. Returns the rewritten suffix and the carried `c`. -/
def synDiv1 (b : F) : List F → List F × F
  | [] => ([], 0)
  | x :: xs =>
    let (ys, c) := synDiv1 b xs
    (c :: ys, x + b * c)

/-- `secret-sharing/src/utils.rs:36-74` `syn_div_in_place`. The three `assert!`s are panics in every build;
`copy_within(a.., 0)` followed by `fill(0)` from `degree_offset` is the shift by `a` with zero padding. -/
def synDivInPlace [DecidableEq F] (p : List F) (a : Nat) (b : F) : Res (List F) := do
  assert (a != 0)
  assert (b != 0)
  assert (p.length > a)
  if a = 1 then
    pure (synDiv1 b p).1
  else
    let degreeOffset := p.length - a
    let p ←
      if b = 1 then
        forDown degreeOffset (fun i p => do wr p i ((← rd p i) + (← rd p (i + a)))) p
      else
        forDown degreeOffset (fun i p => do wr p i ((← rd p i) + (← rd p (i + a)) * b)) p
    let shifted := p.drop a ++ p.drop degreeOffset
    pure (shifted.take degreeOffset ++ List.replicate a 0)

/-- `secret-sharing/src/utils.rs:27-34` `syn_div`. -/
def synDiv [DecidableEq F] (p : List F) (a : Nat) (b : F) : Res (List F) := synDivInPlace p a b

/-- `secret-sharing/src/utils.rs:120-136` `get_zero_roots`. At iteration `i` the variable `n` has value
`xs.len() - i` before and `xs.len() - 1 - i` after the decrement. -/
def getZeroRoots (xs : List F) : Res (List F) := do
  let result := List.replicate (xs.length + 1) (0 : F)
  let result ← wr result xs.length 1
  forUp xs.length (fun i result => do
    let n := xs.length - 1 - i
    let result ← wr result n 0
    forUp (xs.length - n) (fun d result => do
      let j := n + d
      wr result j ((← rd result j) - (← rd result (j + 1)) * (← rd xs i))) result) result

/-- `secret-sharing/src/utils.rs:105-113`: drop trailing zeros; `truncate_pos` keeps its initial value
`result.len()` when every entry is zero, so the all-zero vector is returned unchanged. -/
def truncateZeros {T : Type} [Zero T] [DecidableEq T] (result : List T) : List T :=
  let stripped := (result.reverse.dropWhile (· = 0)).reverse
  if stripped = [] then result else stripped

/-- `secret-sharing/src/utils.rs:78-116` `lagrange_interpolate`. -/
def lagrangeInterpolate {T : Type} [AddCommGroup T] [Module F T] [DecidableEq F] [DecidableEq T]
    (xs : List F) (ys : List T) : Res (List T) := do
  let roots ← getZeroRoots xs
  let numerators ← xs.mapM fun x => synDiv roots 1 x
  let denominators := (numerators.zip xs).map fun (f, x) => eval f x
  let denominators := batchInversion denominators
  let result := List.replicate numerators.length (0 : T)
  let result ← forUp ys.length (fun i result => do
    let ySlice := (← rd denominators i) • (← rd ys i)
    forUp result.length (fun j result => do
      let tmp := (← rd (← rd numerators i) j) • ySlice
      wr result j ((← rd result j) + tmp)) result) result
  pure (truncateZeros result)

end ZkSaas
