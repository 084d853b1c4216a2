import Verif.Spec.CheatOdds

/-!
# Specification: servers who also choose in which order they send
-/

namespace ZkSaas.Spec

open ZkSaas

variable {F G1 G2 : Type}

/-- The twelve messages of a server to the king come in seven rounds: three inverse transforms at once, three transforms at once, the degree reduction, the
sums of `A`, of `B` in the first group and of `B` in the second, and the two sums of `C` at once. -/
def roundOf (j : Nat) : Nat := if j < 3 then 0 else if j < 6 then 1 else if j < 10 then j - 4 else 6

/-- A way to cheat: by what the servers are dealt and by the answers so far, in the order in which they came in, which message to send next and with which
errors. Of the errors of server `p` only those in that message count. -/
def Play (F G1 G2 : Type) (k : Nat) : Type :=
  (Fin k → ServerInput F G1 G2) → List (Nat × (Fin k → Option (Nat × Bytes))) → Nat × (Nat → Errors F G1 G2)

variable {k : Nat}

/-- The answers to the first `n` messages if the servers in the end have `v`. -/
def Play.history (τ : Play F G1 G2 k) (v : Holding F G1 G2 k) : Nat → List (Nat × (Fin k → Option (Nat × Bytes)))
  | 0 => []
  | n + 1 => τ.history v n ++ [((τ v.dealt (τ.history v n)).1, fun i => (v.sent i)[(τ v.dealt (τ.history v n)).1]?)]

/-- The message that is sent after `n` answers. -/
def Play.choice (τ : Play F G1 G2 k) (v : Holding F G1 G2 k) (n : Nat) : Nat := (τ v.dealt (τ.history v n)).1

/-- The errors in message `j`: those chosen when it was sent. -/
def Play.errorsIn (τ : Play F G1 G2 k) (v : Holding F G1 G2 k) (j p : Nat) : Errors F G1 G2 :=
  (τ v.dealt (τ.history v ((List.range 12).findIdx fun n => τ.choice v n == j))).2 p

/-- The errors of the whole session. -/
def Play.errors (τ : Play F G1 G2 k) (v : Holding F G1 G2 k) (p : Nat) : Errors F G1 G2 where
  fft j := (τ.errorsIn v j p).fft j
  degred := (τ.errorsIn v 6 p).degred
  msm1 j := (τ.errorsIn v (if j < 2 then 7 + j else 8 + j) p).msm1 j
  msm2 := (τ.errorsIn v 9 p).msm2

/-- The servers send the twelve messages each once and round after round. -/
def Play.Legal (τ : Play F G1 G2 k) : Prop :=
  ∀ v, ∀ n < 12, τ.choice v n < 12 ∧ (∀ m < n, τ.choice v m ≠ τ.choice v n) ∧ ∀ j, roundOf j < roundOf (τ.choice v n) → ∃ m < n, τ.choice v m = j

end ZkSaas.Spec
