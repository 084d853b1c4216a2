import Verif.Spec.Net

/-!
# Specification: using a network again
-/

namespace ZkSaas.Spec

/-- Whatever the schedule of a reliable network, when all parties have finished successfully no message is left on any stream. -/
def LeavesNothing {n : Nat} {α : Type} (c : Net n α) : Prop :=
  ∀ k c', GSteps Reliable k c c' → (∀ i, ∃ v, c'.procs i = .done (.ok v)) → ∀ i j x, c'.queues (i, j, x) = []

/-- A party that runs the programs one after the other on the same streams and keeps all the results. It stops at the first failure. -/
def inTurn {α : Type} : List (Proc α) → Proc (List α)
  | [] => .done (.ok [])
  | p :: ps => p.bind fun a => (inTurn ps).bind fun l => .done (.ok (a :: l))

end ZkSaas.Spec
