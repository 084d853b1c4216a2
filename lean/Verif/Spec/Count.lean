/-!
How many servers a protocol needs that was set up for `4l` shares. The number of parties of the network (`n_parties`, `mpc-net/src/lib.rs:69`)
and that of the packing scheme (`pp.n`, `secret-sharing/src/pss.rs:28`) are set independently of each other.
-/

namespace ZkSaas.Spec

/-- `n` servers can decode sharings with `d` coefficients: every server has a share, there are as many shares as coefficients, and in a debug
build at most one share is missing. -/
def EnoughServers (l : Nat) (dbg : Bool) (d n : Nat) : Prop := d ≤ n ∧ n ≤ 4 * l ∧ (dbg = true → 4 * l ≤ n + 1)

/-- More servers than shares, or so few that a debug build refuses to decode. -/
def WrongCount (l : Nat) (dbg : Bool) (n : Nat) : Prop := 4 * l < n ∨ (dbg = true ∧ n + 1 < 4 * l)

end ZkSaas.Spec
