import Verif.Model.Bench
import Verif.Model.Routing

/-!
# The tests of `mpc-net/src/prod.rs`
-/

namespace ZkSaas

/-- `mpc-net/src/prod.rs:522-561`: the closure of `add_protocol_inner`, as run by the party with id `me` of `n`; the king answers to `nPeers + 1`
parties. -/
def prodSumParty (dbg : Bool) (n nPeers me : Nat) : Proc (Fin (2 ^ 32)) := do
  let myId : Fin (2 ^ 32) := Fin.ofNat _ me
  let kingRecv ← clientSendOrKingReceiveSer n me myId .zero 0
  match kingRecv with
  | some rs => do
    assert (myId == 0)
    let sum ← sumU32 dbg rs.shares
    let send := List.replicate (nPeers + 1) (Wire.enc sum)
    let _ ← clientReceiveOrKingSend n me (some send) .zero
    pure sum
  | none => do
    assert (myId != 0)
    let bytes ← clientReceiveOrKingSend n me none .zero
    unwrap (Wire.dec (T := Fin (2 ^ 32)) bytes)

/-- `mpc-net/src/prod.rs:504`, `:513` and `:564-566`: the expected result and the assertion on what the nodes returned. -/
def prodSumCheck (dbg : Bool) (nPeers : Nat) (sums : List (Fin (2 ^ 32))) : Res Unit := do
  let expectedResult ← sumU32 dbg ((List.range (nPeers + 1)).map (Fin.ofNat _))
  assert (sums.all fun sum => sum == expectedResult)

/-! ### `ChannelIO` -/

/-- `mpc-net/src/prod.rs:449-457` `ChannelIO::poll_write`: the buffer goes into the channel as one element, and all of it counts as written. -/
def channelWrite (chan : List Bytes) (buf : Bytes) : List Bytes × Nat := (chan ++ [buf], buf.length)

/-- `mpc-net/src/prod.rs:475-491` `ChannelIO::poll_read` with room for `room` bytes while the sender is there: `none` is `Poll::Pending`.
`ReadBuf::put_slice` panics if the bytes do not fit; what does not fit is not kept. -/
def channelRead (chan : List Bytes) (room : Nat) : Res (Option (Bytes × List Bytes)) :=
  match chan with
  | [] => .ok none
  | bytes :: rest => if bytes.length ≤ room then .ok (some (bytes, rest)) else panic'

/-- A reader that asks again and again, with these rooms, until nothing is left or it has asked often enough: what it got, and what is still in the
channel. -/
def channelReads : List Bytes → List Nat → Res (Bytes × List Bytes)
  | chan, [] => .ok ([], chan)
  | chan, room :: rooms => do
    match ← channelRead chan room with
    | none => .ok ([], chan)
    | some (bytes, rest) => do
      let (more, left) ← channelReads rest rooms
      .ok (bytes ++ more, left)

end ZkSaas
