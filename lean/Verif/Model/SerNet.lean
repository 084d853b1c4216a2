import Verif.Model.Net

/-!
# `mpc-net/src/lib.rs` and `mpc-net/src/ser_net.rs`: star rounds

Party `0` is the king. `me` is `party_id()`, `n` is `n_parties()`.
-/

namespace ZkSaas

/-- `mpc-net/src/lib.rs:55-58` `enum ClientSendOrKingReceiveResult`; the hash map of `Partial` is given by its entries
in iteration order. -/
inductive KingReceived where
  | full (bs : List Bytes)
  | partly (entries : List (Nat × Bytes))

/-- `mpc-net/src/lib.rs:116-130`: what the king makes of the entries of `results_store`. -/
def kingFinish (n : Nat) (entries : List (Nat × Bytes)) : Res KingReceived :=
  if entries.length = n then do
    let sorted ← (List.range n).mapM fun x => unwrap (entries.lookup x)
    pure (.full sorted)
  else pure (.partly entries)

/-- `mpc-net/src/lib.rs:89-136` `client_send_or_king_receive`. -/
def clientSendOrKingReceive (n me : Nat) (bytes : Bytes) (sid : Sid) : Proc (Option KingReceived) :=
  if me = 0 then
    .gather sid n bytes (fun _ => none) fun entries => .done ((kingFinish n entries).map some)
  else
    .send 0 sid bytes (.done (.ok none))

/-- `mpc-net/src/lib.rs:155-164`: the king's send loop over the ids `ids`. -/
def kingSendLoop (bytesOut : List Bytes) (m : Nat) (sid : Sid) : List Nat → Proc Unit
  | [] => pure ()
  | id :: ids => do
    let b ← rd bytesOut id
    if b.length ≠ m then
      Proc.done (.error (.net (.protocol id)))
    else
      .send id sid b (kingSendLoop bytesOut m sid ids)

/-- `mpc-net/src/lib.rs:139-176` `client_receive_or_king_send`. -/
def clientReceiveOrKingSend (n me : Nat) (bytesOut : Option (List Bytes)) (sid : Sid) : Proc Bytes :=
  match bytesOut with
  | some bytesOut =>
    if me ≠ 0 then .done (.error (.net .badInput))
    else do
      let b0 ← rd bytesOut 0
      kingSendLoop bytesOut b0.length sid ((List.range n).filter (· ≠ me))
      rd bytesOut me
  | none =>
    if me = 0 then .done (.error (.net .badInput))
    else .recv 0 sid fun b => .done (.ok b)

/-- Little-endian bytes of a number, `k` of them. -/
def leBytes : Nat → Nat → Bytes
  | 0, _ => []
  | k + 1, x => UInt8.ofNat (x % 256) :: leBytes k (x / 256)

/-- The number with these little-endian bytes. -/
def ofLeBytes : Bytes → Nat
  | [] => 0
  | b :: bs => b.toNat + 256 * ofLeBytes bs

/-- `ark_serialize::{CanonicalSerialize, CanonicalDeserialize}` in compressed mode: `enc` is `serialize_compressed`,
`read` is `deserialize_compressed` from a reader, which returns the value and leaves the rest unread. -/
class Wire (T : Type) where
  enc : T → Bytes
  read : Bytes → Option (T × Bytes)

/-- `T::deserialize_compressed(&b[..])`: bytes after the value are ignored. -/
def Wire.dec {T : Type} [Wire T] (b : Bytes) : Option T := (Wire.read b).map Prod.fst

/-- Contract of arkworks for field elements and curve points: all encodings of a type have the same number of bytes,
decoding inverts encoding, and fails on too few bytes. -/
class FixedWire (T : Type) extends Wire T where
  width : Nat
  enc_length : ∀ x : T, (enc x).length = width
  read_enc : ∀ (x : T) (rest : Bytes), read (enc x ++ rest) = some (x, rest)
  read_short : ∀ b : Bytes, b.length < width → read b = none

/-- Reads `k` elements one after the other. -/
def readMany {T : Type} [Wire T] : Nat → Bytes → Option (List T × Bytes)
  | 0, b => some ([], b)
  | k + 1, b => do
    let (x, b) ← Wire.read b
    let (xs, b) ← readMany k b
    pure (x :: xs, b)

/-- ark-serialize `Vec<T>`: the length as `u64` little endian, then the elements. -/
instance {T : Type} [FixedWire T] : Wire (List T) where
  enc v := leBytes 8 v.length ++ v.flatMap Wire.enc
  read b := if b.length < 8 then none else readMany (ofLeBytes (b.take 8)) (b.drop 8)

/-- `mpc-net/src/ser_net.rs:9-12` `struct ReceivedShares`. -/
structure ReceivedShares (T : Type) where
  shares : List T
  parties : List Nat

/-- `mpc-net/src/ser_net.rs:39-43` and `:119`: a decoding failure becomes `MpcNetError::Generic`. -/
def decodeOrError {T : Type} [Wire T] (b : Bytes) : Res T :=
  match Wire.dec b with
  | some x => .ok x
  | none => .error (.net .generic)

/-- `mpc-net/src/ser_net.rs:34-98`: decoding what the king received. -/
def decodeReceived {T : Type} [Wire T] (n threshold : Nat) :
    Option KingReceived → Res (Option (ReceivedShares T))
  | some (.full bs) => do
    let shares ← bs.mapM decodeOrError
    pure (some ⟨shares, List.range n⟩)
  | some (.partly entries) =>
    let results := entries.filterMap fun e => (Wire.dec (T := T) e.2).map fun x => (e.1, x)
    if results.length < threshold then .error (.net (.protocol 0))
    else .ok (some ⟨results.map Prod.snd, results.map Prod.fst⟩)
  | none => .ok none

/-- `mpc-net/src/ser_net.rs:16-99` `client_send_or_king_receive_serialized`. -/
def clientSendOrKingReceiveSer {T : Type} [Wire T] (n me : Nat) (out : T) (sid : Sid) (threshold : Nat) :
    Proc (Option (ReceivedShares T)) := do
  let bytesIn ← clientSendOrKingReceive n me (Wire.enc out) sid
  decodeReceived n threshold bytesIn

/-- `mpc-net/src/ser_net.rs:101-120` `client_receive_or_king_send_serialized`. -/
def clientReceiveOrKingSendSer {T : Type} [Wire T] (n me : Nat) (out : Option (List T)) (sid : Sid) : Proc T := do
  let bytesIn ← clientReceiveOrKingSend n me (out.map fun outs => outs.map Wire.enc) sid
  decodeOrError bytesIn

end ZkSaas
