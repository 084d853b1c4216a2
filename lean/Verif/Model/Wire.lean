import Verif.Model.SerNet

/-!
# Frames and packets: `mpc-net/src/multi.rs`, `mpc-net/src/prod.rs`

The bytes of one multiplexed stream arrive in order and complete (contract of TCP/TLS and of async-smux), cut into pieces by the
reads. This file models the length-delimited codec of tokio-util that turns them back into messages, and the bincode encoding of
`ProtocolPacket`.
-/

namespace ZkSaas

/-- tokio-util `LengthDelimitedCodec`: the default `max_frame_len`, 8 MiB. -/
def maxFrame : Nat := 8 * 1024 * 1024

/-- Big-endian bytes of a number, `k` of them. -/
def beBytes (k x : Nat) : Bytes := (leBytes k x).reverse

/-- The number with these big-endian bytes. -/
def ofBeBytes (b : Bytes) : Nat := ofLeBytes b.reverse

/-- tokio-util `LengthDelimitedCodec::encode` with the settings of `mpc-net/src/multi.rs:26-33` `wrap_stream` (big-endian length of
four bytes); `none` is the error of a frame that is too big. -/
def encodeFrame (data : Bytes) : Option Bytes :=
  if maxFrame < data.length then none else some (beBytes 4 data.length ++ data)

/-- tokio-util `DecodeState`. -/
inductive DecodeState where
  | head
  | data (n : Nat)
  deriving DecidableEq, Repr

/-- The outcome of one call of `LengthDelimitedCodec::decode`: an error, not enough bytes yet, or a frame. -/
inductive Decoded where
  | error
  | need (st : DecodeState) (buf : Bytes)
  | frame (f : Bytes) (buf : Bytes)
  deriving DecidableEq, Repr

/-- tokio-util `LengthDelimitedCodec::decode_data`. -/
def decodeData (n : Nat) (buf : Bytes) : Decoded :=
  if buf.length < n then .need (.data n) buf else .frame (buf.take n) (buf.drop n)

/-- tokio-util `LengthDelimitedCodec::decode` (with `decode_head`). -/
def decodeFrame : DecodeState → Bytes → Decoded
  | .head, buf =>
    if buf.length < 4 then .need .head buf
    else if maxFrame < ofBeBytes (buf.take 4) then .error
    else decodeData (ofBeBytes (buf.take 4)) (buf.drop 4)
  | .data n, buf => decodeData n buf

/-- The reading half of tokio-util `Framed`. -/
structure Framed where
  st : DecodeState
  buf : Bytes
  deriving DecidableEq, Repr

/-- A new stream (`mpc-net/src/multi.rs:26-33` `wrap_stream`). -/
def Framed.new : Framed := ⟨.head, []⟩

/-- What `next().await` of a `Framed` gives: a frame, an error, or the end of the stream. -/
inductive Next where
  | frame (f : Bytes)
  | error
  | ended
  deriving DecidableEq, Repr

/-- tokio-util `Framed::poll_next`: decode; when there are not enough bytes, read a piece and try again. A read of no bytes and the
end of `reads` are the end of the stream; bytes left over there are an error (`Decoder::decode_eof`). -/
def Framed.next (fr : Framed) : List Bytes → Next × Framed × List Bytes
  | [] =>
    match decodeFrame fr.st fr.buf with
    | .error => (.error, fr, [])
    | .frame f buf => (.frame f, ⟨.head, buf⟩, [])
    | .need st buf => (if buf = [] then .ended else .error, ⟨st, buf⟩, [])
  | c :: cs =>
    match decodeFrame fr.st fr.buf with
    | .error => (.error, fr, c :: cs)
    | .frame f buf => (.frame f, ⟨.head, buf⟩, c :: cs)
    | .need st buf =>
      if c = [] then (if buf = [] then .ended else .error, ⟨st, buf⟩, cs)
      else Framed.next ⟨st, buf ++ c⟩ cs

/-- `k` calls of `next().await`. -/
def Framed.nexts : Nat → Framed → List Bytes → List Next
  | 0, _, _ => []
  | k + 1, fr, reads =>
    let r := fr.next reads
    r.1 :: Framed.nexts k r.2.1 r.2.2

/-- `mpc-net/src/multi.rs:418-428` `send_stream` on a connected stream: what the bytes `out` written so far become. The error of
the codec is turned into `Generic`. -/
def sendStream (out : Bytes) (msg : Bytes) : Res Bytes :=
  match encodeFrame msg with
  | some b => .ok (out ++ b)
  | none => .error (.net .generic)

/-- `mpc-net/src/multi.rs:430-445` `recv_stream` on a connected stream: what it makes of `next().await`. -/
def recvStream : Next → Res Bytes
  | .frame f => .ok f
  | .error => .error (.net .generic)
  | .ended => .error (.net .generic)

/-- `mpc-net/src/prod.rs:125-130` `enum ProtocolPacket`. -/
inductive ProtocolPacket where
  | syn
  | synAck
  | packet (b : Bytes)
  deriving DecidableEq, Repr

/-- `bincode2::serialize` of a packet: the number of the variant as `u32`, the length as `u64`, little endian. -/
def ProtocolPacket.enc : ProtocolPacket → Bytes
  | .syn => leBytes 4 0
  | .synAck => leBytes 4 1
  | .packet b => leBytes 4 2 ++ (leBytes 8 b.length ++ b)

/-- `bincode2::deserialize` of a packet; bytes after the packet are ignored. -/
def ProtocolPacket.dec (b : Bytes) : Option ProtocolPacket :=
  if b.length < 4 then none
  else if ofLeBytes (b.take 4) = 0 then some .syn
  else if ofLeBytes (b.take 4) = 1 then some .synAck
  else if ofLeBytes (b.take 4) = 2 then
    if (b.drop 4).length < 8 then none
    else if (b.drop 12).length < ofLeBytes ((b.drop 4).take 8) then none
    else some (.packet ((b.drop 12).take (ofLeBytes ((b.drop 4).take 8))))
  else none

/-- `mpc-net/src/prod.rs:352-362` `send_packet` on a connected stream. -/
def sendPacket (out : Bytes) (p : ProtocolPacket) : Res Bytes := sendStream out p.enc

/-- `mpc-net/src/prod.rs:364-378` `recv_packet` on a connected stream. -/
def recvPacket : Next → Res ProtocolPacket
  | .frame f =>
    match ProtocolPacket.dec f with
    | some p => .ok p
    | none => .error (.net .generic)
  | .error => .error (.net .generic)
  | .ended => .error (.net .notConnected)

/-- `mpc-net/src/prod.rs:333-349` `ProdNet::send_to` to a known peer. -/
def prodSend (out : Bytes) (msg : Bytes) : Res Bytes := sendPacket out (.packet msg)

/-- `mpc-net/src/prod.rs:313-331` `ProdNet::recv_from` a known peer. -/
def prodRecv (x : Next) : Res Bytes := do
  match ← recvPacket x with
  | .packet b => pure b
  | _ => .error (.net .generic)

end ZkSaas
