import Verif.Model.Wire

/-!
# The network on bytes

`Verif.Model.Net` lets parties exchange whole messages. Here a message becomes the bytes that `send_stream` (`mpc-net/src/multi.rs:418-428`) or
`send_packet` (`mpc-net/src/prod.rs:352-362`) writes to a stream. The receiver's `Framed` reads them in pieces of any size, whenever its party
waits for a message of that stream, and decodes them as far as it can. Where an error of the codec makes an operation of a party fail, the
model lets any operation of that party fail that can (`LStep … .fault`).
-/

namespace ZkSaas

/-- One direction of a stream between two parties: the bytes written and not yet read, and the `Framed` of the receiver. -/
structure ByteChan where
  out : Bytes
  fr : Framed

/-- How a network sends a message on a stream, given the bytes `out` written so far, and what it makes of `next().await`. -/
structure Transport where
  send : Bytes → Bytes → Res Bytes
  recv : Next → Res Bytes

/-- `mpc-net/src/multi.rs:395-415`: `LocalTestNet` (`MpcNetConnection`) uses `send_stream` and `recv_stream`. -/
def localTransport : Transport := ⟨sendStream, recvStream⟩

/-- `mpc-net/src/prod.rs:313-349`: `ProdNet` wraps messages into packets. -/
def prodTransport : Transport := ⟨prodSend, prodRecv⟩

/-- A state of `n` parties; the streams are indexed as the queues of `Net`. -/
structure ByteNet (n : Nat) (α : Type) where
  procs : Fin n → Proc α
  chans : Nat × Nat × Sid → ByteChan

/-- The start of a protocol: nothing written. -/
def ByteNet.init {n : Nat} {α : Type} (procs : Fin n → Proc α) : ByteNet n α := ⟨procs, fun _ => ⟨[], Framed.new⟩⟩

/-- Program `p` waits for a message of party `frm` on stream `sid`. -/
def Proc.Waits {α : Type} (p : Proc α) (frm : Nat) (sid : Sid) : Prop := ∃ b p', LStep p (.recv frm sid b) p'

/-- One step of the network on bytes. -/
inductive BStep {n : Nat} {α : Type} (T : Transport) : ByteNet n α → ByteNet n α → Prop where
  /-- a step inside one party -/
  | inner (procs : Fin n → Proc α) (C : Nat × Nat × Sid → ByteChan) (i : Fin n) (a : Act) (p' : Proc α) (ha : a = .tau ∨ a = .abort)
      (h : LStep (procs i) a p') : BStep T ⟨procs, C⟩ ⟨Function.update procs i p', C⟩
  /-- a message is written -/
  | send (procs : Fin n → Proc α) (C : Nat × Nat × Sid → ByteChan) (i : Fin n) (dst : Nat) (sid : Sid) (b out : Bytes) (p' : Proc α)
      (h : LStep (procs i) (.send dst sid b) p') (ho : T.send (C (i, dst, sid)).out b = .ok out) :
      BStep T ⟨procs, C⟩ ⟨Function.update procs i p', Function.update C (i, dst, sid) ⟨out, (C (i, dst, sid)).fr⟩⟩
  /-- the codec refuses the message: something in the party fails -/
  | sendFail (procs : Fin n → Proc α) (C : Nat × Nat × Sid → ByteChan) (i : Fin n) (dst : Nat) (sid : Sid) (b : Bytes) (p' p'' : Proc α)
      (e : Fault) (h : LStep (procs i) (.send dst sid b) p') (ho : T.send (C (i, dst, sid)).out b = .error e)
      (hf : LStep (procs i) .fault p'') : BStep T ⟨procs, C⟩ ⟨Function.update procs i p'', C⟩
  /-- the `Framed` of a waiting party needs more bytes and reads some of those that were written -/
  | read (procs : Fin n → Proc α) (C : Nat × Nat × Sid → ByteChan) (i : Fin n) (frm : Nat) (sid : Sid) (st : DecodeState) (buf c rest : Bytes)
      (hw : (procs i).Waits frm sid) (hd : decodeFrame (C (frm, i, sid)).fr.st (C (frm, i, sid)).fr.buf = .need st buf) (hc : c ≠ [])
      (ho : (C (frm, i, sid)).out = c ++ rest) : BStep T ⟨procs, C⟩ ⟨procs, Function.update C (frm, i, sid) ⟨rest, ⟨st, buf ++ c⟩⟩⟩
  /-- it has a frame: the party receives the message -/
  | recv (procs : Fin n → Proc α) (C : Nat × Nat × Sid → ByteChan) (i : Fin n) (frm : Nat) (sid : Sid) (f buf b : Bytes) (p' : Proc α)
      (hd : decodeFrame (C (frm, i, sid)).fr.st (C (frm, i, sid)).fr.buf = .frame f buf) (hb : T.recv (.frame f) = .ok b)
      (h : LStep (procs i) (.recv frm sid b) p') :
      BStep T ⟨procs, C⟩ ⟨Function.update procs i p', Function.update C (frm, i, sid) ⟨(C (frm, i, sid)).out, ⟨.head, buf⟩⟩⟩
  /-- it has a frame that is no message: `recv_from` fails -/
  | recvFail (procs : Fin n → Proc α) (C : Nat × Nat × Sid → ByteChan) (i : Fin n) (frm : Nat) (sid : Sid) (f buf : Bytes) (p'' : Proc α) (e : Fault)
      (hw : (procs i).Waits frm sid) (hd : decodeFrame (C (frm, i, sid)).fr.st (C (frm, i, sid)).fr.buf = .frame f buf)
      (hb : T.recv (.frame f) = .error e) (hf : LStep (procs i) .fault p'') :
      BStep T ⟨procs, C⟩ ⟨Function.update procs i p'', Function.update C (frm, i, sid) ⟨(C (frm, i, sid)).out, ⟨.head, buf⟩⟩⟩
  /-- the bytes are no frame: `recv_from` fails -/
  | decodeFail (procs : Fin n → Proc α) (C : Nat × Nat × Sid → ByteChan) (i : Fin n) (frm : Nat) (sid : Sid) (p'' : Proc α)
      (hw : (procs i).Waits frm sid) (hd : decodeFrame (C (frm, i, sid)).fr.st (C (frm, i, sid)).fr.buf = .error)
      (hf : LStep (procs i) .fault p'') : BStep T ⟨procs, C⟩ ⟨Function.update procs i p'', C⟩

/-- `k` steps of the network on bytes. -/
inductive BSteps {n : Nat} {α : Type} (T : Transport) : Nat → ByteNet n α → ByteNet n α → Prop where
  | refl (c : ByteNet n α) : BSteps T 0 c c
  | step {k : Nat} {c c' c'' : ByteNet n α} (hs : BSteps T k c c') (h : BStep T c' c'') : BSteps T (k + 1) c c''

end ZkSaas
