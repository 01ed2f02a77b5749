import Verif.Base.Map

/-!
# Model: from byte chunks to messages

`p2p/src/stream.rs` (the decoder) and `client/src/service.rs` (one decoder per connected peer).

`encode::deserialize_partial` belongs to the `bitcoin` crate, which is not part of the repository: it is the parameter
`parse`.  Its result on a buffer is a message and the number of bytes it took, an unexpected end of input, or another error.
-/

set_option autoImplicit false

namespace Verif.Io

/-- A byte. -/
abbrev Byte := Nat

/-- Result of `encode::deserialize_partial`: `Ok((msg, index))`, `Err(Io(UnexpectedEof))`, any other error
(stream.rs:29-40). -/
inductive Parse (M E : Type) where
  | done (m : M) (n : Nat)
  | eof
  | bad (e : E)
  deriving DecidableEq, Repr

/-- Result of `Decoder::decode_next`: `Ok(Some(msg))`, `Ok(None)`, `Err(err)` (stream.rs:28). -/
inductive Decoded (M E : Type) where
  | some (m : M)
  | none
  | err (e : E)
  deriving DecidableEq, Repr

/-- What the service tells the protocol state machine about a peer (service.rs:104, 110-111): a message it sent, or that it is
to be disconnected for a decoding error. -/
inductive Call (M E : Type) where
  | message (a : Nat) (m : M)
  | disconnect (a : Nat) (e : E)
  deriving DecidableEq, Repr

section
variable {M E : Type} (parse : List Byte → Parse M E)

/-- `Decoder::input` (stream.rs:23-25). -/
def input (unparsed bytes : List Byte) : List Byte := unparsed ++ bytes

/-- `Decoder::decode_next` (stream.rs:28-41).  Only the bytes of the decoded message are removed. -/
def decodeNext (unparsed : List Byte) : Decoded M E × List Byte :=
  match parse unparsed with
  | .done m n => (.some m, unparsed.drop n)
  | .eof => (.none, unparsed)
  | .bad e => (.err e, unparsed)

/-- The loop of `Service::message_received` (service.rs:102-116).  The code has no bound on the number of iterations; `none` is
the case that the given number of iterations did not suffice. -/
def decodeLoop (a : Nat) : Nat → List Byte → List (Call M E) → Option (List Byte × List (Call M E))
  | 0, _, _ => none
  | fuel + 1, inbox, calls =>
    match decodeNext parse inbox with
    | (.some m, inbox') => decodeLoop a fuel inbox' (calls ++ [.message a m])
    | (.none, inbox') => some (inbox', calls)
    | (.err e, inbox') => some (inbox', calls ++ [.disconnect a e])

/-- `Service` (service.rs:19-22): the decoder of each peer, and the calls made to the protocol state machine, oldest first (the
state machine itself is not part of this model).  A diverging loop is recorded in `hung`. -/
structure Service (M E : Type) where
  inboxes : AMap Nat (List Byte)
  calls : List (Call M E)
  hung : Bool := false

/-- Nothing connected yet (service.rs:28-57). -/
def Service.new : Service M E := { inboxes := [], calls := [] }

/-- `Service::connected` (service.rs:126-129): a fresh decoder, replacing an old one. -/
def Service.connected (s : Service M E) (a : Nat) : Service M E := { s with inboxes := s.inboxes.insert a [] }

/-- `Service::disconnected` (service.rs:131-134). -/
def Service.disconnected (s : Service M E) (a : Nat) : Service M E := { s with inboxes := s.inboxes.erase a }

/-- `Service::message_received` (service.rs:98-120).  The loop is given one iteration more than there are bytes. -/
def Service.messageReceived (s : Service M E) (a : Nat) (bytes : List Byte) : Service M E :=
  match s.inboxes.get a with
  | some inbox =>
    let buf := input inbox bytes
    match decodeLoop parse a (buf.length + 1) buf s.calls with
    | some (rest, calls) => { s with inboxes := s.inboxes.insert a rest, calls := calls }
    | none => { s with hung := true }
  | none => s

end

/-! ## The message grammar of the bitcoin network

`RawNetworkMessage::consensus_decode` of the `bitcoin` crate, from its documentation: 4 bytes magic, 12 bytes command, 4 bytes
payload length (little endian), 4 bytes checksum, the payload; a wrong checksum is an error; then the payload is decoded on its
own, and an unexpected end of the payload is reported as an unexpected end of input. -/

/-- Little-endian number. -/
def leNat : List Byte → Nat
  | [] => 0
  | b :: l => b + 256 * leNat l

/-- What decoding the payload of a complete frame gives. -/
inductive Payload (M E : Type) where
  | ok (m : M)
  | eof
  | bad (e : E)
  deriving DecidableEq, Repr

/-- The frame grammar, for any checksum function and payload decoder. -/
def frame {M E : Type} (checksum : List Byte → List Byte) (invalidChecksum : E)
    (payload : (head body : List Byte) → Payload M E) (buf : List Byte) : Parse M E :=
  if buf.length < 24 then .eof
  else
    let len := leNat ((buf.drop 16).take 4)
    if buf.length < 24 + len then .eof
    else
      let body := (buf.drop 24).take len
      if checksum body ≠ (buf.drop 20).take 4 then .bad invalidChecksum
      else
        match payload (buf.take 16) body with
        | .ok m => .done m (24 + len)
        | .eof => .eof
        | .bad e => .bad e

end Verif.Io
