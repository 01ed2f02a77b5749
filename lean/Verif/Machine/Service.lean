import Verif.Machine.Reactor
import Verif.Io.Stream

/-!
# The client's service: `client/src/service.rs`

The state machine with a decoder for each connection: the bytes that peers send are cut into messages, and these are given to the state machine.  What the
`bitcoin` crate makes of bytes is a parameter (`Codec`).
-/

set_option autoImplicit false

namespace Verif.Machine
open Verif.Addr (Sock)
open Verif.Chain (Header)
open Verif.Peer (Link Disc)
open Verif.Io (Byte Parse Decoded decodeNext)

/-- `RawNetworkMessage` of the `bitcoin` crate: how it is read from bytes (`encode::deserialize_partial`), whether its magic number is that of our network, and what
it says.  In this model a message with headers also says what the environment will decide while each of them is imported. -/
structure Codec (W E : Type) where
  parse : List Byte → Parse W E
  magicOk : W → Bool
  msg : W → (Nat → Chain.Env) → Msg

/-- What the environment decides while a message is handled; the messages of a peer are counted. -/
abbrev Feed := Nat → Env × (Nat → Chain.Env)

/-- `Service` (service.rs:19-22). -/
structure Service where
  inboxes : AMap Sock (List Byte)
  machine : State

section
variable {W E : Type} (cfg : Cfg) (c : Codec W E)

/-- `StateMachine::disconnect` for `DecodeError` (fsm.rs:557-559, service.rs:110-111).  The state machine does with it what it does when the magic number is wrong, but for the
reason it gives, which here is the same. -/
def State.undecodable (e : Env) (s : State) (a : Sock) : Res Unit State := s.step cfg e (.message a false .other)

/-- The loop of `message_received` (service.rs:102-116), with the number of messages handled.  `err`: the given number of rounds did not suffice (in the code there is no
bound). -/
def Service.loop (a : Sock) (es : Feed) : Nat → Nat → List Byte → State → Res Unit (Nat × List Byte × State)
  | 0, _, _, _ => .err ()
  | fuel + 1, k, inbox, s =>
    match decodeNext c.parse inbox with
    | (.some w, inbox) => do
      let s ← s.step cfg (es k).1 (.message a (c.magicOk w) (c.msg w (es k).2))
      Service.loop a es fuel (k + 1) inbox s
    | (.none, inbox) => .ok (k, inbox, s)
    | (.err _, inbox) => do
      let s ← s.undecodable cfg (es k).1 a
      .ok (k, inbox, s)

/-- `message_received` (service.rs:98-120). -/
def Service.receive (es : Feed) (a : Sock) (k : Nat) (bytes : List Byte) (v : Service) : Res Unit (Nat × Service) :=
  match v.inboxes.get a with
  | some inbox => do
    let r ← Service.loop cfg c a es ((inbox ++ bytes).length + 1) k (inbox ++ bytes) v.machine
    .ok (r.1, ⟨v.inboxes.insert a r.2.1, r.2.2⟩)
  | none => .ok (k, v)

/-- `connected` (service.rs:126-129). -/
def Service.connected (e : Env) (a loc : Sock) (link : Link) (v : Service) : Res Unit Service := do
  let s ← v.machine.step cfg e (.connected a loc link)
  .ok ⟨v.inboxes.insert a [], s⟩

/-- `disconnected` (service.rs:131-134). -/
def Service.disconnected (e : Env) (a : Sock) (d : Disc) (v : Service) : Res Unit Service := do
  let s ← v.machine.step cfg e (.disconnected a d)
  .ok ⟨v.inboxes.erase a, s⟩

/-- What is passed on as it is: commands, ticks, timers, outputs (service.rs:69-96, 122-124, 137-162). -/
def Service.pass (e : Env) (i : Input) (v : Service) : Res Unit Service := do
  let s ← v.machine.step cfg e i
  .ok ⟨v.inboxes, s⟩

end

end Verif.Machine
