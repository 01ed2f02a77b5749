import Verif.Machine.PropsService
import Verif.Machine.Scenarios

/-!
# From bytes to the whole client: a concrete execution
-/

set_option autoImplicit false

namespace Verif.Machine.Scenario.Bytes
open Verif.Addr (Sock)
open Verif.Peer.Scenario (a b loc)
open Verif.Io (Byte Parse Stable Frames Decodes)
open Verif.Io.Example (gram enc)
open Verif.Node.Crash (U)

/-- Messages of a byte: the version, its acknowledgement, a ping, two headers, two blocks.  Those that begin with 8 are of another network. -/
def codec : Codec (List Byte) Nat where
  parse := gram
  magicOk w := w.head? != some 8
  msg w f := match w with
    | [1] => .version version
    | [2] => .verack
    | [3] => .ping 5
    | [4] => .headers ([Chain.Scenario.a1, Chain.Scenario.a2].map fun x => (x, f 0))
    | [5] => .block Node.Scenario.block1
    | [6] => .block ⟨12, [Node.Crash.forged]⟩
    | _ => .other

def decisions : Feed := fun _ => (env, fun _ => Chain.Scenario.e)

theorem decisions_ok (x : Sock) (buf : List Byte) : FeedOk codec U false decisions x buf := by
  refine ⟨fun _ _ _ w _ k => ?_, fun _ => legal rfl⟩
  refine ⟨Sync.Scenario.env_legal, Inv.Scenario.env_legal, cbf_fair, ?_, fun _ hc => (by cases hc), fun _ => List.Perm.refl _, Addr.Scenario.fair, by simp [decisions, env],
    fun _ => List.Perm.refl _⟩
  intro b ok hs he p hp
  simp only [Input.message.injEq] at he
  obtain ⟨-, -, he⟩ := he
  simp only [codec] at he
  split at he <;> cases he
  obtain ⟨y, hy, rfl⟩ := List.mem_map.1 hp
  refine ⟨?_, Chain.Scenario.eOk false⟩
  have : ∀ y ∈ [Chain.Scenario.a1, Chain.Scenario.a2], U y := by decide
  exact this y hy

theorem stable : Stable codec.parse := by
  show Stable gram
  exact Io.frame_stable _ _ _

/-- What happens, without the results. -/
def happen (v : Service) : Happens → Option Service
  | .connected x l link => match v.connected conf env x l link with | .ok v => some v | _ => none
  | .disconnected x d => match v.disconnected conf env x d with | .ok v => some v | _ => none
  | .bytes x bs => match v.receive conf codec decisions x 0 bs with | .ok r => some r.2 | _ => none
  | .other i => if i.isOther && Input.ok i then match v.pass conf env i with | .ok v => some v | _ => none else none

def happens (v : Service) : List Happens → Option Service
  | [] => some v
  | x :: l => (happens v l).bind fun v => happen v x

theorem happen_run {l : List Happens} {x : Happens} {v v' : Service} (r : Service.Run conf codec U false setup l v) (h : happen v x = some v') :
    Service.Run conf codec U false setup (x :: l) v' := by
  cases x with
  | connected x lo link =>
    simp only [happen] at h
    cases hs : v.connected conf env x lo link with
    | ok y => simp only [hs, Option.some.injEq] at h; subst h; exact .connected r env x lo link (legal rfl) hs
    | err y => simp [hs] at h
    | panic => simp [hs] at h
  | disconnected x d =>
    simp only [happen] at h
    cases hs : v.disconnected conf env x d with
    | ok y => simp only [hs, Option.some.injEq] at h; subst h; exact .disconnected r env x d (legal rfl) hs
    | err y => simp [hs] at h
    | panic => simp [hs] at h
  | bytes x bs =>
    simp only [happen] at h
    cases hs : v.receive conf codec decisions x 0 bs with
    | ok y => simp only [hs, Option.some.injEq] at h; subst h; exact .bytes r decisions x bs (fun _ _ => decisions_ok _ _) hs
    | err y => simp [hs] at h
    | panic => simp [hs] at h
  | other i =>
    simp only [happen] at h
    split at h
    · rename_i hi
      simp only [Bool.and_eq_true] at hi
      cases hs : v.pass conf env i with
      | ok y => simp only [hs, Option.some.injEq] at h; subst h; exact .other r env i hi.1 (legal hi.2) hs
      | err y => simp [hs] at h
      | panic => simp [hs] at h
    · cases h

/-- The client, after what happens (most recent first). -/
def client (l : List Happens) : Option Service := begun.bind fun s => happens ⟨[], s⟩ l

theorem client_run {s : State} (hb : begun = some s) : ∀ (l : List Happens) (v : Service), happens ⟨[], s⟩ l = some v → Service.Run conf codec U false setup l v
  | [], v, h => by
    simp only [happens, Option.some.injEq] at h
    subst h
    cases begins hb with
    | mk f n now e ea fa nd hm lg hs => exact .start f n now e ea fa nd hm lg hs
  | x :: l, v, h => by
    simp only [happens] at h
    obtain ⟨v1, h1, h2⟩ := Option.bind_eq_some_iff.1 h
    exact happen_run (client_run hb l v1 h1) h2

/-- A peer connects to us.  It sends its version and a part of the acknowledgement; then the rest, and a part of a ping.  Another peer connects in between. -/
def greet : List Happens :=
  [.bytes a ((enc [2]).drop 10 ++ (enc [3]).take 7), .connected b loc .inbound, .bytes a (enc [1] ++ (enc [2]).take 10), .other (.tick 1700000001000), .connected a loc .inbound]

/-- The outputs are taken, and the rest of the ping comes, with bytes that cannot be read. -/
def garble : List Happens := [.bytes a ((enc [3]).drop 7 ++ enc [9, 9])] ++ List.replicate 20 (.other .next) ++ greet

/-- Connected, negotiated, the reply to the ping, asked to go, the bytes that wait. -/
def view (v : Service) : Bool × Bool × Bool × Bool × Option Nat :=
  (v.machine.peer.isConnected a, v.machine.qPeer.any (fun o => match o with | .evNegotiated x _ => x == a | _ => false),
    v.machine.ping.out.any (fun o => match o with | .pong _ _ => true | _ => false),
    v.machine.qPeer.any (fun o => match o with | .disconnect x _ => x == a | _ => false), (v.inboxes.get a).map List.length)

theorem greet_seen : (client greet).map view = some (true, true, false, false, some 7) := by decide +kernel

theorem garble_seen : (client garble).map view = some (false, false, true, true, some 26) := by decide +kernel

/-- The peer sends two headers, in two pieces, and we ask for the blocks. -/
def ask : List Happens :=
  [.other (.requestBlock 12), .other (.requestBlock 11)] ++ List.replicate 20 (.other .next) ++ [.bytes a ((enc [4]).drop 3), .bytes a ((enc [3]).drop 7 ++ (enc [4]).take 3)] ++
    List.replicate 20 (.other .next) ++ greet

theorem ask_seen : ((client ask).map fun v => (v.machine.node.tree.height, match v.receive conf codec decisions a 0 (enc [5] ++ enc [6]) with | .panic => true | _ => false)) =
    some (2, true) := by decide +kernel

theorem release : conf.peer.Release := ⟨rfl, by decide⟩

/-- C139: the hypotheses are met when the peer has sent three messages in three pieces and something that cannot be read; it heard all of that. -/
example : ∃ v, Service.Run conf codec U false setup garble v ∧ Stable codec.parse ∧ codec.parse [] = .eof ∧
    (∃ is h, Run conf U false anyStep setup is h v.machine ∧ Understood codec (enc [1] ++ enc [2] ++ enc [3] ++ enc [9, 9]) (v.inboxes.get a) (heardFrom a is)) ∧
    Decodes codec.parse (enc [1] ++ enc [2] ++ enc [3] ++ enc [9, 9]) [[1], [2], [3]] (enc [9, 9]) ∧ codec.parse (enc [9, 9]) = .bad 9 := by
  obtain ⟨v, h1, -⟩ := Option.map_eq_some_iff.1 garble_seen
  obtain ⟨s, h2, h3⟩ := Option.bind_eq_some_iff.1 h1
  have r := client_run h2 _ _ h3
  obtain ⟨is, h, g1, -, g3⟩ := C139_heard number_injective stable rfl r
  refine ⟨v, r, stable, rfl, ⟨is, h, g1, g3 a _ (by decide)⟩, ⟨?_, ?_⟩, by decide⟩
  · exact .cons (m := [1]) (n := 25) (by decide) (.cons (m := [2]) (n := 25) (by decide) (.cons (m := [3]) (n := 25) (by decide) (.nil _)))
  · have : codec.parse (enc [9, 9]) = .bad 9 := by decide
    intro m n; rw [this]; exact nofun

/-- C139: of a connected peer, bytes that cannot be read are received. -/
example : ∃ (v : Service) (is : _) (h : _) (inbox : _) (k' : Nat) (v' : Service) (rest : List Byte), Run conf U false anyStep setup is h v.machine ∧ v.inboxes.get a = some inbox ∧ FeedOk codec U false decisions a (inbox ++ ((enc [3]).drop 7 ++ enc [9, 9])) ∧
    v.receive conf codec decisions a 0 ((enc [3]).drop 7 ++ enc [9, 9]) = .ok (k', v') ∧ v.machine.peer.isConnected a = true ∧ v'.inboxes.get a = some rest ∧
    (∃ e, codec.parse rest = .bad e) ∧ v'.machine.peer.isConnected a = false := by
  have hk : ((client greet).bind fun v => match v.receive conf codec decisions a 0 ((enc [3]).drop 7 ++ enc [9, 9]) with
      | .ok r => some (v.inboxes.get a, v.machine.peer.isConnected a, r.2.inboxes.get a, r.2.machine.peer.isConnected a)
      | _ => none) = some (some ((enc [3]).take 7), true, some (enc [9, 9]), false) := by decide +kernel
  obtain ⟨v, h1, h2⟩ := Option.bind_eq_some_iff.1 hk
  obtain ⟨s, h3, h4⟩ := Option.bind_eq_some_iff.1 h1
  obtain ⟨is, h, g1, -, -⟩ := C139_heard number_injective stable rfl (client_run h3 _ _ h4)
  cases hr : v.receive conf codec decisions a 0 ((enc [3]).drop 7 ++ enc [9, 9]) with
  | ok r =>
    simp only [hr, Option.some.injEq, Prod.mk.injEq] at h2
    exact ⟨v, is, h, _, r.1, r.2, enc [9, 9], g1, h2.1, decisions_ok _ _, hr, h2.2.1, h2.2.2.1, ⟨9, by decide⟩, h2.2.2.2⟩
  | err x => simp [hr] at h2
  | panic => simp [hr] at h2

/-- C139: bytes that crash the client exist.  The second of the messages in them does it, a block that was asked for, with a transaction that pays out more than it takes in. -/
example : ∃ (v : Service) (is : _) (h : _) (inbox : List Byte), Run conf U false anyStep setup is h v.machine ∧ v.inboxes.get a = some inbox ∧ FeedOk codec U false decisions a (inbox ++ (enc [5] ++ enc [6])) ∧
    v.receive conf codec decisions a 0 (enc [5] ++ enc [6]) = .panic ∧ conf.peer.Release := by
  obtain ⟨v, h1, h2⟩ := Option.map_eq_some_iff.1 ask_seen
  obtain ⟨s, h3, h4⟩ := Option.bind_eq_some_iff.1 h1
  obtain ⟨is, h, g1, g2, -⟩ := C139_heard number_injective stable rfl (client_run h3 _ _ h4)
  have hi : (v.inboxes.get a).isSome = true := by rw [g2 a]; decide
  obtain ⟨inbox, hi⟩ := Option.isSome_iff_exists.1 hi
  refine ⟨v, is, h, inbox, g1, hi, decisions_ok _ _, ?_, release⟩
  cases hr : v.receive conf codec decisions a 0 (enc [5] ++ enc [6]) with
  | ok r => simp [hr] at h2
  | err x => simp [hr] at h2
  | panic => rfl

/-- C139: the bytes of the first message and a half, cut in two ways. -/
example : [enc [1] ++ (enc [2]).take 10, (enc [2]).drop 10].flatten = [enc [1], enc [2]].flatten ∧
    (begun.map fun s => match Service.feed conf codec decisions a [enc [1], enc [2]] 0 ⟨[(a, [])], s⟩ with | .ok r => r.1 | _ => 0) = some 2 := by decide +kernel

end Verif.Machine.Scenario.Bytes
