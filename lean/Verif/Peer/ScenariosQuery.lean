import Verif.Peer.PropsQuery
import Verif.Peer.Scenarios

/-!
# C118: examples
-/

set_option autoImplicit false

namespace Verif.Peer.Scenario

open Verif.Addr (Sock Ip Domain NetAddr Source has isLocal domainOf sadd)

/-- The handshake with `a` is complete. -/
def shaken : List Op := shake ++ [.message a true 100 true .verack]

theorem shaken_run : Run cfg [] shaken.reverse (after cfg shaken) := run (legal_of (by decide)) (by decide)

def viewA : View :=
  { addr := a, loc := loc, link := .outbound, since := 1000000, height := 120, services := (ver 5 120).services,
    agent := (ver 5 120).agent, relay := (ver 5 120).relay }

/-- C118 is not empty: `a` is listed with what its version message said, and is reached. -/
example : (after cfg shaken).getPeers 1 = [viewA] ∧ (after cfg shaken).broadcast (fun v => v.height = 120) = [a] := by decide

example : a ∈ (after cfg shaken).broadcast (fun v => v.height = 120) :=
  C118_reached shaken_run (services := 1) (v := viewA) (by decide) (by decide)

/-- Services that were not announced are not found; a predicate that refuses is obeyed. -/
example : (after cfg shaken).getPeers 2 = [] ∧ (after cfg shaken).broadcast (fun v => v.link = .inbound) = [] := by decide

/-- **C118 is false in full for broadcasts**: a peer whose handshake is not complete — it has sent its version message, but no `verack` —
is not listed, but the message is sent to it. -/
theorem C118_broadcast_early : ∃ h m, Run cfg [] h m ∧ m.getPeers 0 = [] ∧ m.broadcast (fun _ => true) = [a] ∧
    ∀ n, .evNegotiated a n ∉ m.out :=
  ⟨_, _, shake_run, by decide, by decide, by
    intro n hn
    have : (after cfg shake).out.all (fun o => match o with | .evNegotiated .. => false | _ => true) = true := by decide
    have := List.all_eq_true.1 this _ hn
    simp at this⟩

end Verif.Peer.Scenario
