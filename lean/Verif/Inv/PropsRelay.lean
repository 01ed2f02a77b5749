import Verif.Inv.Props
import Verif.Inv.Scenarios

/-!
# The inventory manager: peers that do not want transactions
-/

set_option autoImplicit false

namespace Verif.Inv
open Verif.Tx

/-- No transaction was pending when the peer connected last. -/
def JoinedIdle (a : Nat) : Hist → Prop
  | [] => True
  | (op, _) :: h =>
    match op with
    | .negotiated b _ _ _ => if b = a then ∀ w, pending h w = none else JoinedIdle a h
    | _ => JoinedIdle a h

theorem queued_relay {a w : Nat} : ∀ {h : Hist}, Queued a w h → JoinedIdle a h → ∃ f, connected a h = some f ∧ f.relay = true
  | [], q, _ => q.elim
  | (op, outs) :: h, q, i => by
    cases op with
    | announce t =>
      rcases q with q | ⟨-, q⟩
      · exact queued_relay (h := h) q i
      · exact q
    | reverted hs =>
      rcases q with q | ⟨-, q⟩
      · exact queued_relay (h := h) q i
      · exact q
    | negotiated b n r x =>
      by_cases hb : b = a
      · simp only [Queued, JoinedIdle, hb, if_true] at q i
        exact absurd (i w) q
      · simp only [Queued, JoinedIdle, hb, if_false] at q i
        simpa only [connected, hb, if_false] using queued_relay q i
    | disconnected b =>
      simp only [Queued] at q
      simpa only [connected, q.1, if_false] using queued_relay (h := h) q.2 i
    | timer env now height =>
      simp only [Queued] at q
      simpa only [connected, q.1, if_false] using queued_relay (h := h) q.2 i
    | getdata b items => exact queued_relay (h := h) q.1 i
    | block b k => exact queued_relay (h := h) q.1 i
    | getBlock x => exact queued_relay (h := h) q i

/-- **C101.** Transactions are only announced to peers that want them.  (Missing: peers that connected while transactions were pending; see
`Scenario.C101_unwanted`, where the claim is false.) -/
theorem C101_relay_partial {c : Bool} {h : Hist} {m m' : Mgr} {op : Op} (r : Run c h m) (l : op.Legal) (e : { m with out := [] }.step c op = .ok m')
    {a : Nat} {bw : Bool} {ids : List Nat} (o : Out.inv a bw ids ∈ m'.out) (hi : JoinedIdle a h) : ∃ f, connected a h = some f ∧ f.relay = true := by
  obtain ⟨env, now, height, rfl⟩ := out_from r l e o
  obtain ⟨⟨w, q⟩, -⟩ := (C49_announced r l e a).1 ⟨bw, ids, o⟩
  exact queued_relay q hi

namespace Scenario

/-- C101: peer 2, which does not want transactions, and peer 1 are connected when a transaction is submitted; it is announced to peer 1. -/
example : Run true (hist true [peer2, peer1, .announce t1]) (state true [peer2, peer1, .announce t1]) ∧
    JoinedIdle 1 (hist true [peer2, peer1, .announce t1]) ∧
    ∃ m', { state true [peer2, peer1, .announce t1] with out := [] }.step true (tick 100000 3) = .ok m' ∧ m'.out = [.timer 30000, .inv 1 true [11], .timer 60000] :=
  ⟨run (by legal_ops) (by decide), by intro w; rfl, _, rfl, by decide⟩

/-- **C101 fails**: a transaction is submitted, then peer 2 connects, which does not want transactions.  The transaction is announced to it. -/
theorem C101_unwanted : ∃ h m m', Run true h m ∧ (∃ f, connected 2 h = some f ∧ f.relay = false) ∧
    { m with out := [] }.step true (tick 100000 3) = .ok m' ∧ Out.inv 2 false [10] ∈ m'.out :=
  ⟨_, _, _, run (ops := [.announce t1, peer2]) (by legal_ops) (by decide), ⟨⟨true, false, false⟩, by decide⟩, rfl, by decide⟩

end Scenario

end Verif.Inv
