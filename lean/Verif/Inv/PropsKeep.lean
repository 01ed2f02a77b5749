import Verif.Inv.Keep
import Verif.Inv.Scenarios

/-!
# C129: blocks and transactions kept by the inventory manager
-/

set_option autoImplicit false

namespace Verif.Inv
open Verif.Tx

variable {c : Bool} {h : Hist} {m m' : Mgr}

theorem submitted_length : ∀ (h : Hist), (submitted h).length = (h.map (fun x => x.1.submits)).sum
  | [] => rfl
  | (op, _) :: h => by
    have := submitted_length h
    rw [List.map_cons, List.sum_cons, ← this]
    cases op <;> first | exact (Nat.zero_add _).symm | exact Nat.add_comm _ 1

theorem run_count (r : Run c h m) : m.held ≤ askedFor h ∧ m.ledger ≤ (submitted h).length := by
  induction r with
  | start => exact ⟨Nat.le_refl _, Nat.le_refl _⟩
  | @step h m m' op r l e ih =>
    have := step_keeps e
    rw [submitted_length] at ih ⊢
    simp only [askedFor, List.map_cons, List.sum_cons] at ih ⊢
    omega

/-- **C129.** Whatever blocks peers send: those that are kept were asked for, there are at most as many of them as requests, and together with those still to be received. -/
theorem C129_blocks (r : Run c h m) : m.held ≤ askedFor h ∧ ∀ k b, m.received.get k = some b → WasAsked b.hash h := by
  refine ⟨(run_count r).1, fun k b hb => ?_⟩
  have s := run_sync r
  exact waiting_asked ((s.received k b).1 hb)

/-- **C129.** What peers send does not make the client keep more blocks or transactions. -/
theorem C129_messages {op : Op} (hop : (∃ a is, op = .getdata a is) ∨ ∃ b k, op = .block b k) (e : { m with out := [] }.step c op = .ok m') : m'.held ≤ m.held ∧ m'.ledger ≤ m.ledger := by
  have h := step_keeps e
  rcases hop with ⟨a, is, rfl⟩ | ⟨b, k, rfl⟩ <;> exact h

/-- **C129.** There are at most as many transactions, pending or confirmed, as were submitted, with repetitions. -/
theorem C129_transactions (r : Run c h m) : m.ledger ≤ (submitted h).length := (run_count r).2

namespace Scenario

/-- Two blocks were asked for; one was received and waits for the other; a third that nobody asked for is not kept. -/
example : (state true waiting).held = 2 ∧ askedFor (hist true waiting) = 2 ∧ (state true waiting).received.keys = [6] ∧
    ((state true (waiting ++ [.block blockF (some 7)])).held = 2) ∧ WasAsked 501 (hist true waiting) := by
  refine ⟨by decide +kernel, by decide +kernel, by decide +kernel, by decide +kernel, ?_⟩
  have hg : (state true waiting).received.get 6 = some blockB := by decide +kernel
  exact (C129_blocks (run (c := true) (ops := waiting) (by simp [waiting, Op.Legal, env_legal]) (by decide +kernel))).2 6 blockB hg

/-- Two transactions, one of which is confirmed. -/
example : (state true confirmed).ledger = (submitted (hist true confirmed)).length ∧ (state true confirmed).pool.length < (state true confirmed).ledger := by decide +kernel

end Scenario

end Verif.Inv
