import Verif.Node.Keep
import Verif.Node.Scenarios
import Verif.Chain.PropsKeep

/-!
# C129: what the node keeps
-/

set_option autoImplicit false

namespace Verif.Node
open Verif.Tx (Block Transaction)
open Verif.Chain (Header)

section
variable {cfg : Cfg} {U : Header → Prop} {fail : Bool} {t0 : Chain.State} {g : Header} {h : Hist} {n n' : Fsm}
variable {P : Hist → Fsm → Input → Fsm → List Out → Prop}

/-- **C129.** Whatever peers send: at most as many blocks are kept (or to be received) as the user asked for and as filters were found to match, and each of them was asked for or its filter found to match. -/
theorem C129_node_blocks (r : Run cfg U fail P t0 h n) :
    n.inv.received.length + n.inv.remaining.length ≤ (userBlocks h).length + (found (outputs h)).length ∧
    ∀ k b, n.inv.received.get k = some b → b.hash ∈ userBlocks h ∨ ∃ height, (height, b.hash) ∈ found (outputs h) := by
  obtain ⟨h1, -, h3⟩ := run_adds r
  refine ⟨h1, fun k b hb => ?_⟩
  rcases h3 b.hash (.inr ⟨k, b, hb, rfl⟩) with h | h
  · exact .inl h
  · obtain ⟨⟨i, x⟩, hm, rfl⟩ := List.mem_map.1 h
    exact .inr ⟨i, hm⟩

/-- **C129.** Whatever peers send: at most as many transactions are kept, pending or confirmed, as the user submitted. -/
theorem C129_node_transactions (r : Run cfg U fail P t0 h n) : n.inv.pool.length + (n.inv.confirmed.map (fun p => p.2.length)).sum ≤ (userTxs h).length := (run_adds r).2.1

/-- **C129.** Every header that the node keeps was received and has proof of work, and none is kept twice. -/
theorem C129_node_headers (c : Ctx cfg U fail t0 g) (r : Run cfg U fail P t0 h n) :
    (∀ x ∈ n.tree.kept, U x ∧ cfg.sync.chain.hashInt (cfg.sync.chain.hash x) ≤ cfg.sync.chain.target x.bits) ∧ (n.tree.kept.map cfg.sync.chain.hash).Nodup := by
  obtain ⟨hs, hr⟩ := (run_parts r).sync
  have hreach := Sync.run_reach c.start hr
  exact ⟨fun x hx => Chain.C129_headers_worked c.acyclic c.genesis hreach hx, Chain.C129_headers_once c.acyclic c.genesis hreach⟩

end

namespace Scenario
open Verif.Sync.Scenario (U fresh)
open Verif.Chain.Scenario (g)

/-- Filters of two blocks matched; the later block was received first and waits for the other one. -/
def waitingCmds : List Cmd := before ++ [.rescan (.included 1) .unbounded [1]] ++ [.cfilter 1 12 [4, 5], .cfilter 1 11 [1], .cfilter 1 13 [1]] ++ take 10 ++ [.block block2, .block block3]

theorem waiting_run : Run conf U false Calm (fresh true) (hist true waitingCmds) (state true waitingCmds) := run_calm (by decide +kernel) (by decide +kernel)

example : (state true waitingCmds).inv.received.keys = [3] ∧ (state true waitingCmds).inv.remaining.keys = [11] ∧ found (outputs (hist true waitingCmds)) = [(1, 11), (3, 13)] ∧
    2 ≤ (userBlocks (hist true waitingCmds)).length + (found (outputs (hist true waitingCmds))).length ∧ ∃ height, (height, 13) ∈ found (outputs (hist true waitingCmds)) := by
  have k1 : (state true waitingCmds).inv.received.length + (state true waitingCmds).inv.remaining.length = 2 := by decide +kernel
  have k2 : userBlocks (hist true waitingCmds) = [] := by decide +kernel
  have k3 : (state true waitingCmds).inv.received.get 3 = some block3 := by decide +kernel
  obtain ⟨h1, h2⟩ := C129_node_blocks waiting_run
  refine ⟨by decide +kernel, by decide +kernel, by decide +kernel, by rw [k1] at h1; exact h1, ?_⟩
  rcases h2 3 block3 k3 with h | h
  · rw [k2] at h; cases h
  · exact h

example : (state true waitingCmds).tree.kept.map conf.sync.chain.hash = [11, 12, 13] ∧ ((state true waitingCmds).tree.kept.map conf.sync.chain.hash).Nodup :=
  ⟨by decide +kernel, (C129_node_headers ctx waiting_run).2⟩

end Scenario

end Verif.Node
