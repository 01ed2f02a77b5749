import Verif.Machine.Runs
import Verif.Node.PropsAnswers

/-!
# C128: the answers of the whole state machine about chain and transactions

The commands read the header tree and the inventory manager only (fsm.rs:643-652, 696-702, 738-741), so the answers are those of the node.
-/

set_option autoImplicit false

namespace Verif.Machine
open Verif.Tx (Block Transaction)
open Verif.Chain (Header totalWork)

variable {cfg : Cfg} {U : Header → Prop} {fail : Bool} {P : Node.Hist → Node.Fsm → Node.Input → Node.Fsm → List Node.Out → Prop}
variable {z : Setup} {is : List Input} {h : Node.Hist} {s s' : State} {g : Header}

/-- **C128.** At every time, all answers of the client about the chain come from one list of headers, which starts with the genesis header and in which each header names the one before
it. -/
theorem C128_client_chain (c : Node.Ctx cfg.node U fail z.tree g) (r : Run cfg U fail P z is h s) :
    ∃ chain : List Header, chain[0]? = some g ∧
      (∀ (i : Nat) (x y : Header), chain[i]? = some x → chain[i + 1]? = some y → y.prev = cfg.node.sync.chain.hash x) ∧
      (∀ i, s.node.getBlockByHeight i = chain[i]?) ∧
      (∀ k i x, s.node.getBlockByHash k = some (i, x) ↔ chain[i]? = some x ∧ cfg.node.sync.chain.hash x = k) ∧
      ∃ tip, chain.getLast? = some tip ∧ s.node.getTip cfg.node = (chain.length - 1, tip, totalWork cfg.node.sync.chain chain) :=
  Node.C128_chain c (run_node r)

/-- **C128.** Whatever happens to the client, the work of its chain does not get less, as long as the header store does not fail. -/
theorem C128_client_work (c : Node.Ctx cfg.node U false z.tree g) (r : Run cfg U false P z is h s) {e : Env} {i : Input} (l : Legal U false e i)
    (hs : s.step cfg e i = .ok s') : (s.node.getTip cfg.node).2.2 ≤ (s'.node.getTip cfg.node).2.2 := by
  have hn := (step_effect hs).node
  cases hj : nodeInput cfg s i with
  | none => simp only [hj] at hn; rw [hn]
  | some j =>
    simp only [hj] at hn
    exact (Node.C128_work c (run_node r) (.step _ (.now _) (node_legal l (nodeInput_batch l hj)) hn)).1

/-- **C128.** The client answers with a transaction exactly if a pending one has the id; of several, with the one with the lowest witness id. -/
theorem C128_client_submitted (r : Run cfg U fail P z is h s) (txid : Nat) (t : Transaction) :
    s.node.getSubmitted txid = some t ↔
      Node.pendingTx h t.wtxid = some t ∧ t.txid = txid ∧ ∀ w t', Node.pendingTx h w = some t' → t'.txid = txid → t.wtxid ≤ w :=
  Node.C128_submitted (run_node r) txid t

end Verif.Machine
