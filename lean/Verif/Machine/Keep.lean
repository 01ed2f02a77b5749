import Verif.Machine.Runs
import Verif.Node.PropsKeep

/-!
# C129: what the whole state machine keeps of what peers send
-/

set_option autoImplicit false

namespace Verif.Machine
open Verif.Tx (Block Transaction)
open Verif.Chain (Header)

variable {cfg : Cfg} {U : Header → Prop} {fail : Bool} {P : Node.Hist → Node.Fsm → Node.Input → Node.Fsm → List Node.Out → Prop}
variable {z : Setup} {is : List Input} {h : Node.Hist} {s s' : State} {g : Header}

/-- **C129.** Whatever happens to the client: it keeps at most as many blocks as its user asked for and as filters were found to match, and each of them was asked for or its filter found to match. -/
theorem C129_client_blocks (r : Run cfg U fail P z is h s) :
    s.node.inv.received.length + s.node.inv.remaining.length ≤ (Node.userBlocks h).length + (Node.found (Node.outputs h)).length ∧
    ∀ k b, s.node.inv.received.get k = some b → b.hash ∈ Node.userBlocks h ∨ ∃ height, (height, b.hash) ∈ Node.found (Node.outputs h) :=
  Node.C129_node_blocks (run_node r)

/-- **C129.** Whatever happens to the client: it keeps at most as many transactions as its user submitted. -/
theorem C129_client_transactions (r : Run cfg U fail P z is h s) :
    s.node.inv.pool.length + (s.node.inv.confirmed.map (fun p => p.2.length)).sum ≤ (Node.userTxs h).length := Node.C129_node_transactions (run_node r)

/-- **C129.** Whatever happens to the client: every header that it keeps was received and has proof of work, and none is kept twice. -/
theorem C129_client_headers (c : Node.Ctx cfg.node U fail z.tree g) (r : Run cfg U fail P z is h s) :
    (∀ x ∈ s.node.tree.kept, U x ∧ cfg.node.sync.chain.hashInt (cfg.node.sync.chain.hash x) ≤ cfg.node.sync.chain.target x.bits) ∧
    (s.node.tree.kept.map cfg.node.sync.chain.hash).Nodup := Node.C129_node_headers c (run_node r)

end Verif.Machine
