import Verif.Cbf.Model
import Verif.Inv.Model
import Verif.Sync.Model

/-!
# The state machine: `p2p/src/fsm.rs`

The header tree, the sync manager, the inventory manager and the filter manager together, wired as in `fsm.rs`.  Each manager appends its outputs
to its own outbox; `next` takes the first output of the first outbox that is not empty, and if it is an event, all managers are told about it before it
is handed out.  Inputs may come at any time, so events may be waiting in the outboxes while other inputs are handled.

Peer manager, ping manager and address manager are not part of it: the events they tell the others about (a peer has been negotiated, or is gone)
are inputs that may come at any time, as may messages from anybody.  No output of the three managers modelled here changes
those events, except that peers may be disconnected.  Not modelled: hooks, messages with a wrong magic number or of peers that are not connected (all of them only drop
inputs).  Commands that only read: `Answers.lean`.
-/

set_option autoImplicit false

namespace Verif.Node
open Verif.Tx (Block Transaction)

/-- Configuration of the state machine.  Whether overflow panics is said twice: in `sync.chain.checked` for tree and sync manager, in `cbf.checked` for the other
managers. -/
structure Cfg where
  sync : Sync.Cfg
  cbf : Cbf.Params

/-- Outputs of the state machine.  `matched`: the event `BlockMatched`, which carries the block.  (p2p/src/fsm.rs:588-620) -/
inductive Out where
  | sync (o : Sync.Out)
  | inv (o : Inv.Out)
  | cbf (o : Cbf.Out)
  | matched (b : Block) (height : Nat)
  deriving DecidableEq, Repr

/-- `StateMachine` (fsm.rs:334-360).  The outboxes are `qSync`, `qInv` and `qCbf`; `log` is the list of everything that was ever put in one of them. -/
structure Fsm where
  tree : Chain.State
  sync : Sync.Mgr
  inv : Inv.Mgr
  cbf : Cbf.Mgr
  qSync : List Sync.Out
  qInv : List Inv.Out
  qCbf : List Out
  log : List Out
  deriving DecidableEq, Repr

/-- `StateMachine::new` (fsm.rs:467-556), given the header tree and the filter headers. -/
def Fsm.new (t : Chain.State) (f : Cbf.FilterHeaders) (cacheSize : Nat) : Fsm :=
  ⟨t, Sync.Mgr.new, Inv.Mgr.new, Cbf.Mgr.new f cacheSize, [], [], [], []⟩

/-- What the environment decides while an input is handled: the clock, random choices, failures of the stores. -/
structure Env where
  sync : Sync.Env
  inv : Inv.Env
  cbf : Cbf.Env

/-- The clock. -/
def Env.now (e : Env) : Nat := e.cbf.now

/-- The tree as the filter manager sees it (`BlockReader`).  (common/src/block/tree.rs:136-210) -/
def view (cfg : Cfg) (t : Chain.State) : Cbf.Tree :=
  ⟨t.chain.map (fun b => cfg.sync.chain.hash b.header), (cfg.sync.chain.checkpoints.map (·.1)).max?⟩

/-- A call of the sync manager.  Its methods return no errors.  (p2p/src/fsm.rs:623-836) -/
def Fsm.callSync (cfg : Cfg) (n : Fsm) (op : Sync.Op) : Res Unit Fsm :=
  match { n.sync with out := [] }.step cfg.sync n.tree op with
  | .ok (m, t) => .ok { n with sync := m, tree := t, qSync := n.qSync ++ m.out, log := n.log ++ m.out.map .sync }
  | _ => .panic

/-- A call of the inventory manager.  (p2p/src/fsm.rs:623-836) -/
def Fsm.callInv (cfg : Cfg) (n : Fsm) (op : Inv.Op) : Res Unit Fsm :=
  match { n.inv with out := [] }.step cfg.cbf.checked op with
  | .ok m => .ok { n with inv := m, qInv := n.qInv ++ m.out, log := n.log ++ m.out.map .inv }
  | _ => .panic

/-- The blocks the filter manager requests from the inventory manager (`blocks.get_block`, cbfmgr.rs:286, and fsm.rs:732). -/
def Fsm.requestBlocks (cfg : Cfg) : List Nat → Fsm → Res Unit Fsm
  | [], n => .ok n
  | h :: hs, n => do
    let n ← n.callInv cfg (.getBlock h)
    Fsm.requestBlocks cfg hs n

/-- The outputs of the filter manager, given the block it was told about (cbfmgr.rs:191-193). -/
def label : Option Block → Cbf.Out → Option Out
  | _, .getBlock _ => none
  | some b, .event (.blockMatched _ height) => some (.matched b height)
  | _, o => some (.cbf o)

/-- The blocks requested.  (p2p/src/fsm.rs:84-96) -/
def requested (l : List Cbf.Out) : List Nat := l.filterMap (fun o => match o with | .getBlock h => some h | _ => none)

/-- A call of the filter manager.  (p2p/src/fsm.rs:623-836) -/
def Fsm.callCbf (cfg : Cfg) (e : Cbf.Env) (b : Option Block) (n : Fsm) (op : Cbf.Op) : Res Unit Fsm :=
  match n.cbf.step cfg.cbf e (view cfg n.tree) op with
  | .ok c =>
    let new := c.out.drop n.cbf.out.length
    Fsm.requestBlocks cfg (requested new)
      { n with cbf := c, qCbf := n.qCbf ++ new.filterMap (label b), log := n.log ++ new.filterMap (label b) }
  | _ => .panic

/-- What can happen to the state machine.  (p2p/src/fsm.rs:623-836) -/
inductive Input where
  | init
  /-- The event `PeerNegotiated`. -/
  | negotiated (a height : Nat) (outbound network filters relay wtxidrelay persistent : Bool)
  /-- The event `PeerDisconnected`. -/
  | disconnected (a : Nat)
  | headers (a : Nat) (hs : List (Chain.Header × Chain.Env))
  | getheaders (a : Nat) (locators : Sync.Locators)
  | invs (a : Nat) (items : List Sync.Item)
  | block (b : Block)
  | getdata (a : Nat) (items : List Inv.Item)
  | cfheaders (a : Nat) (msg : Cbf.CFHeadersMsg)
  | getcfheaders (a filterType start stop : Nat)
  | cfilter (a filterType block : Nat) (f : Cbf.Filter)
  | timer
  | importHeaders (hs : List (Chain.Header × Chain.Env))
  | requestFilters (start stop : Nat)
  | requestBlock (hash : Nat)
  | submit (t : Transaction)
  | rescan (start stop : Cbf.Bound) (watch : List Nat)
  | watch (scripts : List Nat)
  /-- `Iterator::next`: an output is taken. -/
  | next

/-- An event of the sync manager is delivered (`event`, fsm.rs:625-633): filter manager first, then inventory manager. -/
def Fsm.deliverSync (cfg : Cfg) (e : Env) (n : Fsm) : Sync.Out → Res Unit Fsm
  | .disconnected height _ => n.callCbf cfg e.cbf none (.blockDisconnected height)
  | .imported _ _ _ _ reverted => do
    let n ← n.callCbf cfg e.cbf none (.headersImported (reverted.map (·.1)))
    n.callInv cfg (.reverted (reverted.map (·.1)))
  | _ => .ok n

/-- An event of the inventory manager is delivered (`event`, fsm.rs:625-633). -/
def Fsm.deliverInv (cfg : Cfg) (e : Env) (n : Fsm) : Inv.Out → Res Unit Fsm
  | .processed b height _ => n.callCbf cfg e.cbf (some b) (.blockProcessed b.hash height)
  | .confirmed txid _ _ => n.callCbf cfg e.cbf none (.txConfirmed txid)
  | .reverted t => n.callCbf cfg e.cbf none (.txReverted t.txid (t.outputs.map (·.script)))
  | _ => .ok n

/-- `next` (fsm.rs:588-619). -/
def Fsm.next (cfg : Cfg) (e : Env) (n : Fsm) : Res Unit Fsm :=
  match n.qSync with
  | o :: q => { n with qSync := q }.deliverSync cfg e o
  | [] =>
    match n.qInv with
    | o :: q => { n with qInv := q }.deliverInv cfg e o
    | [] => .ok { n with qCbf := n.qCbf.tail }

/-- One input: `initialize` (fsm.rs:752-764), the events of the other managers and messages (`event`, fsm.rs:625-633; `message_received`, 766-799),
`timer_expired` (825-835), commands (`command`, 636-744), `next` (588-619). -/
def Fsm.step (cfg : Cfg) (e : Env) (n : Fsm) : Input → Res Unit Fsm
  | .init => do
    let n ← n.callSync cfg (.init e.sync e.now)
    n.callCbf cfg e.cbf none .init
  | .negotiated a height outbound network filters relay wtxidrelay persistent => do
    let n ← n.callCbf cfg e.cbf none (.peerNegotiated a outbound filters persistent)
    let n ← n.callInv cfg (.negotiated a network relay wtxidrelay)
    n.callSync cfg (.negotiated e.sync e.now a height network filters outbound)
  | .disconnected a => do
    let n ← n.callCbf cfg e.cbf none (.peerDisconnected a)
    let n ← n.callInv cfg (.disconnected a)
    n.callSync cfg (.gone a)
  | .headers a hs => n.callSync cfg (.headers e.sync e.now a hs)
  | .getheaders a locators => n.callSync cfg (.getheaders a locators)
  | .invs a items => n.callSync cfg (.inv e.now a items)
  | .block b => n.callInv cfg (.block b ((n.tree.getBlock b.hash).map (·.1)))
  | .getdata a items => n.callInv cfg (.getdata a items)
  | .cfheaders a msg => n.callCbf cfg e.cbf none (.cfheaders a msg)
  | .getcfheaders a filterType start stop => n.callCbf cfg e.cbf none (.getcfheaders a filterType start stop)
  | .cfilter a filterType block f => n.callCbf cfg e.cbf none (.cfilter a filterType block f)
  | .timer => do
    let n ← n.callInv cfg (.timer e.inv e.now n.tree.height)
    let n ← n.callSync cfg (.timer e.sync e.now)
    n.callCbf cfg e.cbf none .timer
  | .importHeaders hs => n.callSync cfg (.userImport e.sync hs)
  | .requestFilters start stop => n.callCbf cfg e.cbf none (.getCFilters start stop)
  | .requestBlock hash => n.callInv cfg (.getBlock hash)
  | .submit t => do
    let n ← n.callCbf cfg e.cbf none (.watchTransaction t.txid (t.outputs.map (·.script)))
    n.callInv cfg (.announce t)
  | .rescan start stop watch => n.callCbf cfg e.cbf none (.rescan start stop watch)
  | .watch scripts => n.callCbf cfg e.cbf none (.watch scripts)
  | .next => n.next cfg e

end Verif.Node
