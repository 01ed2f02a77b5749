import Verif.Node.Model
import Verif.Inv.Spec
import Verif.Sync.Spec
import Verif.Cbf.Spec
import Verif.Wallet.Spec

/-!
# The state machine: specification

A history is a list of inputs with what was put out while each was handled, most recent first.
-/

set_option autoImplicit false

namespace Verif.Node
open Verif.Tx (Block Transaction)
open Verif.Chain (Header)

abbrev Hist := List (Input × List Out)

/-- The filters found to match, as heights and block hashes: the `FilterProcessed` events that say so. -/
def found (l : List Out) : List (Nat × Nat) :=
  l.filterMap (fun o => match o with | .cbf (.event (.filterProcessed block height _ true _)) => some (height, block) | _ => none)

/-- The blocks reported with their heights: the `BlockMatched` events. -/
def reported (l : List Out) : List (Nat × Block) := l.filterMap (fun o => match o with | .matched b height => some (height, b) | _ => none)

/-- The filters scanned, as heights, block hashes and whether the filter matched: the `FilterProcessed` events. -/
def scans (l : List Out) : List (Nat × Nat × Bool) :=
  l.filterMap (fun o => match o with | .cbf (.event (.filterProcessed block height _ mt _)) => some (height, block, mt) | _ => none)

/-- The headers an input presents, each with what the environment decides while it is imported. -/
def Input.batch : Input → List (Header × Chain.Env)
  | .headers _ hs | .importHeaders hs => hs
  | _ => []

/-- Random choices are real choices, headers presented are among `U`, and the header store fails only if `fail`. -/
structure Legal (U : Header → Prop) (fail : Bool) (e : Env) (i : Input) : Prop where
  sync : e.sync.Legal
  inv : e.inv.Legal
  headers : ∀ p ∈ i.batch, U p.1 ∧ Chain.EnvOk fail p.2

/-- The history `h` leads to the state `n`, from the header tree `t0` on; nothing panicked, and each step is as `P` demands. -/
inductive Run (cfg : Cfg) (U : Header → Prop) (fail : Bool) (P : Hist → Fsm → Input → Fsm → List Out → Prop) (t0 : Chain.State) : Hist → Fsm → Prop where
  | start (f : Cbf.FilterHeaders) (cacheSize : Nat) : Run cfg U fail P t0 [] (Fsm.new t0 f cacheSize)
  | step {h : Hist} {n n' : Fsm} {i : Input} {outs : List Out} (e : Env) (r : Run cfg U fail P t0 h n) (l : Legal U fail e i)
      (hs : n.step cfg e i = .ok n') (ho : n'.log = n.log ++ outs) (p : P h n i n' outs) : Run cfg U fail P t0 ((i, outs) :: h) n'

/-- Everything put out, in order. -/
def outputs (h : Hist) : List Out := h.reverse.flatMap (·.2)

/-- The scripts watched: those of the last rescan, and those added since, without those watched already. -/
def watching : Hist → List Nat
  | [] => []
  | (.rescan _ _ w, _) :: _ => w
  | (.watch v, _) :: h => watching h ++ v.filter (fun s => !(watching h).contains s)
  | _ :: h => watching h

/-- A transaction as the filter manager knows it: its id and the scripts of its outputs. -/
def tracks (t : Transaction) : Nat × List Nat := (t.txid, t.outputs.map (·.script))

/-- The transaction was submitted, or a re-org reverted it. -/
def Followed (h : Hist) (x : Nat × List Nat) : Prop := ∃ t, x = tracks t ∧ ((∃ outs, (Input.submit t, outs) ∈ h) ∨ Out.inv (.reverted t) ∈ outputs h)

/-- The transactions watched: they were submitted, or a re-org reverted them; and all submitted and never confirmed are. -/
structure Tracked (h : Hist) (txs : Verif.AMap Nat (List Nat)) : Prop where
  only : ∀ x ∈ txs, Followed h x
  all : ∀ t outs, (Input.submit t, outs) ∈ h → (∀ block height, Out.inv (.confirmed t.txid block height) ∉ outputs h) → ∃ scripts, (t.txid, scripts) ∈ txs

/-- The output says that a block left the active chain. -/
def Out.Reverts : Out → Prop
  | .sync (.disconnected _ _) => True
  | .sync (.imported _ _ _ _ reverted) => reverted ≠ []
  | _ => False

/-- The step is calm: the active chain is only extended, the user does not request blocks, and starts a rescan only when all matches found before
were reported and none of the filters in memory matches. -/
structure Calm (h : Hist) (n : Fsm) (i : Input) (n' : Fsm) (outs : List Out) : Prop where
  chain : n.tree.chain <+: n'.tree.chain
  quiet : ∀ o ∈ outs, ¬ o.Reverts
  request : ∀ k, i ≠ .requestBlock k
  rescan : ∀ a b w, i = .rescan a b w → (reported (outputs h)).map (fun p => (p.1, p.2.hash)) = found (outputs h) ∧ found outs = []

/-- The block was sent to us. -/
def Sent (b : Block) (h : Hist) : Prop := ∃ outs, (Input.block b, outs) ∈ h

/-- The block was found to match, and was not received since. -/
def Awaited (k : Nat) : Hist → Prop
  | [] => False
  | (i, outs) :: h => (∃ height, (height, k) ∈ found outs) ∨ (Awaited k h ∧ ∀ b, i = .block b → b.hash ≠ k)

/-- All outputs were taken. -/
def Drained (n : Fsm) : Prop := n.qSync = [] ∧ n.qInv = [] ∧ n.qCbf = []

/-- The hash of the block at a height of the active chain. -/
def onChain (cfg : Cfg) (n : Fsm) (height : Nat) : Option Nat := (n.tree.getByHeight height).map cfg.sync.chain.hash

/-- The filter headers commit to this filter at the height. -/
def filterAt (cfg : Cfg) (n : Fsm) (height : Nat) (f : Cbf.Filter) : Prop := Cbf.Committed cfg.cbf n.cbf.filters.all height f

/-- No transaction was submitted, and none reverted. -/
def NoTransactions (h : Hist) : Prop := (∀ t outs, (Input.submit t, outs) ∉ h) ∧ ∀ t, Out.inv (.reverted t) ∉ outputs h

/-- The two states have the same blocks at these heights, and filter headers that commit to filters with the same answer for the scripts `w` (as they do if they commit to the
same filters). -/
structure SameChain (cfg : Cfg) (w : List Nat) (n1 n2 : Fsm) (s len : Nat) : Prop where
  blocks : ∀ i < len, onChain cfg n1 (s + i) = onChain cfg n2 (s + i)
  filters : ∀ i < len, ∀ f1 f2 k, filterAt cfg n1 (s + i) f1 → filterAt cfg n2 (s + i) f2 → onChain cfg n1 (s + i) = some k →
    cfg.cbf.matchAny f1 k w = cfg.cbf.matchAny f2 k w

/-- A transaction of the block pays to one of the addresses, or spends a coin that one of the transactions `txs` pays to one of them. -/
def Concerns (c : Wallet.Codec) (addrs : List Nat) (txs : List Transaction) (b : Block) : Prop :=
  ∃ t ∈ b.txs, (∃ k o, Wallet.Pays c addrs t k o) ∨ ∃ k ∈ t.inputs, ∃ t' ∈ txs, ∃ o, Wallet.Pays c addrs t' k o

/-- The blocks `blocks s`, `blocks (s + 1)`, … (`len` of them) are those of the active chain, peers sent no other blocks with the same hashes, and
the filters match the scripts of the addresses if the blocks concern them. -/
structure Genuine (cfg : Cfg) (c : Wallet.Codec) (addrs : List Nat) (h : Hist) (n : Fsm) (blocks : Nat → Block) (s len : Nat) : Prop where
  hash : ∀ i < len, ∀ k, onChain cfg n (s + i) = some k → (blocks (s + i)).hash = k
  sent : ∀ i < len, ∀ b, Sent b h → b.hash = (blocks (s + i)).hash → b = blocks (s + i)
  filter : ∀ i < len, ∀ f, filterAt cfg n (s + i) f →
    Concerns c addrs (((List.range' s len).map blocks).flatMap (·.txs)) (blocks (s + i)) →
    cfg.cbf.matchAny f (blocks (s + i)).hash (c.watch addrs) = some true

end Verif.Node
