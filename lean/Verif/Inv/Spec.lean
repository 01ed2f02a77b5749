import Verif.Inv.Model
import Verif.Fees.Spec

/-!
# Specification of the inventory manager

Everything here is said in terms of what happened and what was observed: a history is a list of operations with the outputs of each,
most recent first.
-/

set_option autoImplicit false

namespace Verif.Inv
open Verif.Tx

abbrev Hist := List (Op × List Out)

/-- Hash maps are visited in some order, and samples are taken from what they are taken from. -/
def Op.Legal : Op → Prop
  | .timer env _ _ => env.Legal
  | _ => True

/-- The history `h` leads to the state `m`; nothing panicked. -/
inductive Run (checked : Bool) : Hist → Mgr → Prop where
  | start : Run checked [] Mgr.new
  | step {h : Hist} {m m' : Mgr} {op : Op} (r : Run checked h m) (l : op.Legal) (e : { m with out := [] }.step checked op = .ok m') :
      Run checked ((op, m'.out) :: h) m'

/-- The blocks processed according to some outputs, with their heights, in order. -/
def processed (outs : List Out) : List (Nat × Block) :=
  outs.filterMap (fun o => match o with | .processed b n _ => some (n, b) | _ => none)

/-- The block has a transaction with the witness id. -/
def _root_.Verif.Tx.Block.has (b : Block) (w : Nat) : Bool := b.txs.any (fun t => t.wtxid = w)

/-- The first of the processed blocks that has a transaction with the witness id, with its height. -/
def firstWith (w : Nat) (outs : List Out) : Option (Nat × Block) := (processed outs).find? (fun p => p.2.has w)

/-- What an output says about the pending transactions, by witness id: those of a processed block are confirmed, those of a reverted
block are pending again. -/
def settle (f : Nat → Option Transaction) : Out → Nat → Option Transaction
  | .processed b _ _ => fun w => if b.has w then none else f w
  | .reverted t => fun w => if w = t.wtxid then some t else f w
  | _ => f

/-- The transactions that were submitted or reverted and not confirmed since, by witness id. -/
def pending : Hist → Nat → Option Transaction
  | [] => fun _ => none
  | (op, outs) :: h =>
    outs.foldl settle (match op with
      | .announce t => fun w => if w = t.wtxid then some t else pending h w
      | _ => pending h)

/-- The transactions submitted. -/
def submitted : Hist → List Transaction
  | [] => []
  | (op, _) :: h =>
    match op with
    | .announce t => t :: submitted h
    | _ => submitted h

/-- Witness ids identify transactions, and so determine ids without witness. -/
def Agree (h : Hist) : Prop := ∀ t ∈ submitted h, ∀ t' ∈ submitted h, t.wtxid = t'.wtxid → t.txid = t'.txid

/-- The pending transaction `t` was confirmed at the height: it was pending when a block with it was processed at that height.
It is forgotten when the block is reverted, and when the timer fires while the tip is more than twelve blocks above it (or below it). -/
def ConfirmedAt (n : Nat) (t : Transaction) : Hist → Prop
  | [] => False
  | (op, outs) :: h =>
    match op with
    | .reverted hs => n ∉ hs ∧ ConfirmedAt n t h
    | .timer _ _ height => n ≤ height ∧ height ≤ n + 12 ∧ ConfirmedAt n t h
    | .block _ _ => ConfirmedAt n t h ∨
        ((∃ b, firstWith t.wtxid outs = some (n, b)) ∧ pending h t.wtxid = some t)
    | _ => ConfirmedAt n t h

/-- What is known of a connected peer. -/
structure Features where
  network : Bool
  relay : Bool
  wtxidrelay : Bool
  deriving DecidableEq, Repr

/-- The peers that are connected: does the peer serve blocks, does it relay transactions, does it use witness ids?  Peers that
timed out do not count. -/
def connected (a : Nat) : Hist → Option Features
  | [] => none
  | (op, outs) :: h =>
    match op with
    | .negotiated b n r w => if b = a then some ⟨n, r, w⟩ else connected a h
    | .disconnected b => if b = a then none else connected a h
    | .timer _ _ _ => if Out.timedOut a ∈ outs then none else connected a h
    | _ => connected a h

/-- The item asks for the pending transaction with the witness id `w`.  If several have the requested id without witness, it is the one with the
lowest witness id. -/
def Item.Names (pend : Nat → Option Transaction) (w : Nat) : Item → Prop
  | .tx x | .witnessTx x => (∃ t, pend w = some t ∧ t.txid = x) ∧ ∀ w' t', pend w' = some t' → t'.txid = x → w ≤ w'
  | .wtx w' => w' = w
  | .other => False

/-- The transaction with the witness id `w` is to be announced to `a`: `a` relays transactions and was connected when the transaction was
submitted or reverted, or it was pending when `a` connected; since then, `a` did not ask for it and no block with it was processed. -/
def Queued (a w : Nat) : Hist → Prop
  | [] => False
  | (op, outs) :: h =>
    match op with
    | .announce t => Queued a w h ∨ (t.wtxid = w ∧ ∃ f, connected a h = some f ∧ f.relay = true)
    | .reverted _ => Queued a w h ∨ ((∃ t, Out.reverted t ∈ outs ∧ t.wtxid = w) ∧ ∃ f, connected a h = some f ∧ f.relay = true)
    | .negotiated b _ _ _ => if b = a then pending h w ≠ none else Queued a w h
    | .disconnected b => b ≠ a ∧ Queued a w h
    | .timer _ _ _ => Out.timedOut a ∉ outs ∧ Queued a w h
    | .getdata b items => Queued a w h ∧ ¬ (b = a ∧ ∃ i ∈ items, i.Names (pending h) w)
    | .block _ _ => Queued a w h ∧ firstWith w outs = none
    | .getBlock _ => Queued a w h

def Out.isInvTo (a : Nat) : Out → Bool
  | .inv b _ _ => b = a
  | _ => false

def Out.isAckBy (a : Nat) : Out → Bool
  | .acknowledged _ b => b = a
  | _ => false

def Out.isRequestOf (hash : Nat) : Out → Bool
  | .getBlock _ x => x = hash
  | _ => false

/-- When transactions were announced to a peer since it connected or since it last asked for a transaction queued for it; latest first. -/
def sent (a : Nat) : Hist → List Nat
  | [] => []
  | (op, outs) :: h =>
    match op with
    | .negotiated b _ _ _ => if b = a then [] else sent a h
    | .timer _ now _ => if outs.any (Out.isInvTo a) then now :: sent a h else sent a h
    | .getdata _ _ => if outs.any (Out.isAckBy a) then [] else sent a h
    | _ => sent a h

/-- The block was requested and not received since. -/
def Outstanding (hash : Nat) : Hist → Prop
  | [] => False
  | (op, _) :: h =>
    match op with
    | .getBlock x => x = hash ∨ Outstanding hash h
    | .block b _ => b.hash ≠ hash ∧ Outstanding hash h
    | _ => Outstanding hash h

/-- When peers were asked for the block since it was requested, latest first. -/
def asked (hash : Nat) : Hist → List Nat
  | [] => []
  | (op, outs) :: h =>
    match op with
    | .block b _ => if b.hash = hash then [] else asked hash h
    | .timer _ now _ => if outs.any (Out.isRequestOf hash) then now :: asked hash h else asked hash h
    | _ => asked hash h

/-- The block was received last of those requested and on the active chain at that height, and nothing was processed since. -/
def Waiting (n : Nat) (b : Block) : Hist → Prop
  | [] => False
  | (op, outs) :: h =>
    processed outs = [] ∧
    match op with
    | .block c (some k) => (k = n ∧ Outstanding c.hash h ∧ b = c) ∨ (¬ (k = n ∧ Outstanding c.hash h) ∧ Waiting n b h)
    | _ => Waiting n b h

/-- Times of consecutive attempts (latest first) are at least `d` apart. -/
def Spaced (d : Nat) : List Nat → Prop
  | [] => True
  | [_] => True
  | t :: t' :: l => t' + d ≤ t ∧ Spaced d (t' :: l)

/-- What the fee estimator is told. -/
def feeOps : Hist → List Fees.Op
  | [] => []
  | (op, outs) :: h =>
    match op with
    | .reverted hs => (hs.map fun n => Fees.Op.rollback (if 0 < n then n - 1 else 2 ^ 64 - 1)).reverse ++ feeOps h
    | _ => ((processed outs).map fun p => Fees.Op.process p.2.txs p.1).reverse ++ feeOps h

end Verif.Inv
