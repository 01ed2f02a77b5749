import Verif.Base.Map
import Verif.Base.Res
import Verif.Tx.Model
import Verif.Fees.Float
import Mathlib.Data.List.Sort

/-!
# Fee estimator: `p2p/src/fsm/fees.rs`

The set of unspent outputs is a hash map; hash maps are never iterated over here.  `checked`: whether arithmetic overflow panics (debug
builds) or wraps around (release builds).
-/

set_option autoImplicit false

namespace Verif.Fees
open Verif.Tx

/-- `UtxoSet` (p2p/src/fsm/fees.rs:85). -/
abbrev Utxos := AMap OutPoint TxOut

/-- `MAX_UTXO_SNAPSHOTS` (p2p/src/fsm/fees.rs:15). -/
def maxSnapshots : Nat := 12

/-- `FeeEstimate` (p2p/src/fsm/fees.rs:23-30). -/
structure Estimate where
  low : Nat
  median : Nat
  high : Nat
  deriving DecidableEq, Repr

/-- The median of two values: `((left + right) / 2.).round() as FeeRate` (p2p/src/fsm/fees.rs:69-72).  Halving is exact. -/
def middle (l r : Nat) : Nat := sat (roundUp (fl (fl l + fl r) / 2))

/-- `FeeEstimate::from` (p2p/src/fsm/fees.rs:61-81).  The result of sorting numbers does not depend on the algorithm. -/
def Estimate.ofRates (rates : List Nat) : Option Estimate :=
  match rates.insertionSort (· ≤ ·) with
  | [] => none
  | x :: xs =>
    let fees := x :: xs
    let count := fees.length
    let median := if count % 2 = 1 then fees[count / 2]?.getD 0
      else middle (fees[count / 2 - 1]?.getD 0) (fees[count / 2]?.getD 0)
    some { low := x, median := median, high := fees.getLast (by simp [fees]) }

/-- `+=` on 64-bit amounts. -/
def addAmount (checked : Bool) (a b : Nat) : Res Unit Nat :=
  if a + b < 2 ^ 64 then .ok (a + b) else if checked then .panic else .ok ((a + b) % 2 ^ 64)

/-- The loop over the outputs (p2p/src/fsm/fees.rs:145-152), from output number `i` on: the outputs and the sum of their values. -/
def addOutputs (checked : Bool) (txid : Nat) : Nat → List TxOut → Utxos → Nat → Res Unit (Utxos × Nat)
  | _, [], u, sent => .ok (u, sent)
  | i, o :: os, u, sent => do
    let sent ← addAmount checked sent o.value
    addOutputs checked txid (i + 1) os (u.insert ⟨txid, i % 2 ^ 32⟩ o) sent

/-- The loop over the inputs (p2p/src/fsm/fees.rs:162-168): the remaining outputs and, if no input was missing, the sum of the values. -/
def takeInputs (checked : Bool) : List OutPoint → Utxos → Nat → Res Unit (Utxos × Option Nat)
  | [], u, received => .ok (u, some received)
  | i :: is, u, received =>
    match u.get i with
    | some o => do
      let received ← addAmount checked received o.value
      takeInputs checked is (u.erase i) received
    | none => .ok (u, none)

/-- The fee rate (p2p/src/fsm/fees.rs:171-175).  Dividing the weight by four is exact. -/
def rate (fee weight : Nat) : Nat := sat (roundUp (fl (fl fee / (fl weight / 4))))

/-- `apply` (p2p/src/fsm/fees.rs:139-176). -/
def applyTx (checked : Bool) (u : Utxos) (tx : Transaction) : Res Unit (Utxos × Option Nat) := do
  let (u, sent) ← addOutputs checked tx.txid 0 tx.outputs u 0
  if tx.isCoinbase then
    .ok (u, none)
  else
    let (u, received) ← takeInputs checked tx.inputs u 0
    match received with
    | none => .ok (u, none)
    | some received => do
      let () ← Res.assert (sent ≤ received)
      .ok (u, some (rate (received - sent) tx.weight))

/-- The loop over the transactions of a block (p2p/src/fsm/fees.rs:111-115). -/
def applyAll (checked : Bool) : List Transaction → Utxos → List Nat → Res Unit (Utxos × List Nat)
  | [], u, fees => .ok (u, fees)
  | tx :: txs, u, fees => do
    let (u, r) ← applyTx checked u tx
    applyAll checked txs u (fees ++ r.toList)

/-- `FeeEstimator` (p2p/src/fsm/fees.rs:89-97); snapshots: oldest first. -/
structure Estimator where
  utxos : Utxos
  height : Nat
  snapshots : List (Nat × Utxos)
  deriving DecidableEq, Repr

/-- `FeeEstimator::default` (p2p/src/fsm/fees.rs:88). -/
def Estimator.new : Estimator := ⟨[], 0, []⟩

/-- `process` (p2p/src/fsm/fees.rs:103-124). -/
def Estimator.process (checked : Bool) (e : Estimator) (txs : List Transaction) (height : Nat) : Res Unit (Estimator × Option Estimate) :=
  if height ≤ e.height then
    .ok (e, none)
  else do
    let (u, fees) ← applyAll checked txs e.utxos []
    let snaps := e.snapshots ++ [(e.height, e.utxos)]
    let snaps := if maxSnapshots < snaps.length then snaps.tail else snaps
    .ok (⟨u, height, snaps⟩, Estimate.ofRates fees)

/-- `rollback` (p2p/src/fsm/fees.rs:127-136). -/
def Estimator.rollback (e : Estimator) (height : Nat) : Res Unit Estimator :=
  let snaps := e.snapshots.filter (fun s => s.1 ≤ height)
  match snaps.getLast? with
  | some (h, u) => do
    let () ← Res.assert (h ≤ height)
    .ok ⟨u, h, snaps.dropLast⟩
  | none => .ok { e with snapshots := snaps }

end Verif.Fees
