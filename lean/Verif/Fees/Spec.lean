import Verif.Fees.Model

/-!
# Specification of the fee estimator

What the processed blocks say about outputs, and what a fee rate is.  Lists of transactions and of blocks: most recent first.
-/

set_option autoImplicit false

namespace Verif.Fees
open Verif.Tx

/-- Things done with an estimator: process the block at a height, go back to a height. -/
inductive Op where
  | process (txs : List Transaction) (height : Nat)
  | rollback (height : Nat)

/-- The history `h` (most recent first) leads to the estimator `e`; nothing panicked. -/
inductive Run (checked : Bool) : List Op → Estimator → Prop where
  | start : Run checked [] Estimator.new
  | process {h : List Op} {e e' : Estimator} {txs : List Transaction} {height : Nat} {est : Option Estimate} (r : Run checked h e)
      (eq : e.process checked txs height = .ok (e', est)) : Run checked (.process txs height :: h) e'
  | rollback {h : List Op} {e e' : Estimator} {height : Nat} (r : Run checked h e) (eq : e.rollback height = .ok e') :
      Run checked (.rollback height :: h) e'

/-- `t` is the output of `tx` that `o` refers to. -/
def Creates (tx : Transaction) (o : OutPoint) (t : TxOut) : Prop := o.txid = tx.txid ∧ tx.outputs[o.vout]? = some t

/-- The outputs a transaction spends; coinbase transactions spend nothing. -/
def spends (tx : Transaction) : List OutPoint := if tx.isCoinbase then [] else tx.inputs

/-- The output was created by one of the transactions and spent neither by that one nor by a later one. -/
def Unspent : List Transaction → OutPoint → TxOut → Prop
  | [], _, _ => False
  | tx :: l, o, t => o ∉ spends tx ∧ (Creates tx o t ∨ (¬ ∃ t', Creates tx o t') ∧ Unspent l o t)

/-- Every transaction spends different outputs, all of them created by the transactions given here and unspent so far. -/
def Complete : List Transaction → Prop
  | [] => True
  | tx :: l => ((spends tx).Nodup ∧ ∀ i ∈ spends tx, ∃ t, Creates tx i t ∨ Unspent l i t) ∧ Complete l

/-- All transactions ever processed. -/
def seen : List Op → List Transaction
  | [] => []
  | .process txs _ :: h => txs ++ seen h
  | .rollback _ :: h => seen h

/-- The height of the last block of a chain. -/
def top : List (Nat × List Transaction) → Nat
  | [] => 0
  | (h, _) :: _ => h

/-- The blocks that were processed and not rolled back; blocks that are not above the last one are refused. -/
def chainOf : List Op → List (Nat × List Transaction)
  | [] => []
  | .process txs h :: ops => if h ≤ top (chainOf ops) then chainOf ops else (h, txs) :: chainOf ops
  | .rollback h :: ops => (chainOf ops).dropWhile (fun b => h < b.1)

/-- The transactions of a chain. -/
def txsOf (c : List (Nat × List Transaction)) : List Transaction := c.flatMap (fun b => b.2.reverse)

/-- How many blocks can be rolled back: at most twelve, and never more than were processed since. -/
def depth : List Op → Nat
  | [] => 0
  | .process _ h :: ops => if h ≤ top (chainOf ops) then depth ops else min 12 (depth ops + 1)
  | .rollback h :: ops => depth ops - ((chainOf ops).takeWhile (fun b => h < b.1)).length

/-- Every rollback removed at least one block and no more than can be rolled back. -/
def Within : List Op → Prop
  | [] => True
  | .process _ _ :: ops => Within ops
  | .rollback h :: ops => h < top (chainOf ops) ∧ ((chainOf ops).takeWhile (fun b => h < b.1)).length ≤ depth ops ∧ Within ops

/-- Transactions as they can occur: fewer outputs than 2^32, and at least ten bytes. -/
def Sized (tx : Transaction) : Prop := tx.outputs.length ≤ 2 ^ 32 ∧ 40 ≤ tx.weight ∧ tx.weight < 2 ^ 53

/-- `r` is a fee rate in satoshis per virtual byte (a quarter of the weight) of a transaction that pays `fee`: the exact rate rounded to
the nearest integer, halves upwards, for fees below 2^50 satoshis (over eleven million bitcoins); for larger ones, up to
the precision of floating-point numbers. -/
def IsRate (fee weight r : Nat) : Prop :=
  (fee < 2 ^ 50 → r = (8 * fee + weight) / (2 * weight)) ∧
  |(r : ℚ) - 4 * fee / weight| ≤ 1 / 2 + 4 * fee / weight / 2 ^ 51

/-- The inputs of `tx` are outputs of the given transactions, `values` are their values, and `r` is the fee rate of `tx`.
Amounts are 64-bit numbers. -/
def FeeRate (known : List Transaction) (tx : Transaction) (values : List Nat) (r : Nat) : Prop :=
  tx.isCoinbase = false ∧
  List.Forall₂ (fun i v => ∃ p ∈ known, ∃ t, Creates p i t ∧ t.value = v) tx.inputs values ∧
  (tx.outputs.map (·.value)).sum % 2 ^ 64 ≤ values.sum % 2 ^ 64 ∧
  IsRate (values.sum % 2 ^ 64 - (tx.outputs.map (·.value)).sum % 2 ^ 64) tx.weight r

/-- The middle one of a list of numbers, or a number between the two in the middle: their mean, rounded upwards (if their sum is
below 2^53). -/
def IsMedian (l : List Nat) (m : Nat) : Prop :=
  ∃ s : List Nat, s.Perm l ∧ s.Pairwise (· ≤ ·) ∧
    (l.length % 2 = 1 → s[l.length / 2]? = some m) ∧
    (l.length % 2 = 0 → ∃ a b, s[l.length / 2 - 1]? = some a ∧ s[l.length / 2]? = some b ∧ a ≤ m ∧ m ≤ b ∧
      (a + b < 2 ^ 53 → m = (a + b + 1) / 2))

end Verif.Fees
