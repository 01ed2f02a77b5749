import Verif.Wallet.Model

/-!
# The wallet: specification
-/

set_option autoImplicit false

namespace Verif.Wallet
open Verif.Tx (OutPoint TxOut Transaction Block)

/-- The transaction creates the coin, and it pays to one of the addresses. -/
def Pays (c : Codec) (addrs : List Nat) (tx : Transaction) (k : OutPoint) (o : TxOut) : Prop :=
  k.txid = tx.txid ∧ tx.outputs[k.vout]? = some o ∧ ∃ a ∈ addrs, o.script = c.scriptOf a

/-- One of the transactions (given in order) pays the coin to one of the addresses, and neither it nor a later one spends it. -/
def Unspent (c : Codec) (addrs : List Nat) (txs : List Transaction) (k : OutPoint) (o : TxOut) : Prop :=
  ∃ pre tx post, txs = pre ++ tx :: post ∧ Pays c addrs tx k o ∧ ∀ t ∈ tx :: post, k ∉ t.inputs

/-- Transaction ids identify outputs, and amounts have 64 bits. -/
structure Sane (txs : List Transaction) : Prop where
  ids : ∀ t ∈ txs, ∀ t' ∈ txs, t.txid = t'.txid → t.outputs = t'.outputs
  amounts : ∀ t ∈ txs, ∀ o ∈ t.outputs, o.value < 2 ^ 64

/-- A coin is not spent before the last transaction that creates it. -/
def Ordered (txs : List Transaction) : Prop :=
  ∀ pre tx post, txs = pre ++ tx :: post → ∀ t ∈ pre, ∀ k ∈ t.inputs, k.txid ≠ tx.txid

/-- The scripts watched for the addresses (wallet.rs:127). -/
def Codec.watch (c : Codec) (addrs : List Nat) : List Nat := addrs.map c.scriptOf

/-- Databases that are left behind by a wallet that was started any number of times, each time scanning the transactions of the chain (from the
first one on), and stopped at any point, even within a block.  The chain only grows. -/
inductive Left (c : Codec) (addrs : List Nat) : List Transaction → Db → Prop where
  | new : Left c addrs [] Db.new
  | grow {txs : List Transaction} {db : Db} (more : List Transaction) (h : Left c addrs txs db) : Left c addrs (txs ++ more) db
  | stopped {txs : List Transaction} {db : Db} (n : Nat) (h : Left c addrs txs db) :
      Left c addrs txs (((txs.flatMap (stmts c (c.watch addrs))).take n).foldl Db.exec db)

end Verif.Wallet
