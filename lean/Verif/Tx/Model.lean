/-!
# Transactions and blocks

What nakamoto looks at in the types of the `bitcoin` crate.  Hashes are numbers: a transaction carries its id (`txid`, the hash without
witnesses) and its witness id (`wtxid`), a block carries the hash of its header.  Nothing relates them with the content here: a peer
may send any transactions under any header (nakamoto does not compare the transactions of a block with the Merkle root of the header);
where a property needs that ids identify content, it says so.
-/

set_option autoImplicit false

namespace Verif.Tx

/-- `OutPoint`: a reference to an output. -/
structure OutPoint where
  txid : Nat
  vout : Nat
  deriving DecidableEq, Repr

/-- `OutPoint::null`: the input of coinbase transactions. -/
def OutPoint.null : OutPoint := ⟨0, 4294967295⟩

/-- `TxOut`: the amount (in satoshis, 64 bits) and the script it is paid to. -/
structure TxOut where
  value : Nat
  script : Nat
  deriving DecidableEq, Repr

/-- `Transaction`: its ids, the outputs it spends, its outputs and its weight (four times the virtual size in bytes). -/
structure Transaction where
  txid : Nat
  wtxid : Nat
  inputs : List OutPoint
  outputs : List TxOut
  weight : Nat
  deriving DecidableEq, Repr

/-- `Transaction::is_coin_base`. -/
def Transaction.isCoinbase (tx : Transaction) : Bool := tx.inputs = [OutPoint.null]

/-- `Block`. -/
structure Block where
  hash : Nat
  txs : List Transaction
  deriving DecidableEq, Repr

end Verif.Tx
