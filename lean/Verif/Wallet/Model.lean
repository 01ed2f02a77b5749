import Verif.Base.Map
import Verif.Base.Res
import Verif.Tx.Model

/-!
# The wallet: `wallet/src/wallet.rs`, `wallet/src/wallet/db.rs`, `wallet/src/wallet/schema.sql`

The table `utxos` is a list of rows in the order of their ids, that is, of insertion.  Addresses and scripts are numbers.  The text
forms of addresses and transaction ids are taken to be read back as what was written.  Statements are executed one by one and are durable once
executed (no transaction is opened, so each commits by itself).  Statements that the database refuses (full disk, locked file) are not modelled; `apply`
ignores such errors.  Not modelled: user interface, hardware device, logging.
-/

set_option autoImplicit false

namespace Verif.Wallet
open Verif.Tx (OutPoint TxOut Transaction Block)

/-- Addresses and their scripts: `Address::script_pubkey` and `Address::from_script` (for the wallet's network) of the bitcoin crate. -/
structure Codec where
  scriptOf : Nat → Nat
  fromScript : Nat → Option Nat

/-- What the bitcoin crate guarantees about the script of an address: an address can be made from it, and it has that script. -/
def Codec.Sound (c : Codec) : Prop := ∀ a, ∃ b, c.fromScript (c.scriptOf a) = some b ∧ c.scriptOf b = c.scriptOf a

/-- Errors of the database that matter here: `SUM` overflows. -/
inductive Err where
  | overflow
  deriving DecidableEq, Repr

/-- `u64 as i64`.  (wallet/src/wallet/db.rs:159-164) -/
def toI64 (n : Nat) : Int := if n % 2 ^ 64 < 2 ^ 63 then (n % 2 ^ 64 : Nat) else ((n % 2 ^ 64 : Nat) : Int) - 2 ^ 64

/-- `i64 as u64`.  (wallet/src/wallet/db.rs:88-98) -/
def toU64 (i : Int) : Nat := (i % 2 ^ 64).toNat

/-- A row of `utxos` (schema.sql:1-10) without id and date: address and value.  The key is the pair of `txid` and `vout`, which is unique (9). -/
structure Row where
  address : Nat
  value : Int
  deriving DecidableEq, Repr

/-- `Db` (db.rs:56-58): the table `utxos`. -/
structure Db where
  utxos : AMap OutPoint Row
  deriving DecidableEq, Repr

/-- A fresh database.  (wallet/src/wallet/schema.sql:1-10) -/
def Db.new : Db := ⟨[]⟩

/-- `add_utxo` (db.rs:151-169): `INSERT … ON CONFLICT DO NOTHING`. -/
def Db.addUtxo (db : Db) (k : OutPoint) (address value : Nat) : Db :=
  if db.utxos.contains k then db else ⟨db.utxos ++ [(k, ⟨address, toI64 value⟩)]⟩

/-- `remove_utxo` (db.rs:171-183), without its result, which the wallet does not use. -/
def Db.removeUtxo (db : Db) (k : OutPoint) : Db := ⟨db.utxos.erase k⟩

/-- `utxo` (db.rs:71-103). -/
def Db.utxo (c : Codec) (db : Db) (k : OutPoint) : Option TxOut := (db.utxos.get k).map fun r => ⟨toU64 r.value, c.scriptOf r.address⟩

/-- `utxos` (db.rs:105-132). -/
def Db.list (c : Codec) (db : Db) : List (OutPoint × TxOut) := db.utxos.map fun p => (p.1, ⟨toU64 p.2.value, c.scriptOf p.2.address⟩)

/-- `SUM` of SQLite over integers: an error if the sum overflows on the way.  (wallet/src/wallet/db.rs:62-69) -/
def sum : List Int → Int → Res Err Int
  | [], s => .ok s
  | v :: vs, s => if -(2 ^ 63) ≤ s + v ∧ s + v < 2 ^ 63 then sum vs (s + v) else .err .overflow

/-- `balance` (db.rs:62-69); the sum over no rows is `NULL`, which is read as zero. -/
def Db.balance (db : Db) : Res Err Nat := do
  let s ← sum (db.utxos.map (·.2.value)) 0
  .ok (toU64 s)

/-- The first loop of `apply` (wallet.rs:68-81), from output number `vout` on. -/
def addOutputs (c : Codec) (scripts : List Nat) (txid : Nat) : Nat → List TxOut → Db → Res Err Db
  | _, [], db => .ok db
  | vout, o :: os, db =>
    if scripts.contains o.script then do
      let address ← Res.unwrap (c.fromScript o.script)
      addOutputs c scripts txid (vout + 1) os (db.addUtxo ⟨txid, vout⟩ address o.value)
    else addOutputs c scripts txid (vout + 1) os db

/-- The second loop of `apply` (wallet.rs:84-89). -/
def removeInputs (inputs : List OutPoint) (db : Db) : Db := inputs.foldl Db.removeUtxo db

/-- `apply` (wallet.rs:66-90). -/
def apply (c : Codec) (scripts : List Nat) (tx : Transaction) (db : Db) : Res Err Db := do
  let db ← addOutputs c scripts tx.txid 0 tx.outputs db
  .ok (removeInputs tx.inputs db)

/-- The loop over the transactions of a block (wallet.rs:256-258). -/
def applyAll (c : Codec) (scripts : List Nat) : List Transaction → Db → Res Err Db
  | [], db => .ok db
  | tx :: txs, db => do
    let db ← apply c scripts tx db
    applyAll c scripts txs db

/-- `handle_client_event` for `BlockMatched` (wallet.rs:255-268): the database, and the balance shown.  An error ends the wallet. -/
def blockMatched (c : Codec) (scripts : List Nat) (b : Block) (db : Db) : Res Err (Db × Nat) := do
  let db ← applyAll c scripts b.txs db
  let balance ← db.balance
  .ok (db, balance)

/-- The blocks of a scan (`run`, wallet.rs:189-195), with the balance shown last. -/
def scan (c : Codec) (scripts : List Nat) : List Block → Db × Nat → Res Err (Db × Nat)
  | [], s => .ok s
  | b :: bs, s => do
    let s ← blockMatched c scripts b s.1
    scan c scripts bs s

/-! ## Addresses -/

/-- A row of `addresses` (schema.sql:12-18) that matters: `id`, the address, and `index`; both are unique. -/
structure AddressRow where
  address : Nat
  index : Nat
  deriving DecidableEq, Repr

/-- `add_address` (db.rs:185-211): `INSERT … ON CONFLICT DO UPDATE SET label`; labels are not modelled, so a conflict changes nothing. -/
def addAddress (t : List AddressRow) (address index : Nat) : List AddressRow :=
  if t.any (fun r => decide (r.address = address) || decide (r.index = index)) then t else t ++ [⟨address, index⟩]

/-- The start of `run` (wallet.rs:103-122): given the stored addresses and what the device answers, the addresses stored afterwards and the addresses
that are watched (a hash set; here a list, of which only membership matters). -/
def start (t : List AddressRow) (device : Option (List (Nat × Nat))) : List AddressRow × List Nat :=
  if t.isEmpty then
    match device with
    | some l => (l.foldl (fun t p => addAddress t p.2 p.1) t, l.map (·.2))
    | none => (t, [])
  else (t, t.map (·.address))

/-! ## Statements -/

/-- The statements that change the table `utxos`.  (wallet/src/wallet/db.rs:151-183) -/
inductive Stmt where
  | add (k : OutPoint) (address value : Nat)
  | remove (k : OutPoint)
  deriving DecidableEq, Repr

/-- Executing a statement.  (wallet/src/wallet/db.rs:151-183) -/
def Db.exec (db : Db) : Stmt → Db
  | .add k address value => db.addUtxo k address value
  | .remove k => db.removeUtxo k

/-- The statement `apply` executes for one output (wallet.rs:71-80), if there is an address for each watched script. -/
def addStmt (c : Codec) (scripts : List Nat) (k : OutPoint) (o : TxOut) : List Stmt :=
  if scripts.contains o.script then
    match c.fromScript o.script with
    | some address => [.add k address o.value]
    | none => []
  else []

/-- The statements `apply` executes for the outputs (wallet.rs:68-81), from output number `vout` on. -/
def addStmts (c : Codec) (scripts : List Nat) (txid : Nat) : Nat → List TxOut → List Stmt
  | _, [] => []
  | vout, o :: os => addStmt c scripts ⟨txid, vout⟩ o ++ addStmts c scripts txid (vout + 1) os

/-- The statements `apply` executes (wallet.rs:66-90), one after the other. -/
def stmts (c : Codec) (scripts : List Nat) (tx : Transaction) : List Stmt := addStmts c scripts tx.txid 0 tx.outputs ++ tx.inputs.map .remove

end Verif.Wallet
