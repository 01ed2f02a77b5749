import Verif.Wallet.Lemmas
/-!
# What the wallet's database says it did: wallet/src/wallet/db.rs, wallet/src/wallet/db/types.rs (C155)

`Verif.Wallet.Model` has the statements that succeed; here statements may also fail, and the results of the functions are modelled.  A statement may fail when it is prepared or bound, or when it is
executed (disk full, file locked by another program, input/output error); the counter that `change_count` reads is then whatever SQLite leaves there (a parameter).
-/

set_option autoImplicit false

namespace Verif.Wallet.Database

open Verif (AMap)
open Verif.Tx (OutPoint TxOut)

/-- What becomes of a statement that writes. -/
inductive Fate where
  | done
  /-- `prepare` or `bind` fails. -/
  | unprepared
  /-- The step fails, and the counter of changes is this afterwards. -/
  | refused (changes : Nat)
  deriving DecidableEq, Repr

/-- What becomes of a statement that reads: the step that would give row number `n` may fail. -/
inductive ReadFate where
  | done
  | unprepared
  | fails (n : Nat)
  deriving DecidableEq, Repr

/-- A row of `addresses` (schema.sql:12-18); `received` and `used` are never written. -/
structure Owned where
  address : Nat
  index : Int
  label : Option String
  deriving DecidableEq, Repr

/-- A database with its connection: the two tables, and the counter of changes. -/
structure Conn where
  coins : Db
  addresses : List Owned
  changes : Nat
  deriving DecidableEq, Repr

/-- `add_utxo` (db.rs:151-169).  The result of the step (166) is dropped. -/
def Conn.addUtxo (s : Conn) (f : Fate) (k : OutPoint) (address value : Nat) : Except Unit Bool × Conn :=
  match f with
  | .unprepared => (.error (), s)
  | .refused n => (.ok (decide (0 < n)), { s with changes := n })
  | .done =>
    let n := if s.coins.utxos.contains k then 0 else 1
    (.ok (decide (0 < n)), { s with coins := s.coins.addUtxo k address value, changes := n })

/-- `utxo` (db.rs:71-103).  A step that fails is taken for the end of the rows (`if let Some(Ok(row))`, 87). -/
def Conn.utxo (c : Codec) (s : Conn) (r : ReadFate) (k : OutPoint) : Except Unit (Option TxOut) :=
  match r with
  | .unprepared => .error ()
  | .fails 0 => .ok none
  | _ => .ok (s.coins.utxo c k)

/-- `remove_utxo` (db.rs:171-183).  Here all errors of the deletion are passed on. -/
def Conn.removeUtxo (c : Codec) (s : Conn) (r : ReadFate) (f : Fate) (k : OutPoint) : Except Unit (Option TxOut) × Conn :=
  match s.utxo c r k with
  | .error e => (.error e, s)
  | .ok o =>
    match f with
    | .unprepared => (.error (), s)
    | .refused n => (.error (), { s with changes := n })
    | .done => (.ok o, { s with coins := s.coins.removeUtxo k, changes := if s.coins.utxos.contains k then 1 else 0 })

/-- `utxos` (db.rs:105-132): the loop ends at the first step that fails (`while let Some(Ok(row))`, 112). -/
def Conn.utxos (c : Codec) (s : Conn) (r : ReadFate) : Except Unit (List (OutPoint × TxOut)) :=
  match r with
  | .unprepared => .error ()
  | .fails n => .ok ((s.coins.list c).take n)
  | .done => .ok (s.coins.list c)

/-- `addresses` (db.rs:134-147; types.rs:70-85), with the same loop. -/
def Conn.listed (s : Conn) (r : ReadFate) : Except Unit (List (Nat × Nat × Option String)) :=
  let rows := s.addresses.map fun o => (o.address, toU64 o.index, o.label)
  match r with
  | .unprepared => .error ()
  | .fails n => .ok (rows.take n)
  | .done => .ok rows

/-- The row that a new row is in conflict with.  If there are two, `idFirst` tells which constraint SQLite looks at first. -/
def conflict (rows : List Owned) (idFirst : Bool) (address : Nat) (index : Int) : Option Owned :=
  let byId := rows.find? fun o => o.address = address
  let byIndex := rows.find? fun o => o.index = index
  if idFirst then byId.or byIndex else byIndex.or byId

/-- `add_address` (db.rs:185-211): `INSERT … ON CONFLICT DO UPDATE SET label`.  The result of the step (208) is dropped. -/
def Conn.addAddress (s : Conn) (f : Fate) (idFirst : Bool) (address index : Nat) (label : Option String) : Except Unit Bool × Conn :=
  match f with
  | .unprepared => (.error (), s)
  | .refused n => (.ok (decide (0 < n)), { s with changes := n })
  | .done =>
    match conflict s.addresses idFirst address (toI64 index) with
    | none => (.ok true, { s with addresses := s.addresses ++ [⟨address, toI64 index, label⟩], changes := 1 })
    | some o => (.ok true, { s with addresses := s.addresses.map fun o' => if o' = o then { o' with label := label } else o', changes := 1 })

/-! ## C155 -/

variable {c : Codec}

/-- **C155.** If adding a coin is not refused, then `true` is returned exactly if the coin was not there; afterwards it is there, with the value and the script that were given if it was not there before;
all other coins and the addresses are as before. (Missing: a refused statement; see `Scenarios.C155_refused_counterexample`.) -/
theorem C155_add_partial {s s' : Conn} {f : Fate} (hf : ∀ n, f ≠ .refused n) {k : OutPoint} {address value : Nat} (hv : value < 2 ^ 64) {b : Bool}
    (h : s.addUtxo f k address value = (.ok b, s')) :
    (b = true ↔ s.coins.utxo c k = none) ∧
    s'.coins.utxo c k = (if b then some ⟨value, c.scriptOf address⟩ else s.coins.utxo c k) ∧
    s'.coins.utxo c k ≠ none ∧ (∀ k', k' ≠ k → s'.coins.utxo c k' = s.coins.utxo c k') ∧ s'.addresses = s.addresses := by
  cases f with
  | unprepared => simp [Conn.addUtxo] at h
  | refused n => exact absurd rfl (hf n)
  | done =>
    simp only [Conn.addUtxo, Prod.mk.injEq, Except.ok.injEq] at h
    obtain ⟨rfl, rfl⟩ := h
    have hget := fun k' => get_addUtxo (db := s.coins) k k' address value
    cases hc : s.coins.utxos.get k with
    | none =>
      have hcon : s.coins.utxos.contains k = false := by
        rw [Bool.eq_false_iff]; intro h1
        rw [AMap.contains_iff] at h1
        exact (AMap.get_eq_none_iff _ _).mp hc h1
      have h2 := hget k
      rw [hc] at h2
      simp only [Option.none_or, if_true] at h2
      refine ⟨by simp [hcon, Db.utxo, hc], by simp [hcon, Db.utxo, h2, toU64_toI64 hv], by simp [Db.utxo, h2], fun k' hk => ?_, rfl⟩
      simp only [Db.utxo, hget k', if_neg (Ne.symm hk), Option.or_none]
    | some r =>
      have hcon : s.coins.utxos.contains k = true := by
        rw [AMap.contains_iff, ← AMap.get_isSome_iff, hc]; rfl
      have h2 := hget k
      rw [hc] at h2
      simp only [Option.some_or] at h2
      refine ⟨by simp [hcon, Db.utxo, hc], by simp [hcon, Db.utxo, h2, hc], by simp [Db.utxo, h2], fun k' hk => ?_, rfl⟩
      simp only [Db.utxo, hget k', if_neg (Ne.symm hk), Option.or_none]

/-- **C155.** Removing a coin: if it is reported as done and the coin could be read, what is returned is the coin that was there, if any, and it is gone; all others are as before. (Missing: the coin
cannot be read; see `Scenarios.C155_unread_counterexample`.) -/
theorem C155_remove_partial {s s' : Conn} {r : ReadFate} (hr : r ≠ .fails 0) {f : Fate} {k : OutPoint} {o : Option TxOut} (h : s.removeUtxo c r f k = (.ok o, s')) :
    o = s.coins.utxo c k ∧ s'.coins.utxo c k = none ∧ (∀ k', k' ≠ k → s'.coins.utxo c k' = s.coins.utxo c k') ∧ s'.addresses = s.addresses := by
  unfold Conn.removeUtxo at h
  split at h
  · simp at h
  · rename_i o1 ho
    cases f with
    | unprepared => simp at h
    | refused n => simp at h
    | done =>
      simp only [Prod.mk.injEq, Except.ok.injEq] at h
      obtain ⟨rfl, rfl⟩ := h
      refine ⟨?_, ?_, fun k' hk => ?_, rfl⟩
      · unfold Conn.utxo at ho
        split at ho
        · simp at ho
        · exact absurd rfl hr
        · simp only [Except.ok.injEq] at ho; exact ho.symm
      · simp [Db.utxo, Db.removeUtxo]
      · simp only [Db.utxo, Db.removeUtxo]
        rw [AMap.get_erase_ne _ (Ne.symm hk)]

/-- **C155.** Whenever an error is returned, the tables are as before. -/
theorem C155_errors {s s' : Conn} {f : Fate} {r : ReadFate} {k : OutPoint} {address value index : Nat} {idFirst : Bool} {label : Option String} :
    (s.addUtxo f k address value = (.error (), s') → s'.coins = s.coins ∧ s'.addresses = s.addresses) ∧
    (s.removeUtxo c r f k = (.error (), s') → s'.coins = s.coins ∧ s'.addresses = s.addresses) ∧
    (s.addAddress f idFirst address index label = (.error (), s') → s'.coins = s.coins ∧ s'.addresses = s.addresses) := by
  refine ⟨fun h => ?_, fun h => ?_, fun h => ?_⟩
  · cases f with
    | unprepared => simp only [Conn.addUtxo, Prod.mk.injEq, true_and] at h; subst h; exact ⟨rfl, rfl⟩
    | refused n => simp [Conn.addUtxo] at h
    | done => simp [Conn.addUtxo] at h
  · unfold Conn.removeUtxo at h
    split at h
    · simp only [Prod.mk.injEq] at h; obtain ⟨-, rfl⟩ := h; exact ⟨rfl, rfl⟩
    · cases f with
      | unprepared => simp only [Prod.mk.injEq, true_and] at h; subst h; exact ⟨rfl, rfl⟩
      | refused n => simp only [Prod.mk.injEq, true_and] at h; subst h; exact ⟨rfl, rfl⟩
      | done => simp at h
  · cases f with
    | unprepared => simp only [Conn.addAddress, Prod.mk.injEq, true_and] at h; subst h; exact ⟨rfl, rfl⟩
    | refused n => simp [Conn.addAddress] at h
    | done =>
      unfold Conn.addAddress at h
      dsimp only at h
      split at h <;> simp at h

/-- **C155.** A new address with a new index is listed afterwards, behind the others, with its index and label. (Missing: a refused statement, and an index that is taken; see
`Scenarios.C155_index_counterexample`.) -/
theorem C155_address_partial {s s' : Conn} {f : Fate} (hf : ∀ n, f ≠ .refused n) {idFirst : Bool} {address index : Nat} {label : Option String} (hi : index < 2 ^ 64) {b : Bool}
    (hl : ∀ o ∈ s.addresses, o.address ≠ address ∧ o.index ≠ toI64 index) (h : s.addAddress f idFirst address index label = (.ok b, s')) :
    b = true ∧ s'.coins = s.coins ∧ ∃ l, s.listed .done = .ok l ∧ s'.listed .done = .ok (l ++ [(address, index, label)]) := by
  cases f with
  | unprepared => simp [Conn.addAddress] at h
  | refused n => exact absurd rfl (hf n)
  | done =>
    have hc : conflict s.addresses idFirst address (toI64 index) = none := by
      have h1 : s.addresses.find? (fun o => o.address = address) = none := by
        rw [List.find?_eq_none]; intro o ho; simpa using (hl o ho).1
      have h2 : s.addresses.find? (fun o => o.index = toI64 index) = none := by
        rw [List.find?_eq_none]; intro o ho; simpa using (hl o ho).2
      simp [conflict, h1, h2]
    simp only [Conn.addAddress, hc, Prod.mk.injEq, Except.ok.injEq] at h
    obtain ⟨rfl, rfl⟩ := h
    exact ⟨rfl, rfl, _, rfl, by simp [Conn.listed, toU64_toI64 hi]⟩

/-- **C155.** Adding an address again changes its label, and nothing else. -/
theorem C155_relabel_partial {s s' : Conn} {f : Fate} (hf : ∀ n, f ≠ .refused n) {idFirst : Bool} {address index : Nat} {label : Option String} {b : Bool} {o : Owned}
    (ho : o ∈ s.addresses) (ha : o.address = address) (hi : o.index = toI64 index) (hu : ∀ o' ∈ s.addresses, o'.address = address ∨ o'.index = toI64 index → o' = o)
    (h : s.addAddress f idFirst address index label = (.ok b, s')) :
    b = true ∧ s'.coins = s.coins ∧ s'.addresses = s.addresses.map fun o' => if o' = o then { o' with label := label } else o' := by
  cases f with
  | unprepared => simp [Conn.addAddress] at h
  | refused n => exact absurd rfl (hf n)
  | done =>
    have key : ∀ p : Owned → Bool, (∀ o', p o' = true → o'.address = address ∨ o'.index = toI64 index) → p o = true → s.addresses.find? p = some o := by
      intro p hp hpo
      cases hfind : s.addresses.find? p with
      | none => exact absurd hpo (by simpa using List.find?_eq_none.mp hfind o ho)
      | some o' => rw [hu o' (List.mem_of_find?_eq_some hfind) (hp o' (List.find?_some hfind))]
    have hc : conflict s.addresses idFirst address (toI64 index) = some o := by
      have h1 := key (fun o => o.address = address) (fun o' h => .inl (by simpa using h)) (by simpa using ha)
      have h2 := key (fun o => o.index = toI64 index) (fun o' h => .inr (by simpa using h)) (by simpa using hi)
      simp [conflict, h1, h2]
    simp only [Conn.addAddress, hc, Prod.mk.injEq, Except.ok.injEq] at h
    obtain ⟨rfl, rfl⟩ := h
    exact ⟨rfl, rfl, rfl⟩

/-- **C155.** A list of coins that is read without failures has exactly the coins; in any case it has no others.  (Missing: after a failure it is cut off; see `Scenarios.C155_cut_counterexample`.) -/
theorem C155_list_partial {s : Conn} (hn : (AMap.keys s.coins.utxos).Nodup) {r : ReadFate} {l : List (OutPoint × TxOut)} (h : s.utxos c r = .ok l) :
    (∀ k o, (k, o) ∈ l → s.coins.utxo c k = some o) ∧ (r = .done → ∀ k o, s.coins.utxo c k = some o → (k, o) ∈ l) := by
  have hall : ∀ k o, (k, o) ∈ s.coins.list c ↔ s.coins.utxo c k = some o := by
    intro k o
    simp only [Db.list, List.mem_map, Db.utxo, Option.map_eq_some_iff, Prod.mk.injEq]
    constructor
    · rintro ⟨⟨k', row⟩, hm, rfl, rfl⟩
      exact ⟨row, AMap.get_of_mem hn hm, rfl⟩
    · rintro ⟨row, hg, rfl⟩
      exact ⟨(k, row), AMap.mem_of_get hg, rfl, rfl⟩
  cases r with
  | unprepared => simp [Conn.utxos] at h
  | fails n =>
    simp only [Conn.utxos, Except.ok.injEq] at h
    subst h
    exact ⟨fun k o hm => (hall k o).mp (List.mem_of_mem_take hm), fun h => by simp at h⟩
  | done =>
    simp only [Conn.utxos, Except.ok.injEq] at h
    subst h
    exact ⟨fun k o hm => (hall k o).mp hm, fun _ k o hk => (hall k o).mpr hk⟩

namespace Scenarios

/-- The script of an address is ten times its number. -/
def codec : Codec := ⟨fun a => 10 * a, fun s => if s % 10 = 0 then some (s / 10) else none⟩

/-- One coin, one address. -/
def one : Conn := ⟨⟨[(⟨1, 0⟩, ⟨7, 500⟩)]⟩, [⟨7, 0, none⟩], 1⟩

/-- A coin is added, and added again; then it is removed. -/
example : (one.addUtxo .done ⟨2, 1⟩ 7 600).1 = .ok true ∧ ((one.addUtxo .done ⟨2, 1⟩ 7 600).2.addUtxo .done ⟨2, 1⟩ 7 600).1 = .ok false ∧
    (one.removeUtxo codec .done .done ⟨1, 0⟩).1 = .ok (some ⟨500, 70⟩) := by decide

/-- An address is added; then it is given a label. -/
example : (one.addAddress .done true 8 1 none).2.addresses = [⟨7, 0, none⟩, ⟨8, 1, none⟩] ∧
    (one.addAddress .done true 7 0 (some "a")).2.addresses = [⟨7, 0, some "a"⟩] := by decide

/-- **C155** is false of the code: when SQLite refuses to write a coin, no error is returned but "it existed" (or "added", if the counter of changes is not zero), and the coin is not there. -/
theorem C155_refused_counterexample (n : Nat) :
    (one.addUtxo (.refused n) ⟨2, 1⟩ 7 600).1 = .ok (decide (0 < n)) ∧ (one.addUtxo (.refused n) ⟨2, 1⟩ 7 600).2.coins.utxo codec ⟨2, 1⟩ = none ∧
    (one.addAddress (.refused n) true 8 1 none).1 = .ok (decide (0 < n)) ∧ (one.addAddress (.refused n) true 8 1 none).2.addresses = one.addresses :=
  ⟨rfl, rfl, rfl, rfl⟩

/-- **C155** is false of the code: a coin that cannot be read is removed, and "there was none" is returned. -/
theorem C155_unread_counterexample : ∃ s', one.removeUtxo codec (.fails 0) .done ⟨1, 0⟩ = (.ok none, s') ∧
    one.coins.utxo codec ⟨1, 0⟩ = some ⟨500, 70⟩ ∧ s'.coins.utxo codec ⟨1, 0⟩ = none := ⟨_, rfl, by decide, by decide⟩

/-- **C155** is false of the code: adding an address with an index that another one has returns `true`; the address is not stored, and the other one gets its label. -/
theorem C155_index_counterexample (idFirst : Bool) : (one.addAddress .done idFirst 8 0 (some "savings")).1 = .ok true ∧
    (one.addAddress .done idFirst 8 0 (some "savings")).2.addresses = [⟨7, 0, some "savings"⟩] := by cases idFirst <;> decide

/-- **C155** is false of the code: when reading fails, the coins read so far are returned as if they were all. -/
theorem C155_cut_counterexample : one.utxos codec (.fails 0) = .ok [] ∧ one.listed (.fails 0) = .ok [] ∧ one.utxos codec .done = .ok [(⟨1, 0⟩, ⟨500, 70⟩)] := by decide

end Scenarios

end Verif.Wallet.Database
