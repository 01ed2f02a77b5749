import Verif.Wallet.Props

/-!
# The wallet: scenarios

A wallet with address 1; scripts are addresses.
-/

set_option autoImplicit false

namespace Verif.Wallet.Scenario
open Verif.Wallet
open Verif.Tx (OutPoint TxOut Transaction Block)

def codec : Codec := ⟨id, some⟩

theorem codec_sound : codec.Sound := fun a => ⟨a, rfl, rfl⟩

/-- Receives 50. -/
def receive : Transaction := ⟨1, 1, [⟨100, 0⟩], [⟨50, 1⟩, ⟨7, 9⟩], 400⟩
/-- Spends them: 20 to someone else, 29 back. -/
def spend : Transaction := ⟨2, 2, [⟨1, 0⟩], [⟨20, 9⟩, ⟨29, 1⟩], 400⟩
/-- Receives 5. -/
def more : Transaction := ⟨3, 3, [⟨101, 0⟩], [⟨5, 1⟩], 400⟩

def blocks : List Block := [⟨1, [receive]⟩, ⟨2, [spend, more]⟩]
def txs : List Transaction := [receive, spend, more]

theorem txs_eq : blocks.flatMap (·.txs) = txs := rfl

/-- Transactions with distinct ids are sane if their amounts are. -/
theorem sane_of (l : List Transaction) (h : l.all (fun t => l.all (fun t' => decide (t.txid = t'.txid → t.outputs = t'.outputs))) = true)
    (h' : l.all (fun t => t.outputs.all (fun o => decide (o.value < 2 ^ 64))) = true) : Sane l := by
  simp only [List.all_eq_true, decide_eq_true_eq] at h h'
  exact ⟨h, h'⟩

theorem txs_sane : Sane txs := sane_of txs (by decide) (by decide)

/-- A coin that is known to be created twice is not known to be spent before. -/
theorem ordered_of : ∀ (l : List Transaction), l.Pairwise (fun t t' => ∀ k ∈ t.inputs, k.txid ≠ t'.txid) → Ordered l := by
  intro l h pre tx post e t ht k hk
  rw [e, List.pairwise_append] at h
  exact h.2.2 t ht tx (by simp) k hk

theorem txs_ordered : Ordered txs := ordered_of txs (by decide)

def result : Db := ⟨[(⟨2, 1⟩, ⟨1, 29⟩), (⟨3, 0⟩, ⟨1, 5⟩)]⟩

theorem scanned : scan codec (codec.watch [1]) blocks (Db.new, 0) = .ok (result, 34) := by decide

/-- The hypotheses of `C57_coins` and `C57_coins_chain` are met; the wallet has two coins and not the one it spent. -/
example : result.utxo codec ⟨2, 1⟩ = some ⟨29, 1⟩ ∧ Unspent codec [1] txs ⟨2, 1⟩ ⟨29, 1⟩ ∧ ¬ Unspent codec [1] txs ⟨1, 0⟩ ⟨50, 1⟩ := by
  refine ⟨by decide, ?_, fun h => ?_⟩
  · exact (C57_coins codec_sound (txs_eq ▸ txs_sane) scanned ⟨2, 1⟩ ⟨29, 1⟩).1 (by decide)
  · have := (C57_coins codec_sound (txs_eq ▸ txs_sane) scanned ⟨1, 0⟩ ⟨50, 1⟩).2 h
    revert this; decide

example : ∃ b ∈ blocks, ∃ tx ∈ b.txs, Pays codec [1] tx ⟨3, 0⟩ ⟨5, 1⟩ :=
  ((C57_coins_chain codec_sound (txs_eq ▸ txs_sane) (txs_eq ▸ txs_ordered) scanned ⟨3, 0⟩ ⟨5, 1⟩).1 (by decide)).1

theorem coins (k : OutPoint) (o : TxOut) :
    (k, o) ∈ [((⟨2, 1⟩ : OutPoint), (⟨29, 1⟩ : TxOut)), (⟨3, 0⟩, ⟨5, 1⟩)] ↔ Unspent codec [1] (blocks.flatMap (·.txs)) k o := by
  rw [← C57_coins codec_sound (txs_eq ▸ txs_sane) scanned k o]
  exact mem_list (c := codec) (db := result) (by decide) k o

/-- The hypotheses of `C57_balance_shown` (and of `C57_balance`) are met. -/
example : 34 = (([((⟨2, 1⟩ : OutPoint), (⟨29, 1⟩ : TxOut)), (⟨3, 0⟩, ⟨5, 1⟩)] : List (OutPoint × TxOut)).map (·.2.value)).sum :=
  C57_balance_shown codec_sound (txs_eq ▸ txs_sane) (by decide) scanned (by decide) coins (by decide)

/-- The hypotheses of `C57_runs` are met. -/
example : ∃ db balance, scan codec (codec.watch [1]) blocks (Db.new, 0) = .ok (db, balance) := by
  refine C57_runs codec_sound blocks (txs_eq ▸ txs_sane) fun pre hp => ?_
  have key : ∀ n (db : Db) (b : Nat), scan codec (codec.watch [1]) (blocks.take n) (Db.new, 0) = .ok (db, b) → db.utxos.keys.Nodup →
      Sane ((blocks.take n).flatMap (·.txs)) → ((db.list codec).map (·.2.value)).sum < 2 ^ 63 → pre = blocks.take n →
      ∃ l : List (OutPoint × TxOut), l.Nodup ∧ (∀ k o, (k, o) ∈ l ↔ Unspent codec [1] (pre.flatMap (·.txs)) k o) ∧ (l.map (·.2.value)).sum < 2 ^ 63 := by
    rintro n db b e hn hs ht rfl
    exact ⟨db.list codec, nodup_list hn, fun k o => by rw [← C57_coins codec_sound hs e, mem_list hn], ht⟩
  have hl : pre.length ≤ 2 := hp.length_le
  have he := List.prefix_iff_eq_take.1 hp
  have : pre.length = 0 ∨ pre.length = 1 ∨ pre.length = 2 := by omega
  rcases this with h | h | h <;> rw [h] at he
  · exact key 0 _ _ rfl (by decide) (sane_of _ (by decide) (by decide)) (by decide) he
  · exact key 1 _ _ rfl (by decide) (sane_of _ (by decide) (by decide)) (by decide) he
  · exact key 2 _ _ rfl (by decide) (sane_of _ (by decide) (by decide)) (by decide) he

/-! ## Counterexamples -/

/-- Two outputs of 2^62 satoshis each. -/
def forged : Transaction := ⟨4, 4, [⟨102, 0⟩], [⟨2 ^ 62, 1⟩, ⟨2 ^ 62, 1⟩], 400⟩

/-- Without the bound on the amounts the balance is not shown: the wallet ends with an error.  (The client does not check that the transactions of a block
belong to it, nor their amounts.) -/
theorem C57_overflow : scan codec (codec.watch [1]) [⟨3, [forged]⟩] (Db.new, 0) = .err .overflow := by decide

/-- An output of 2^64 - 50 satoshis makes coins worth 50 disappear from the balance. -/
theorem C57_negative : ∃ db, scan codec (codec.watch [1]) [⟨1, [receive]⟩, ⟨3, [⟨4, 4, [⟨102, 0⟩], [⟨2 ^ 64 - 50, 1⟩], 400⟩]⟩] (Db.new, 0) = .ok (db, 0) :=
  ⟨_, rfl⟩

/-! ### Restarts -/

/-- Stopped within the second transaction: the change is stored, the coin spent not yet removed. -/
def stopped : Db := ((txs.flatMap (stmts codec (codec.watch [1]))).take 3).foldl Db.exec Db.new

theorem stopped_eq : stopped = ⟨[(⟨1, 0⟩, ⟨1, 50⟩), (⟨2, 1⟩, ⟨1, 29⟩)]⟩ := by decide

theorem stopped_left : Left codec [1] txs stopped := .stopped 3 (.grow txs .new)

/-- The hypotheses of `C83_restart` are met. -/
example : ∃ db', applyAll codec (codec.watch [1]) txs stopped = .ok db' ∧ ∀ k o, db'.utxo codec k = some o ↔ Unspent codec [1] txs k o := by
  refine ⟨_, rfl, ?_⟩
  exact C83_restart codec_sound txs_sane stopped_left rfl

/-- While the chain is scanned again, coins that were spent are shown again: after a restart the balance is 50 + 34. -/
theorem C83_during : ∃ db, blockMatched codec (codec.watch [1]) ⟨1, [receive]⟩ result = .ok (db, 84) := ⟨_, rfl⟩

/-! ### Re-organisations -/

/-- A coin of a block that is no longer in the chain stays: the active chain has only `more`. -/
theorem C84_phantom : ∃ db db', applyAll codec (codec.watch [1]) [receive] Db.new = .ok db ∧ applyAll codec (codec.watch [1]) [more] db = .ok db' ∧
    db'.utxo codec ⟨1, 0⟩ = some ⟨50, 1⟩ ∧ db'.balance = .ok 55 ∧ ¬ Unspent codec [1] [more] ⟨1, 0⟩ ⟨50, 1⟩ := by
  refine ⟨_, _, rfl, rfl, by decide, by decide, ?_⟩
  rintro ⟨pre, tx, post, h1, h2, -⟩
  have hm : tx ∈ [more] := by rw [h1]; simp
  rw [List.mem_singleton] at hm
  subst hm
  exact absurd h2.1 (by decide)

/-- A coin that was spent in a block that is no longer in the chain is missing: the active chain is `receive`, `more`; the wallet has seen `spend` in between. -/
theorem C84_lost : ∃ db, applyAll codec (codec.watch [1]) [receive, spend, more] Db.new = .ok db ∧ db.utxo codec ⟨1, 0⟩ = none ∧
    Unspent codec [1] [receive, more] ⟨1, 0⟩ ⟨50, 1⟩ := by
  refine ⟨_, rfl, by decide, [], receive, [more], rfl, ⟨rfl, rfl, 1, by decide, rfl⟩, by decide⟩

/-- The hypotheses of `C84_rescan_partial` are met. -/
example : ∃ db', applyAll codec (codec.watch [1]) [receive, more] result = .ok db' ∧ db'.utxo codec ⟨1, 0⟩ = some ⟨50, 1⟩ := by
  refine ⟨_, rfl, ?_⟩
  refine (C84_rescan_partial (addrs := [1]) (txs := [receive, more]) (old := txs) (db := result) codec_sound (sane_of _ (by decide) (by decide)) ?_ rfl ⟨1, 0⟩ ⟨50, 1⟩).1
    ⟨[], receive, [more], rfl, ⟨rfl, rfl, 1, by decide, rfl⟩, by decide⟩
  exact (show Left codec [1] txs (((txs.flatMap (stmts codec (codec.watch [1]))).take 10).foldl Db.exec Db.new) from .stopped 10 (.grow txs .new))

/-! ### Addresses -/

/-- The hypotheses of `C85_watched_partial` are met. -/
example : (start (start [] (some [(0, 10), (1, 11)])).1 none).2 = [10, 11] :=
  (C85_watched_partial (by decide) (by decide) (by decide) none).1

/-- Stopped after storing the first of two addresses, the wallet watches only that one from then on. -/
theorem C85_interrupted : (start (addAddress [] 10 0) (some [(0, 10), (1, 11)])).2 = [10] := by decide

end Verif.Wallet.Scenario
