import Verif.Wallet.PropsScreen
import Verif.Wallet.Scenarios

/-!
# What the wallet shows: concrete cases
-/

set_option autoImplicit false

namespace Verif.Wallet.Screen.Scenario
open Verif.Tx (OutPoint TxOut Transaction Block)
open Verif.Wallet.Scenario (codec codec_sound blocks receive coins txs_eq txs_sane)

/-- The wallet after a history. -/
def after (offline : Bool) (h : Hist) : Res Err App :=
  h.foldr (fun x a => do
    let a ← a
    step codec (codec.watch [1]) offline x.1 a x.2) (begin codec 0 Db.new [⟨1, 0⟩] 100 offline)

theorem after_run (offline : Bool) : ∀ (h : Hist) {a : App}, after offline h = .ok a → Run codec (codec.watch [1]) offline 0 Db.new [⟨1, 0⟩] h a
  | [], _, e => .start e
  | x :: h, _, e => by
    obtain ⟨a, e1, e2⟩ := Res.bind_eq_ok.1 (show (after offline h >>= fun a => step codec (codec.watch [1]) offline x.1 a x.2) = _ from e)
    exact .step (after_run offline h e1) e2

/-- Loading, then headers, filters and two blocks; the user goes to the addresses and back. -/
def day : Hist :=
  [(190, .key .left), (180, .key .left), (170, .event (.blockMatched ⟨2, [Wallet.Scenario.spend, Wallet.Scenario.more]⟩)), (160, .key .right), (150, .key .right),
    (140, .event (.filterProcessed 2)), (130, .event (.blockMatched ⟨1, [receive]⟩)), (120, .event (.filterProcessed 1)), (110, .event (.headersImported 2)),
    (100, .event (.ready 2)), (50, .loading (.verified 0)), (20, .loading (.blockHeader 0))]

/-- What is on the screen after a history. -/
def shown (offline : Bool) (h : Hist) : Option Screen := match after offline h with | .ok a => some a.screen | _ => none

theorem shown_run {offline : Bool} {h : Hist} {x : Screen} (e : shown offline h = some x) :
    ∃ a, Run codec (codec.watch [1]) offline 0 Db.new [⟨1, 0⟩] h a ∧ a.screen = x := by
  unfold shown at e
  split at e
  · next a e1 => cases e; exact ⟨a, after_run offline h e1, rfl⟩
  · cases e

/-- What the screen shows at the end of it. -/
theorem day_shown : shown false day = some ⟨some (34, .scanning 2 2, .utxos), some (.utxos [(⟨2, 1⟩, ⟨29, 1⟩), (⟨3, 0⟩, ⟨5, 1⟩)]), some 100⟩ := by decide +kernel

/-- The hypotheses of `C127_shown` and of `C127_balance` are met. -/
example : ∃ a, Run codec (codec.watch [1]) false 0 Db.new [⟨1, 0⟩] day a ∧ (∃ balance st, a.screen.header = some (balance, st, .utxos) ∧ a.db.balance = .ok balance) ∧
    ∃ st, a.screen.header = some (([((⟨2, 1⟩ : OutPoint), (⟨29, 1⟩ : TxOut)), (⟨3, 0⟩, ⟨5, 1⟩)].map (·.2.value)).sum, st, .utxos) := by
  obtain ⟨a, r, -⟩ := shown_run day_shown
  have e : matched day = blocks := by decide +kernel
  have t : selected day = .utxos := by decide +kernel
  obtain ⟨balance, st, x, b, h1, h2, h3, -, h4, -⟩ := C127_shown r (.inl (by simp [day]))
  rw [t] at h1
  refine ⟨a, r, ⟨balance, st, h1, h4⟩, ?_⟩
  rw [← t]
  exact C127_balance codec_sound r (.inl (by simp [day])) (e ▸ txs_eq ▸ txs_sane) (by decide) (e ▸ coins) (by decide)

/-- The hypotheses of `C127_status_partial` are met, by an event and by loading. -/
example : (∃ a balance tab, Run codec (codec.watch [1]) false 0 Db.new [⟨1, 0⟩] [(9, .event (.scanned 3)), (5, .event (.headersImported 3))] a ∧
      a.screen.header = some (balance, .synced 3, tab)) ∧
    ∃ a balance tab, Run codec (codec.watch [1]) false 0 Db.new [⟨1, 0⟩] [(37, .loading (.blockHeader 9)), (20, .loading (.blockHeader 8))] a ∧
      a.screen.header = some (balance, .loadingBlocks 9, tab) := by
  constructor
  · obtain ⟨a, r, -⟩ := shown_run (offline := false) (h := [(9, .event (.scanned 3)), (5, .event (.headersImported 3))])
      (x := ⟨some (0, .synced 3, .utxos), some (.utxos []), some 100⟩) (by decide +kernel)
    obtain ⟨balance, tab, h⟩ := C127_status_partial r (.inl trivial)
    exact ⟨a, balance, tab, r, h⟩
  · obtain ⟨a, r, -⟩ := shown_run (offline := false) (h := [(37, .loading (.blockHeader 9)), (20, .loading (.blockHeader 8))])
      (x := ⟨some (0, .loadingBlocks 9, .utxos), some (.utxos []), some 100⟩) (by decide +kernel)
    obtain ⟨balance, tab, h⟩ := C127_status_partial r (.inr ⟨trivial, by decide, by decide⟩)
    exact ⟨a, balance, tab, r, h⟩

/-- `C127_no_panic`: also the error occurs. -/
example : step codec (codec.watch [1]) false 1 ⟨Ui.default, ⟨none, none, none⟩, Db.new, [], 0⟩ (.event (.blockMatched ⟨3, [Wallet.Scenario.forged]⟩)) = .err .overflow := by
  decide +kernel

/-! ## Counterexamples -/

/-- The last thing loaded may never be shown, if it came within 16 ms of the one before. -/
theorem C127_stale : (shown false [(99999, .event (.peerHeight 7)), (36, .loading (.blockHeader 9)), (20, .loading (.blockHeader 8))]).bind (·.header) =
    some (0, .loadingBlocks 8, .utxos) := by decide +kernel

/-- The chain has two blocks, and the filters of both were processed; the client then says so in an event that names the next height
(`Verif.Cbf.Scenario.C62_scanned_not_yet`), and the wallet shows that it is still syncing, beyond the end of the chain: "Syncing 3/2 (150.00%)". -/
theorem C127_not_synced : (shown false [(5, .event (.scanned 3)), (4, .event (.filterProcessed 2)), (3, .event (.filterProcessed 1)), (2, .event (.headersImported 2)),
    (1, .event (.ready 0))]).bind (·.header) =
    some (0, .syncing 3 2, .utxos) := by decide +kernel

/-- The chain has three blocks, and the filter of the last was not processed: the wallet shows that it is synced to block three. -/
theorem C127_synced_early : (shown false [(5, .event (.scanned 3)), (4, .event (.filterProcessed 2)), (3, .event (.filterProcessed 1)), (2, .event (.headersImported 3)),
    (1, .event (.ready 0))]).bind (·.header) =
    some (0, .synced 3, .utxos) := by decide +kernel

/-- Started with the headers of five blocks in its store, the client imports none; the wallet takes the height of the chain to be zero: "Syncing 5/0 (inf%)". -/
theorem C127_restarted : (shown false [(3, .event (.scanned 5)), (2, .event (.filterProcessed 4)), (1, .event (.ready 5))]).bind (·.header) =
    some (0, .syncing 5 0, .utxos) := by decide +kernel

/-- Before anything happens the screen is empty, unless the wallet is offline. -/
theorem C127_blank : shown false [] = some ⟨none, none, none⟩ ∧
    shown true [] = some ⟨some (0, .ready 0 true, .utxos), some (.utxos []), some 100⟩ := by decide +kernel

end Verif.Wallet.Screen.Scenario
