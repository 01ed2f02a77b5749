import Verif.Wallet.Model

/-!
# What the wallet shows: `wallet/src/wallet/ui.rs` and the loops of `wallet/src/wallet.rs`

The screen is what the user sees of its three areas: the header with the balance, the status and the selected tab; the main area; and the message at the bottom.
Not modelled: positions, colours and the text forms (the balance is shown with four decimals), narrow terminals (positions are computed with 16-bit numbers
and wrap or panic), errors of the terminal, the hardware device.
-/

set_option autoImplicit false

namespace Verif.Wallet.Screen
open Verif.Tx (OutPoint TxOut Transaction Block)

/-- `Status` (ui.rs:258-266). -/
inductive Status where
  | ready (height : Nat) (offline : Bool)
  | loadingBlocks (height : Nat)
  | loadingFilters (height : Nat)
  | scanning (height tip : Nat)
  | verifying (height : Nat)
  | syncing (height tip : Nat)
  | synced (height : Nat)
  deriving DecidableEq, Repr

/-- `Tab` (ui.rs:317-321). -/
inductive Tab where
  | utxos
  | history
  | addresses
  deriving DecidableEq, Repr

/-- `Tab::next` (ui.rs:324-330). -/
def Tab.next : Tab → Tab
  | .utxos => .history
  | .history => .addresses
  | .addresses => .utxos

/-- `Tab::prev` (ui.rs:332-338). -/
def Tab.prev : Tab → Tab
  | .utxos => .addresses
  | .history => .utxos
  | .addresses => .history

/-- `Ui` (ui.rs:113-124).  The bits of `redraw` are `header`, `main` and `footer`; `size` is left out. -/
structure Ui where
  message : Nat
  status : Status
  balance : Nat
  tab : Tab
  tip : Nat
  last : Option Nat
  header : Bool
  main : Bool
  footer : Bool
  deriving DecidableEq, Repr

/-- `Ui::default` (ui.rs:126-139). -/
def Ui.default : Ui := ⟨0, .loadingBlocks 0, 0, .utxos, 0, none, true, true, true⟩

/-- What is in the main area. -/
inductive Content where
  | utxos (l : List (OutPoint × TxOut))
  | history
  | addresses (l : List AddressRow)
  deriving DecidableEq, Repr

/-- What is on the screen; an area that was cleared and not drawn is empty. -/
structure Screen where
  header : Option (Nat × Status × Tab)
  main : Option Content
  footer : Option Nat
  deriving DecidableEq, Repr

/-- `Wallet` (wallet.rs:36-44) with the screen.  `header` is `tips.header`; `tips.cfilter` is never read. -/
structure App where
  ui : Ui
  screen : Screen
  db : Db
  addresses : List AddressRow
  header : Nat
  deriving DecidableEq, Repr

/-- `draw_utxo_tab`, `draw_history_tab`, `draw_addresses_tab` (ui.rs:440-485).  The column `received` of the addresses is never written, so always zero. -/
def content (c : Codec) (db : Db) (addresses : List AddressRow) : Tab → Res Err Content
  | .utxos => if (db.list c).all (fun p => (c.fromScript p.2.script).isSome) then .ok (.utxos (db.list c)) else .panic
  | .history => .ok .history
  | .addresses => .ok (.addresses addresses)

/-- `refresh` (ui.rs:351-385). -/
def refresh (c : Codec) (now : Nat) (a : App) : Res Err App := do
  let a := if a.ui.header then { a with screen := { a.screen with header := some (a.ui.balance, a.ui.status, a.ui.tab) } } else a
  let a ←
    if a.ui.main then do
      let x ← content c a.db a.addresses a.ui.tab
      .ok { a with screen := { a.screen with main := some x, footer := none }, ui := { a.ui with footer := true } }
    else .ok a
  let a := if a.ui.footer then { a with screen := { a.screen with footer := some a.ui.message } } else a
  .ok (if a.ui.header || a.ui.main || a.ui.footer then { a with ui := { a.ui with header := false, main := false, footer := false, last := some now } } else a)

/-- `Ui::reset` (ui.rs:157-166); the line drawn by `decorations` (168-178) is left out. -/
def App.reset (a : App) : App := { a with screen := ⟨none, none, none⟩ }

/-- `Ui::redraw` (ui.rs:142-150). -/
def redraw (c : Codec) (now : Nat) (a : App) : Res Err App :=
  refresh c now { a with ui := { a.ui with header := true, main := true, footer := true } }.reset

/-- `set_balance` (ui.rs:180-183). -/
def Ui.setBalance (u : Ui) (b : Nat) : Ui := { u with balance := b, header := true }

/-- A new status (ui.rs:152-155, 185-197, 203-211): the header is to be drawn. -/
def Ui.setStatus (u : Ui) (s : Status) : Ui := { u with status := s, header := true }

/-- The start of `run` (wallet.rs:128-137): the loop for loading (143-170) follows, unless offline. -/
def begin (c : Codec) (now : Nat) (db : Db) (addresses : List AddressRow) (birth : Nat) (offline : Bool) : Res Err App := do
  let balance ← db.balance
  let a : App := ⟨{ Ui.default with message := birth }, ⟨none, none, none⟩, db, addresses, 0⟩
  let a := a.reset
  let a := { a with ui := (a.ui.setBalance balance).setStatus (.ready 0 offline) }
  if offline then refresh c now a else .ok a

/-- `client::Loading` (client/src/event.rs). -/
inductive Loading where
  | blockHeader (height : Nat)
  | filterHeader (height : Nat)
  | verified (height : Nat)
  deriving DecidableEq, Repr

/-- The status for it (ui.rs:231-241). -/
def Loading.status : Loading → Status
  | .blockHeader n => .loadingBlocks n
  | .filterHeader n => .loadingFilters n
  | .verified n => .verifying n

/-- The events of the client that matter (wallet.rs:241-273). -/
inductive Event where
  | ready (tip : Nat)
  | peerHeight (height : Nat)
  | filterProcessed (height : Nat)
  | headersImported (height : Nat)
  | blockMatched (b : Block)
  | scanned (height : Nat)
  | other
  deriving DecidableEq, Repr

/-- Keys: right or tabulator, left, any other.  The first function key connects to the hardware device, which changes nothing here. -/
inductive Key where
  | right
  | left
  | other
  deriving DecidableEq, Repr

/-- What wakes up the loops of `run`, with the time. -/
inductive Op where
  | loading (l : Loading)
  | key (k : Key)
  | resize
  | event (e : Event)
  deriving DecidableEq, Repr

/-- `handle_loading_event` (ui.rs:230-250): drawn at most once in 16 ms. -/
def App.loading (a : App) (now : Nat) (l : Loading) : App :=
  { a with ui := { a.ui with
    status := l.status
    header := a.ui.header || (match a.ui.last with | none => true | some t => decide (t + 16 < now)) } }

/-- `handle_input` (wallet.rs:203-214) and `handle_input_event` (ui.rs:213-228). -/
def App.key (a : App) : Key → App
  | .right => { a with ui := { a.ui with tab := a.ui.tab.next, header := true, main := true } }
  | .left => { a with ui := { a.ui with tab := a.ui.tab.prev, header := true, main := true } }
  | .other => a

/-- `handle_client_event` (wallet.rs:232-275) with the handlers of ui.rs (185-211).  `scripts`: those watched. -/
def App.event (c : Codec) (scripts : List Nat) (offline : Bool) (now : Nat) (a : App) : Event → Res Err App
  | .ready tip => .ok { a with ui := { (a.ui.setStatus (.ready tip offline)) with tip := tip } }
  | .peerHeight h => .ok { a with ui := { a.ui with tip := h } }
  | .filterProcessed h => .ok { a with ui := a.ui.setStatus (.scanning h a.ui.tip) }
  | .headersImported h => .ok { a with header := h }
  | .blockMatched b => do
    let (db, balance) ← blockMatched c scripts b a.db
    redraw c now { a with db := db, ui := a.ui.setBalance balance }
  | .scanned h => .ok { a with ui := { (a.ui.setStatus (if a.header = h then .synced h else .syncing h a.header)) with tip := a.header } }
  | .other => .ok a

/-- What happened is handled (wallet.rs:144-168, 175-197); `handle_signal` (216-230). -/
def App.handle (c : Codec) (scripts : List Nat) (offline : Bool) (now : Nat) (a : App) : Op → Res Err App
  | .loading l => .ok (a.loading now l)
  | .key k => .ok (a.key k)
  | .resize => redraw c now a
  | .event e => a.event c scripts offline now e

/-- One round of the loops of `run` (wallet.rs:143-170, 174-199): what happened is handled, and the screen is refreshed.  That loading events come first and client
events afterwards is left out: they may come in any order here. -/
def step (c : Codec) (scripts : List Nat) (offline : Bool) (now : Nat) (a : App) (op : Op) : Res Err App := do
  let a ← a.handle c scripts offline now op
  refresh c now a

end Verif.Wallet.Screen
