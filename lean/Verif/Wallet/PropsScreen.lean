import Verif.Wallet.Screen
import Verif.Wallet.Props

/-!
# C127: the wallet shows what it knows
-/

set_option autoImplicit false

namespace Verif.Wallet.Screen
open Verif.Tx (OutPoint TxOut Transaction Block)

/-! ## Specification -/

/-- What happened, with the time in milliseconds, most recent first. -/
abbrev Hist := List (Nat × Op)

/-- Started at a time with a database and addresses, the wallet came to be like this; no error ended it. -/
inductive Run (c : Codec) (scripts : List Nat) (offline : Bool) (t0 : Nat) (db : Db) (addresses : List AddressRow) : Hist → App → Prop where
  | start {birth : Nat} {a : App} (e : begin c t0 db addresses birth offline = .ok a) : Run c scripts offline t0 db addresses [] a
  | step {h : Hist} {a a' : App} {op : Op} {now : Nat} (r : Run c scripts offline t0 db addresses h a) (e : step c scripts offline now a op = .ok a') :
      Run c scripts offline t0 db addresses ((now, op) :: h) a'

/-- How far to the right the user went. -/
def moves : Hist → Int
  | [] => 0
  | (_, .key .right) :: h => moves h + 1
  | (_, .key .left) :: h => moves h - 1
  | _ :: h => moves h

/-- The selected tab: they are arranged in a circle. -/
def selected (h : Hist) : Tab := if moves h % 3 = 0 then .utxos else if moves h % 3 = 1 then .history else .addresses

/-- The blocks that matched, in order. -/
def matched : Hist → List Block
  | [] => []
  | (_, .event (.blockMatched b)) :: h => matched h ++ [b]
  | _ :: h => matched h

/-- The height of the headers imported last. -/
def imported : Hist → Nat
  | [] => 0
  | (_, .event (.headersImported n)) :: _ => n
  | _ :: h => imported h

/-- The height of the chain, as told last. -/
def tipTold : Hist → Nat
  | [] => 0
  | (_, .event (.ready n)) :: _ => n
  | (_, .event (.peerHeight n)) :: _ => n
  | (_, .event (.scanned _)) :: h => imported h
  | _ :: h => tipTold h

/-- What the client was doing last. -/
def doing (offline : Bool) : Hist → Status
  | [] => .ready 0 offline
  | (_, .loading (.blockHeader n)) :: _ => .loadingBlocks n
  | (_, .loading (.filterHeader n)) :: _ => .loadingFilters n
  | (_, .loading (.verified n)) :: _ => .verifying n
  | (_, .event (.ready n)) :: _ => .ready n offline
  | (_, .event (.filterProcessed n)) :: h => .scanning n (tipTold h)
  | (_, .event (.scanned n)) :: h => if imported h = n then .synced n else .syncing n (imported h)
  | _ :: h => doing offline h

/-- The client loads something. -/
def Op.Loads : Op → Prop
  | .loading _ => True
  | _ => False

/-- The event tells what the client is doing. -/
def Op.Tells : Op → Prop
  | .event (.ready _) => True
  | .event (.filterProcessed _) => True
  | .event (.scanned _) => True
  | _ => False

/-- The status was that, and since then the client did nothing but load. -/
def Was (offline : Bool) (h : Hist) (st : Status) : Prop := ∃ new old, h = new ++ old ∧ st = doing offline old ∧ ∀ x ∈ new, ¬ x.2.Tells

/-- What a tab shows, given the coins and the addresses. -/
def Shows (c : Codec) (db : Db) (addresses : List AddressRow) : Tab → Content → Prop
  | .utxos, x => x = .utxos (db.list c)
  | .history, x => x = .history
  | .addresses, x => x = .addresses addresses

/-! ## Refreshing -/

variable {c : Codec} {scripts : List Nat} {offline : Bool} {db : Db} {addresses : List AddressRow} {h : Hist} {a a' : App} {now t0 : Nat}

theorem content_ok {t : Tab} {x : Content} (e : content c db addresses t = .ok x) : Shows c db addresses t x := by
  cases t <;> simp only [content] at e
  · split at e
    · cases e; rfl
    · cases e
  · cases e; rfl
  · cases e; rfl

/-- The areas are up to date or to be drawn; `P`: what is asked of a status that is shown. -/
structure Fresh (c : Codec) (P : Status → Prop) (a : App) : Prop where
  header : a.ui.header = true ∨ ∃ st, a.screen.header = some (a.ui.balance, st, a.ui.tab) ∧ P st
  main : a.ui.main = true ∨ ∃ x, a.screen.main = some x ∧ Shows c a.db a.addresses a.ui.tab x
  footer : a.ui.footer = true ∨ a.ui.main = true ∨ a.screen.footer = some a.ui.message

/-- What the screen is like after a refresh. -/
structure Current (c : Codec) (P : Status → Prop) (a : App) : Prop where
  header : ∃ st, a.screen.header = some (a.ui.balance, st, a.ui.tab) ∧ P st
  main : ∃ x, a.screen.main = some x ∧ Shows c a.db a.addresses a.ui.tab x
  footer : a.screen.footer = some a.ui.message

/-- What refreshing does not touch. -/
structure Same (a a' : App) : Prop where
  db : a'.db = a.db
  addresses : a'.addresses = a.addresses
  header : a'.header = a.header
  status : a'.ui.status = a.ui.status
  balance : a'.ui.balance = a.ui.balance
  tab : a'.ui.tab = a.ui.tab
  tip : a'.ui.tip = a.ui.tip

theorem refresh_ok {P : Status → Prop} (f : Fresh c P a) (p : P a.ui.status) (e : refresh c now a = .ok a') :
    Current c P a' ∧ Same a a' ∧ (a'.ui.last = some now ∨ a'.ui.last = a.ui.last) := by
  obtain ⟨⟨msg, st, bal, tab, tip, last, fh, fm, ff⟩, ⟨sh, sm, sf⟩, d, ad, hd⟩ := a
  obtain ⟨f1, f2, f3⟩ := f
  simp only at f1 f2 f3 p
  unfold refresh at e
  cases fm with
  | true =>
    cases fh <;> simp only [if_true, Bool.false_eq_true, if_false] at e
    all_goals
      obtain ⟨x, hx, e⟩ := Res.bind_eq_ok.1 e
      simp [bind, Res.bind] at e
      subst e
      refine ⟨⟨?_, ⟨x, rfl, content_ok hx⟩, rfl⟩, ⟨rfl, rfl, rfl, rfl, rfl, rfl, rfl⟩, by simp⟩
    · simpa using f1
    · exact ⟨st, rfl, p⟩
  | false =>
    cases fh <;> cases ff <;> simp [bind, Res.bind] at e f1 f2 f3 <;> subst e <;>
      refine ⟨⟨?_, by simpa using f2, by simp [f3]⟩, ⟨rfl, rfl, rfl, rfl, rfl, rfl, rfl⟩, by simp⟩ <;>
      first
        | exact ⟨st, rfl, p⟩
        | simpa using f1

theorem Current.fresh {P : Status → Prop} (x : Current c P a) : Fresh c P a := ⟨.inr x.header, .inr x.main, .inr (.inr x.footer)⟩

/-- A refresh right after the header was marked draws the status. -/
theorem refresh_marked {P : Status → Prop} (m : a.ui.header = true) (p : P a.ui.status) (e : refresh c now a = .ok a') :
    ∃ st, a'.screen.header = some (a.ui.balance, st, a.ui.tab) ∧ P st := by
  obtain ⟨⟨msg, st, bal, tab, tip, last, fh, fm, ff⟩, ⟨sh, sm, sf⟩, d, ad, hd⟩ := a
  simp only at m p
  subst m
  unfold refresh at e
  refine ⟨st, ?_, p⟩
  cases fm with
  | true =>
    simp only [if_true] at e
    obtain ⟨x, hx, e⟩ := Res.bind_eq_ok.1 e
    simp [bind, Res.bind] at e
    subst e
    rfl
  | false => cases ff <;> simp [bind, Res.bind] at e <;> subst e <;> rfl

theorem redraw_ok {P : Status → Prop} (p : P a.ui.status) (e : redraw c now a = .ok a') :
    Current c P a' ∧ Same a a' ∧ (a'.ui.last = some now ∨ a'.ui.last = a.ui.last) := by
  unfold redraw at e
  obtain ⟨h1, h2, h3⟩ := refresh_ok (P := P) (a := { a with ui := { a.ui with header := true, main := true, footer := true } }.reset) ⟨.inl rfl, .inl rfl, .inl rfl⟩ p e
  exact ⟨h1, ⟨h2.1, h2.2, h2.3, h2.4, h2.5, h2.6, h2.7⟩, h3⟩

/-! ## Invariant -/

/-- What the wallet knows. -/
structure Knows (c : Codec) (scripts : List Nat) (offline : Bool) (db : Db) (addresses : List AddressRow) (h : Hist) (a : App) : Prop where
  addresses : a.addresses = addresses
  imported : a.header = imported h
  tip : a.ui.tip = tipTold h
  status : a.ui.status = doing offline h
  tab : a.ui.tab = selected h
  balance : a.db.balance = .ok a.ui.balance
  scan : ∃ b, db.balance = .ok b ∧ scan c scripts (matched h) (db, b) = .ok (a.db, a.ui.balance)

theorem Knows.same (k : Knows c scripts offline db addresses h a) (s : Same a a') : Knows c scripts offline db addresses h a' := by
  refine ⟨s.addresses.trans k.addresses, s.header.trans k.imported, s.tip.trans k.tip, s.status.trans k.status, s.tab.trans k.tab, ?_, ?_⟩
  · rw [s.db, s.balance]; exact k.balance
  · rw [s.db, s.balance]; exact k.scan

theorem selected_next (n : Int) :
    (if (n + 1) % 3 = 0 then Tab.utxos else if (n + 1) % 3 = 1 then .history else .addresses) =
      (if n % 3 = 0 then Tab.utxos else if n % 3 = 1 then .history else .addresses).next := by
  have : n % 3 = 0 ∨ n % 3 = 1 ∨ n % 3 = 2 := by omega
  rcases this with h | h | h
  · rw [if_neg (by omega), if_pos (by omega), if_pos h]; rfl
  · rw [if_neg (by omega), if_neg (by omega), if_neg (by omega), if_pos h]; rfl
  · rw [if_pos (by omega), if_neg (by omega), if_neg (by omega)]; rfl

theorem selected_prev (n : Int) :
    (if (n - 1) % 3 = 0 then Tab.utxos else if (n - 1) % 3 = 1 then .history else .addresses) =
      (if n % 3 = 0 then Tab.utxos else if n % 3 = 1 then .history else .addresses).prev := by
  have : n % 3 = 0 ∨ n % 3 = 1 ∨ n % 3 = 2 := by omega
  rcases this with h | h | h
  · rw [if_neg (by omega), if_neg (by omega), if_pos h]; rfl
  · rw [if_pos (by omega), if_neg (by omega), if_pos h]; rfl
  · rw [if_neg (by omega), if_pos (by omega), if_neg (by omega), if_neg (by omega)]; rfl

theorem Was.same : Was offline h (doing offline h) := ⟨[], h, rfl, rfl, by simp⟩

theorem Was.later {st : Status} {x : Nat × Op} (w : Was offline h st) (hx : ¬ x.2.Tells) : Was offline (x :: h) st := by
  obtain ⟨new, old, h1, h2, h3⟩ := w
  exact ⟨x :: new, old, by simp [h1], h2, List.forall_mem_cons.2 ⟨hx, h3⟩⟩

/-- Something is drawn at the latest at a time that already passed. -/
def Past (t0 : Nat) (h : Hist) (a : App) : Prop := ∀ t, a.ui.last = some t → t = t0 ∨ ∃ x ∈ h, t = x.1

/-- The middle of a step: handled, but not yet refreshed. -/
theorem handled {op : Op} (k : Knows c scripts offline db addresses h a) (f : Fresh c (Was offline h) a) (p : Past t0 h a)
    (e : step c scripts offline now a op = .ok a') :
    ∃ m, Knows c scripts offline db addresses ((now, op) :: h) m ∧ Fresh c (Was offline ((now, op) :: h)) m ∧ Past t0 ((now, op) :: h) m ∧
      refresh c now m = .ok a' := by
  obtain ⟨m, e1, e2⟩ := Res.bind_eq_ok.1 e
  refine ⟨m, ?_⟩
  obtain ⟨k1, k2, k3, k4, k5, k6, k7⟩ := k
  have fl {op : Op} (ho : ¬ op.Tells) : Fresh c (Was offline ((now, op) :: h)) a :=
    ⟨f.header.imp id (fun ⟨st, h1, h2⟩ => ⟨st, h1, h2.later ho⟩), f.main, f.footer⟩
  have pl {op : Op} : Past t0 ((now, op) :: h) a := fun t ht => (p t ht).imp id (fun ⟨x, h1, h2⟩ => ⟨x, by simp [h1], h2⟩)
  cases op with
  | loading l =>
    cases e1
    refine ⟨⟨k1, k2, k3, (by cases l <;> rfl), k5, k6, k7⟩, ⟨?_, f.main, f.footer⟩, pl, e2⟩
    rcases (fl (op := .loading l) (by simp [Op.Tells])).header with h1 | h1
    · left; simp [App.loading, h1]
    · exact .inr h1
  | key x =>
    cases x with
    | right =>
      cases e1
      refine ⟨⟨k1, k2, k3, k4, ?_, k6, k7⟩, ⟨.inl rfl, .inl rfl, .inr (.inl rfl)⟩, pl, e2⟩
      show a.ui.tab.next = _
      rw [k5]; exact (selected_next _).symm
    | left =>
      cases e1
      refine ⟨⟨k1, k2, k3, k4, ?_, k6, k7⟩, ⟨.inl rfl, .inl rfl, .inr (.inl rfl)⟩, pl, e2⟩
      show a.ui.tab.prev = _
      rw [k5]; exact (selected_prev _).symm
    | other => cases e1; exact ⟨⟨k1, k2, k3, k4, k5, k6, k7⟩, fl (by simp [Op.Tells]), pl, e2⟩
  | resize =>
    obtain ⟨h1, h2, h3⟩ := redraw_ok (P := Was offline ((now, .resize) :: h)) (by rw [k4]; exact Was.same.later (by simp [Op.Tells])) e1
    refine ⟨Knows.same ⟨k1, k2, k3, k4, k5, k6, k7⟩ h2, h1.fresh, ?_, e2⟩
    intro t ht
    rcases h3 with h3 | h3
    · rw [h3] at ht; cases ht; exact .inr ⟨_, List.mem_cons_self, rfl⟩
    · exact pl t (h3 ▸ ht)
  | event ev =>
    cases ev with
    | ready n => cases e1; exact ⟨⟨k1, k2, rfl, rfl, k5, k6, k7⟩, ⟨.inl rfl, f.main, f.footer⟩, pl, e2⟩
    | peerHeight n =>
      cases e1
      refine ⟨⟨k1, k2, rfl, k4, k5, k6, k7⟩, ?_, pl, e2⟩
      have := fl (op := .event (.peerHeight n)) (by simp [Op.Tells])
      exact ⟨this.header, this.main, this.footer⟩
    | filterProcessed n =>
      cases e1
      refine ⟨⟨k1, k2, k3, ?_, k5, k6, k7⟩, ⟨.inl rfl, f.main, f.footer⟩, pl, e2⟩
      simp [Ui.setStatus, doing, k3]
    | headersImported n =>
      cases e1
      refine ⟨⟨k1, rfl, k3, k4, k5, k6, k7⟩, ?_, pl, e2⟩
      have := fl (op := .event (.headersImported n)) (by simp [Op.Tells])
      exact ⟨this.header, this.main, this.footer⟩
    | blockMatched b =>
      obtain ⟨⟨db', bal⟩, e3, e4⟩ := Res.bind_eq_ok.1 e1
      obtain ⟨h1, h2, h3⟩ := redraw_ok (P := Was offline ((now, .event (.blockMatched b)) :: h))
        (by simp only [Ui.setBalance]; rw [k4]; exact Was.same.later (by simp [Op.Tells])) e4
      refine ⟨Knows.same (a := { a with db := db', ui := a.ui.setBalance bal }) ⟨k1, k2, k3, k4, k5, ?_, ?_⟩ h2, h1.fresh, ?_, e2⟩
      · unfold blockMatched at e3
        obtain ⟨d, -, e3⟩ := Res.bind_eq_ok.1 e3
        obtain ⟨b', e5, e3⟩ := Res.bind_eq_ok.1 e3
        cases e3
        exact e5
      · obtain ⟨b0, k8, k9⟩ := k7
        refine ⟨b0, k8, ?_⟩
        simp only [matched]
        rw [scan_append, k9, Res.ok_bind]
        simp only [Verif.Wallet.scan, Ui.setBalance]
        rw [e3, Res.ok_bind]
      · intro t ht
        rcases h3 with h3 | h3
        · rw [h3] at ht; cases ht; exact .inr ⟨_, List.mem_cons_self, rfl⟩
        · exact pl t (h3 ▸ ht)
    | scanned n =>
      cases e1
      refine ⟨⟨k1, k2, k2, ?_, k5, k6, k7⟩, ⟨.inl rfl, f.main, f.footer⟩, pl, e2⟩
      simp [Ui.setStatus, doing, k2]
    | other => cases e1; exact ⟨⟨k1, k2, k3, k4, k5, k6, k7⟩, fl (by simp [Op.Tells]), pl, e2⟩

theorem begin_ok {birth : Nat} (e : begin c t0 db addresses birth offline = .ok a) :
    Knows c scripts offline db addresses [] a ∧ Fresh c (Was offline []) a ∧ Past t0 [] a ∧ (offline = true → Current c (Was offline []) a) := by
  unfold begin at e
  obtain ⟨b, e1, e2⟩ := Res.bind_eq_ok.1 e
  cases offline with
  | false =>
    cases e2
    exact ⟨⟨rfl, rfl, rfl, rfl, rfl, e1, b, e1, rfl⟩, ⟨.inl rfl, .inl rfl, .inl rfl⟩, by simp [Past, App.reset, Ui.setBalance, Ui.setStatus, Ui.default], by simp⟩
  | true =>
    simp only [if_true] at e2
    obtain ⟨h1, h2, h3⟩ := refresh_ok (P := Was true []) ⟨.inl rfl, .inl rfl, .inl rfl⟩ Was.same e2
    refine ⟨Knows.same ⟨rfl, rfl, rfl, rfl, rfl, e1, b, e1, rfl⟩ h2, h1.fresh, ?_, fun _ => h1⟩
    intro t ht
    rcases h3 with h3 | h3
    · rw [h3] at ht; cases ht; exact .inl rfl
    · rw [h3] at ht; simp [App.reset, Ui.setBalance, Ui.setStatus, Ui.default] at ht

theorem run_ok (r : Run c scripts offline t0 db addresses h a) :
    Knows c scripts offline db addresses h a ∧ Fresh c (Was offline h) a ∧ Past t0 h a ∧ (h ≠ [] ∨ offline = true → Current c (Was offline h) a) := by
  induction r with
  | start e =>
    obtain ⟨h1, h2, h3, h4⟩ := begin_ok (scripts := scripts) e
    exact ⟨h1, h2, h3, fun h => h4 (by simpa using h)⟩
  | @step h a a' op now r e ih =>
    obtain ⟨h1, h2, h3, -⟩ := ih
    obtain ⟨m, m1, m2, m3, e'⟩ := handled h1 h2 h3 e
    obtain ⟨r1, r2, r3⟩ := refresh_ok m2 (by rw [m1.status]; exact Was.same) e'
    refine ⟨m1.same r2, r1.fresh, ?_, fun _ => r1⟩
    intro t ht
    rcases r3 with r3 | r3
    · rw [r3] at ht; cases ht; exact .inr ⟨_, List.mem_cons_self, rfl⟩
    · exact m3 t (r3 ▸ ht)

/-! ## Property -/

/-- **C127 (shown).** Once something happened — or from the start, if the wallet is offline — the screen shows the balance of the database, which is the
result of applying the blocks that matched, in order; the tab the user went to; the present contents of that tab; and what the client was doing at some
moment since which it did nothing but load. -/
theorem C127_shown (r : Run c scripts offline t0 db addresses h a) (hh : h ≠ [] ∨ offline = true) :
    ∃ balance st x b, a.screen.header = some (balance, st, selected h) ∧ a.screen.main = some x ∧ Shows c a.db addresses (selected h) x ∧
      Was offline h st ∧ a.db.balance = .ok balance ∧ db.balance = .ok b ∧ scan c scripts (matched h) (db, b) = .ok (a.db, balance) := by
  obtain ⟨k, -, -, hc⟩ := run_ok r
  obtain ⟨⟨st, h1, h2⟩, ⟨x, h3, h4⟩, -⟩ := hc hh
  obtain ⟨b, k1, k2⟩ := k.scan
  rw [k.tab] at h1 h4
  rw [k.addresses] at h4
  exact ⟨_, st, x, b, h1, h3, h4, h2, k.balance, k1, k2⟩

/-- **C127 (coins).** A wallet that started with an empty database shows the sum of the amounts of the unspent outputs of the blocks that matched, if that is
below 2^63. -/
theorem C127_balance {addrs : List Nat} (hs : c.Sound) (r : Run c (c.watch addrs) offline t0 Db.new addresses h a) (hh : h ≠ [] ∨ offline = true)
    (hc : Sane ((matched h).flatMap (·.txs))) {l : List (OutPoint × TxOut)} (hl : l.Nodup)
    (hm : ∀ k o, (k, o) ∈ l ↔ Unspent c addrs ((matched h).flatMap (·.txs)) k o) (ht : (l.map (·.2.value)).sum < 2 ^ 63) :
    ∃ st, a.screen.header = some ((l.map (·.2.value)).sum, st, selected h) := by
  obtain ⟨balance, st, x, b, h1, -, -, -, -, h2, h3⟩ := C127_shown r hh
  have hb : b = 0 := by
    have : Db.new.balance = .ok 0 := by decide
    rw [this] at h2; cases h2; rfl
  subst hb
  refine ⟨st, ?_⟩
  rw [h1]
  by_cases he : matched h = []
  · rw [he] at h3 hm
    simp only [Verif.Wallet.scan, Res.ok.injEq, Prod.mk.injEq] at h3
    rw [← h3.2]
    have : l = [] := by
      rcases l with - | ⟨⟨k, o⟩, l⟩
      · rfl
      · obtain ⟨pre, tx, post, h4, -⟩ := (hm k o).1 (by simp)
        simp at h4
    subst this
    rfl
  · rw [C57_balance_shown hs hc he h3 hl hm ht]

/-- **C127 (status), the part that holds.** What the client last said it is doing is shown at once, but while loading only if nothing happened in the 16 ms before.
The full claim asks in addition that "Synced" is shown just when the whole chain was scanned; it is false: `Scenario.C127_not_synced`,
`Scenario.C127_synced_early`, `Scenario.C127_restarted`. -/
theorem C127_status_partial {op : Op} (r : Run c scripts offline t0 db addresses ((now, op) :: h) a)
    (ho : op.Tells ∨ op.Loads ∧ t0 + 16 < now ∧ ∀ x ∈ h, x.1 + 16 < now) :
    ∃ balance tab, a.screen.header = some (balance, doing offline ((now, op) :: h), tab) := by
  cases r with
  | @step _ a1 _ _ _ r e =>
    obtain ⟨k, f, p, -⟩ := run_ok r
    obtain ⟨m, m1, -, -, -⟩ := handled k f p e
    obtain ⟨m', e1, e2⟩ := Res.bind_eq_ok.1 e
    have key : m'.ui.header = true ∧ m'.ui.status = doing offline ((now, op) :: h) := by
      rcases ho with ho | ⟨ho, h1, h2⟩
      · cases op with
        | event ev =>
          cases ev <;> simp only [Op.Tells] at ho <;> cases e1
          · exact ⟨rfl, rfl⟩
          · exact ⟨rfl, by simp [Ui.setStatus, doing, k.tip]⟩
          · exact ⟨rfl, by simp [Ui.setStatus, doing, k.imported]⟩
        | _ => simp only [Op.Tells] at ho
      · cases op with
        | loading l =>
          cases e1
          refine ⟨?_, by cases l <;> rfl⟩
          simp only [App.loading]
          cases hl : a1.ui.last with
          | none => simp
          | some t =>
            have : t + 16 < now := by
              rcases p t hl with rfl | ⟨x, h3, rfl⟩
              · exact h1
              · exact h2 x h3
            simp [this]
        | _ => simp only [Op.Loads] at ho
    obtain ⟨st, h3, rfl⟩ := refresh_marked (P := fun s => s = m'.ui.status) key.1 rfl e2
    exact ⟨_, _, by rw [h3, key.2]⟩

/-- Refreshing works. -/
theorem refresh_runs (hs : c.Sound) (a : App) : ∃ a', refresh c now a = .ok a' := by
  have : ∀ db ad t, ∃ x, content c db ad t = .ok x := by
    intro db ad t
    cases t with
    | utxos =>
      refine ⟨_, if_pos ?_⟩
      rw [List.all_eq_true]
      rintro p hp
      obtain ⟨q, -, rfl⟩ := List.mem_map.1 hp
      obtain ⟨b, hb, -⟩ := hs q.2.address
      simp [hb]
    | history => exact ⟨_, rfl⟩
    | addresses => exact ⟨_, rfl⟩
  obtain ⟨⟨msg, st, bal, tab, tip, last, fh, fm, ff⟩, sc, d, ad, hd⟩ := a
  obtain ⟨x, hx⟩ := this d ad tab
  unfold refresh
  cases fm <;> cases fh <;> simp [bind, Res.bind, hx]

/-- **C127 (no panic).** Nothing that happens makes the wallet panic; and it ends with an error only when, after a block matched, the amounts of the outputs
kept no longer sum up below 2^63. -/
theorem C127_no_panic {addrs : List Nat} (hs : c.Sound) (a : App) (op : Op) :
    step c (c.watch addrs) offline now a op ≠ .panic ∧
    ∀ err, step c (c.watch addrs) offline now a op = .err err →
      ∃ b db', op = .event (.blockMatched b) ∧ applyAll c (c.watch addrs) b.txs a.db = .ok db' ∧ db'.balance = .err err := by
  have triv : ∀ m : Res Err App, (∃ x, m = .ok x) → (m >>= refresh c now) ≠ .panic ∧ ∀ err, (m >>= refresh c now) ≠ .err err := by
    rintro m ⟨x, rfl⟩
    rw [Res.ok_bind]
    obtain ⟨y, hy⟩ := refresh_runs (now := now) hs x
    rw [hy]; simp
  have done : ∀ m : Res Err App, (∃ x, m = .ok x) → (m >>= refresh c now) ≠ .panic ∧ ∀ err, (m >>= refresh c now) = .err err →
      ∃ b db', op = .event (.blockMatched b) ∧ applyAll c (c.watch addrs) b.txs a.db = .ok db' ∧ db'.balance = .err err :=
    fun m hm => ⟨(triv m hm).1, fun err he => absurd he ((triv m hm).2 err)⟩
  cases op with
  | loading l => exact done _ ⟨_, rfl⟩
  | key x => exact done _ ⟨_, rfl⟩
  | resize => exact done (redraw c now a) (refresh_runs hs _)
  | event ev =>
    cases ev with
    | blockMatched b =>
      obtain ⟨h1, d, h2⟩ := C57_no_panic hs _ rfl b a.db
      simp only [step, App.handle, App.event]
      cases hb : blockMatched c (c.watch addrs) b a.db with
      | ok r =>
        rw [Res.ok_bind]
        exact done _ (refresh_runs hs _)
      | panic => exact absurd hb h1
      | err e =>
        simp only [Res.err_bind]
        refine ⟨by simp, fun err he => ?_⟩
        cases he
        unfold blockMatched at hb
        rw [h2, Res.ok_bind] at hb
        refine ⟨b, d, rfl, h2, ?_⟩
        cases hd : d.balance with
        | ok v => rw [hd, Res.ok_bind] at hb; cases hb
        | panic => rw [hd] at hb; cases hb
        | err e' => cases e; cases e'; rfl
    | _ => exact done _ ⟨_, rfl⟩

end Verif.Wallet.Screen
