import Verif.Node.Props
import Verif.Node.Commands
import Verif.Sync.Scenarios
import Verif.Inv.Scenarios
import Verif.Wallet.Scenarios

/-!
# The state machine: concrete histories

Examples that the hypotheses of the theorems are met, and counterexamples to the properties that do not hold in full.
-/

set_option autoImplicit false

namespace Verif.Node.Scenario
open Verif.Tx (Block Transaction OutPoint TxOut)
open Verif.Chain (Header)
open Verif.Chain.Scenario (a1 a2 a3 b1 b2 b3 b4 g e)
open Verif.Sync.Scenario (U known acyclic fresh)

/-- A filter is known by the sum of its bytes: the header commits to it, and the filter contains the script with that number. -/
def params : Cbf.Params :=
  ⟨List.sum, fun h prev => h + 10 * prev + 1, fun f _ w => some (w.contains f.sum), fun f _ w => some (w.all (· == f.sum)), 5, 6, true⟩

def conf : Cfg := ⟨Sync.Scenario.conf true, params⟩

/-- Genesis only. -/
def new : Fsm := Fsm.new (fresh true) ⟨(5, 6), [], [(5, 6)]⟩ 100

theorem ctx : Ctx conf U false (fresh true) g := ⟨acyclic true, rfl, Sync.Scenario.reach true false⟩

/-- Times; the first peer is always chosen. -/
def env (now : Nat) : Env := ⟨Sync.Scenario.env, Inv.Scenario.env, ⟨now, fun _ m => m.head?, id, id, false⟩⟩

/-- What happens in the examples. -/
inductive Cmd where
  | start
  /-- A peer we connected to, which serves blocks and filters. -/
  | peer (a height : Nat)
  | headers (a : Nat) (l : List Header)
  | cfheaders (a stop prev : Nat) (l : List Nat)
  | cfilter (a block : Nat) (f : List Nat)
  | block (b : Block)
  | rescan (start stop : Cbf.Bound) (w : List Nat)
  | request (hash : Nat)
  | watch (w : List Nat)
  | submit (t : Transaction)
  | gone (a : Nat)
  | filters (start stop : Nat)
  /-- An output is taken. -/
  | next
  deriving DecidableEq

def Cmd.input : Cmd → Input
  | .start => .init
  | .peer a height => .negotiated a height true true true true true false
  | .headers a l => .headers a (l.map fun x => (x, e))
  | .cfheaders a stop prev l => .cfheaders a ⟨0, stop, prev, l⟩
  | .cfilter a k f => .cfilter a 0 k f
  | .block b => .block b
  | .rescan a b w => .rescan a b w
  | .request k => .requestBlock k
  | .watch w => .watch w
  | .submit t => .submit t
  | .gone a => .disconnected a
  | .filters a b => .requestFilters a b
  | .next => .next

def Cmd.ok : Cmd → Bool
  | .headers _ l => l.all (fun x => decide (U x))
  | _ => true

theorem Cmd.legal {c : Cmd} (h : c.ok = true) (now : Nat) : Legal U false (env now) c.input := by
  refine ⟨Sync.Scenario.env_legal, Inv.Scenario.env_legal, ?_⟩
  cases c with
  | headers a l => exact Sync.Scenario.legal_batch h
  | _ => simp [Cmd.input, Input.batch]

instance : DecidablePred Out.Reverts := fun o => by
  cases o with
  | sync s => cases s <;> (unfold Out.Reverts; infer_instance)
  | _ => unfold Out.Reverts; infer_instance

/-- The step is calm, as far as can be computed. -/
def calm (outs0 : List Out) (n : Fsm) (c : Cmd) (n' : Fsm) (outs : List Out) : Bool :=
  n.tree.chain.isPrefixOf n'.tree.chain && outs.all (fun o => decide (¬ o.Reverts)) &&
  match c with
  | .request _ => false
  | .rescan _ _ _ => decide ((reported outs0).map (fun p => (p.1, p.2.hash)) = found outs0) && decide (found outs = [])
  | _ => true

theorem calm_sound {h : Hist} {n n' : Fsm} {c : Cmd} {outs : List Out} (hc : calm (outputs h) n c n' outs = true) : Calm h n c.input n' outs := by
  simp only [calm, Bool.and_eq_true] at hc
  refine ⟨List.isPrefixOf_iff_prefix.1 hc.1.1, by simpa using hc.1.2, ?_, ?_⟩
  · intro k hk
    cases c <;> simp [Cmd.input] at hk
    exact absurd hc.2 (by simp)
  · intro a b w hk
    cases c <;> simp [Cmd.input] at hk
    simpa using hc.2

/-- Run a list of commands; the clock shows `7300000` and goes on by one. -/
def go (strict : Bool) : List Cmd → Nat → Hist → Fsm → Option (Hist × Fsm)
  | [], _, h, n => some (h, n)
  | c :: cs, now, h, n =>
    match n.step conf (env now) c.input with
    | .ok n' =>
      let outs := n'.log.drop n.log.length
      if n'.log = n.log ++ outs ∧ (strict = true → calm (outputs h) n c n' outs = true) then go strict cs (now + 1) ((c.input, outs) :: h) n' else none
    | _ => none

theorem go_run {strict : Bool} {P : Hist → Fsm → Input → Fsm → List Out → Prop}
    (hP : ∀ h n c n' outs, (strict = true → calm (outputs h) n c n' outs = true) → P h n c.input n' outs) : ∀ {cs : List Cmd} {now : Nat} {h h' : Hist} {n n' : Fsm},
    Run conf U false P (fresh true) h n → (∀ c ∈ cs, c.ok = true) → go strict cs now h n = some (h', n') → Run conf U false P (fresh true) h' n'
  | [], _, _, _, _, _, r, _, e => by cases e; exact r
  | c :: cs, now, h, h', n, n', r, hl, e => by
    unfold go at e
    cases hs : n.step conf (env now) c.input with
    | ok n1 =>
      simp only [hs] at e
      split at e
      · rename_i hc
        exact go_run hP (.step (env now) r (Cmd.legal (hl c List.mem_cons_self) now) hs hc.1 (hP _ _ _ _ _ hc.2))
          (fun o ho => hl o (List.mem_cons_of_mem _ ho)) e
      · cases e
    | err e' => simp [hs] at e
    | panic => simp [hs] at e

def result (strict : Bool) (cs : List Cmd) : Hist × Fsm := (go strict cs 7300000 [] new).getD ([], new)
/-- The history. -/
def hist (strict : Bool) (cs : List Cmd) : Hist := (result strict cs).1
/-- The state at its end. -/
def state (strict : Bool) (cs : List Cmd) : Fsm := (result strict cs).2

theorem run_calm {cs : List Cmd} (hl : cs.all Cmd.ok = true) (hs : (go true cs 7300000 [] new).isSome = true) :
    Run conf U false Calm (fresh true) (hist true cs) (state true cs) := by
  obtain ⟨⟨h, m⟩, e⟩ := Option.isSome_iff_exists.1 hs
  unfold hist state result
  rw [e]
  exact go_run (strict := true) (fun h n c n' outs hc => calm_sound (hc rfl)) (.start _ _) (List.all_eq_true.1 hl) e

/-- Any step. -/
def Any (_ : Hist) (_ : Fsm) (_ : Input) (_ : Fsm) (_ : List Out) : Prop := True

theorem run_any {cs : List Cmd} (hl : cs.all Cmd.ok = true) (hs : (go false cs 7300000 [] new).isSome = true) :
    Run conf U false Any (fresh true) (hist false cs) (state false cs) := by
  obtain ⟨⟨h, m⟩, e⟩ := Option.isSome_iff_exists.1 hs
  unfold hist state result
  rw [e]
  exact go_run (strict := false) (fun _ _ _ _ _ _ => trivial) (.start _ _) (List.all_eq_true.1 hl) e

/-! ## A scan -/

/-- Take `k` outputs. -/
def take (k : Nat) : List Cmd := List.replicate k .next

/-- The blocks: the first pays to the address 1, the second has nothing to do with it, the third spends that and pays again. -/
def block1 : Block := ⟨11, [Wallet.Scenario.receive]⟩
def block2 : Block := ⟨12, []⟩
def block3 : Block := ⟨13, [Wallet.Scenario.spend, Wallet.Scenario.more]⟩

/-- A peer connects and sends three headers and the hashes of their filters. -/
def before : List Cmd := [.start, .peer 1 3] ++ take 10 ++ [.headers 1 [a1, a2, a3]] ++ take 10 ++ [.cfheaders 1 13 6 [1, 9, 1]] ++ take 10

def after : List Cmd := [.cfilter 1 12 [4, 5], .cfilter 1 11 [1], .cfilter 1 13 [1]] ++ take 10 ++ [.block block3, .block block1] ++ take 10

def scanCmds : List Cmd := before ++ [.rescan (.included 1) .unbounded [1]] ++ after

theorem scan_run : Run conf U false Calm (fresh true) (hist true scanCmds) (state true scanCmds) := run_calm (by decide +kernel) (by decide +kernel)

/-- The blocks that are awaited, computed. -/
def awaited : Hist → List Nat
  | [] => []
  | (i, outs) :: h => (found outs).map (·.2) ++ match i with
    | .block b => (awaited h).filter (fun k => decide (b.hash ≠ k))
    | _ => awaited h

theorem mem_awaited {k : Nat} : ∀ {h : Hist}, Awaited k h → k ∈ awaited h
  | (i, outs) :: h, ha => by
    unfold awaited
    rcases ha with ⟨height, hm⟩ | ⟨ha, hb⟩
    · exact List.mem_append_left _ (List.mem_map.2 ⟨_, hm, rfl⟩)
    · refine List.mem_append_right _ ?_
      have := mem_awaited ha
      cases i with
      | block b => exact List.mem_filter.2 ⟨this, by simpa using hb b rfl⟩
      | _ => exact this

theorem not_awaited {h : Hist} (he : awaited h = []) (k : Nat) : ¬ Awaited k h := fun ha => by simpa [he] using mem_awaited ha

/-- The input asks for a scan or adds scripts. -/
def asks : Input → Bool
  | .rescan _ _ _ | .watch _ => true
  | _ => false

theorem not_asks {l : Hist} (h : l.all (fun x => !asks x.1) = true) : ∀ x ∈ l, (∀ a b v, x.1 ≠ .rescan a b v) ∧ ∀ v, x.1 ≠ .watch v := by
  intro x hx
  have := List.all_eq_true.1 h x hx
  refine ⟨fun a b v e => ?_, fun v e => ?_⟩ <;> simp [e, asks] at this

/-- The history before the rescan, what happened since, and what was put out when it was asked for. -/
def earlier : Hist := (hist true scanCmds).drop 26
def later : Hist := (hist true scanCmds).take 25
def outs : List Out := ((hist true scanCmds).drop 25).head?.elim [] (·.2)

/-- The rescan asked for in the examples. -/
def isScan : Input → Bool
  | .rescan a b w => decide (a = .included 1 ∧ b = .unbounded ∧ w = [1])
  | _ => false

theorem isScan_eq {i : Input} (h : isScan i = true) : i = .rescan (.included 1) .unbounded [1] := by
  cases i <;> simp [isScan] at h
  obtain ⟨rfl, rfl, rfl⟩ := h
  rfl

theorem split_at {h : Hist} {k : Nat} (hk : ((h.drop k).head?.elim false (fun x => isScan x.1)) = true) :
    h = h.take k ++ (.rescan (.included 1) .unbounded [1], (h.drop k).head?.elim [] (·.2)) :: h.drop (k + 1) := by
  cases hd : h.drop k with
  | nil => simp [hd] at hk
  | cons x l =>
    simp only [hd, List.head?_cons, Option.elim_some] at hk ⊢
    have h1 : h.drop (k + 1) = l := by rw [← List.drop_drop, hd]; rfl
    rw [h1, ← isScan_eq hk]
    conv_lhs => rw [← List.take_append_drop k h, hd]

theorem scan_hist : hist true scanCmds = later ++ (.rescan (.included 1) .unbounded [1], outs) :: earlier := split_at (by decide +kernel)

theorem drained {n : Fsm} (h : (n.qSync.isEmpty && n.qInv.isEmpty && n.qCbf.isEmpty) = true) : Drained n := by
  simp only [Bool.and_eq_true, List.isEmpty_iff] at h
  exact ⟨h.1.1, h.1.2, h.2⟩

theorem scan_drained : Drained (state true scanCmds) := drained (by decide +kernel)

theorem scan_reported : (reported (outputs (hist true scanCmds))) = [(1, block1), (3, block3)] := by decide +kernel

/-- `C88_parts` applies. -/
example : Chain.ConsistentView conf.sync.chain g (state true scanCmds).tree ∧ (state true scanCmds).tree.chain.length = 4 :=
  ⟨(C88_parts ctx scan_run).1, by decide +kernel⟩

theorem split_cons {h : Hist} {k : Nat} (hk : k < h.length) : h.take k ++ (h[k].1, h[k].2) :: h.drop (k + 1) = h := by
  have : (h[k].1, h[k].2) = h[k] := rfl
  rw [this, ← List.drop_eq_getElem_cons hk, List.take_append_drop]

theorem scan_at : 23 < (hist true scanCmds).length := by decide +kernel

/-- `C89_scanned_partial` applies: with the second filter that arrives, two are scanned; the script 1 is watched. -/
example : onChain conf (state true scanCmds) 2 = some 12 ∧ ∃ f txs, filterAt conf (state true scanCmds) 2 f ∧
    (false = true ↔ Cbf.Matches params [1] txs f 12) := by
  have hs : scans ((hist true scanCmds)[23]'scan_at).2 = [(1, 11, true), (2, 12, false)] := by decide +kernel
  have hw : watching ((((hist true scanCmds)[23]'scan_at).1, ((hist true scanCmds)[23]'scan_at).2) :: (hist true scanCmds).drop 24) = [1] := by decide +kernel
  obtain ⟨h1, f, txs, h2, _, h3⟩ := C89_scanned_partial ctx ((split_cons scan_at).symm ▸ scan_run) 2 12 false (by rw [hs]; simp)
  rw [hw] at h3
  exact ⟨h1, f, txs, h2, h3⟩

theorem scan_not_awaited : awaited (hist true scanCmds) = [] := by decide +kernel

/-- The hypotheses of `C90_reports_partial` and `C90_complete_partial` are met. -/
example : (∀ p ∈ reported (outputs (hist true scanCmds)), Sent p.2 (hist true scanCmds)) ∧
    [(1, 11), (3, 13)] = found (outputs (hist true scanCmds)) := by
  refine ⟨fun p hp => ((C90_reports_partial ctx scan_run).2 p hp).2, ?_⟩
  rw [← C90_complete_partial ctx scan_run (not_awaited scan_not_awaited) scan_drained, scan_reported]
  rfl

/-- In the middle of it, only the first of the two blocks is reported, and the third block was received before the first. -/
example : reported (outputs (hist true (scanCmds.take 51))) = [(1, block1)] ∧ found (outputs (hist true (scanCmds.take 51))) = [(1, 11), (3, 13)] := by decide +kernel

theorem later_not_asks : ∀ x ∈ later, (∀ a b v, x.1 ≠ .rescan a b v) ∧ ∀ v, x.1 ≠ .watch v := not_asks (by decide +kernel)

theorem filter_sum {n : Fsm} {height hdr prev : Nat} {f : Cbf.Filter} (h : filterAt conf n height f)
    (h1 : n.cbf.filters.all[height]?.map (·.2) = some hdr) (h2 : Cbf.below n.cbf.filters.all height = some prev) : f.sum + 10 * prev + 1 = hdr := by
  obtain ⟨a, b, e1, e2, e3⟩ := h
  rw [h1] at e1
  rw [h2] at e2
  cases e1; cases e2
  exact e3

theorem filter1 {f : Cbf.Filter} (h : filterAt conf (state true scanCmds) 1 f) : f.sum = 1 := by
  have := filter_sum (hdr := 62) (prev := 6) h (by decide +kernel) (by decide +kernel)
  omega

theorem filter3 {f : Cbf.Filter} (h : filterAt conf (state true scanCmds) 3 f) : f.sum = 1 := by
  have := filter_sum (hdr := 6302) (prev := 630) h (by decide +kernel) (by decide +kernel)
  omega

theorem scan_length : (scans (outputs (later ++ [(.rescan (.included 1) .unbounded [1], outs)]))).length = 3 := by decide +kernel

/-- The hypotheses of `C91_rescan_partial` are met, also those of its last part. -/
example : ∃ b, (3, b) ∈ reported (outputs (later ++ [(.rescan (.included 1) .unbounded [1], outs)])) ∧ b.hash = 13 := by
  refine (C91_rescan_partial ctx (scan_hist ▸ scan_run) later_not_asks (scan_hist ▸ not_awaited scan_not_awaited) scan_drained).2.2.1 3 (by decide)
    (by rw [scan_length]; decide) 13 (by decide +kernel) (by simp) fun f hf => ?_
  simp [conf, params, filter3 hf]

/-! ### Another order -/

/-- The blocks sent to us. -/
def sent (h : Hist) : List Block := h.filterMap fun x => match x.1 with | .block b => some b | _ => none

theorem mem_sent {h : Hist} {b : Block} : Sent b h → b ∈ sent h := fun ⟨_, ho⟩ => List.mem_filterMap.2 ⟨_, ho, rfl⟩

/-- Headers and filter headers come in two messages each, filters and blocks in another order, and there is another peer. -/
def otherCmds : List Cmd := [.start, .peer 1 3] ++ take 10 ++ [.headers 1 [a1]] ++ take 10 ++ [.cfheaders 1 11 6 [1]] ++ take 10 ++ [.headers 1 [a2, a3]] ++ take 10 ++
  [.peer 2 3, .cfheaders 1 13 62 [9, 1]] ++ take 10 ++ [.rescan (.included 1) .unbounded [1]] ++ [.cfilter 1 11 [1]] ++ take 10 ++ [.block block1] ++ take 10 ++
  [.cfilter 2 13 [1], .cfilter 1 12 [9]] ++ take 10 ++ [.block block3] ++ take 10

theorem other_run : Run conf U false Calm (fresh true) (hist true otherCmds) (state true otherCmds) := run_calm (by decide +kernel) (by decide +kernel)

def earlier' : Hist := (hist true otherCmds).drop 46
def later' : Hist := (hist true otherCmds).take 45
def outs' : List Out := ((hist true otherCmds).drop 45).head?.elim [] (·.2)

theorem other_hist : hist true otherCmds = later' ++ (.rescan (.included 1) .unbounded [1], outs') :: earlier' := split_at (by decide +kernel)

/-- Whether an input submits a transaction. -/
def submits : Input → Bool
  | .submit _ => true
  | _ => false

/-- Whether an output says that a transaction was reverted. -/
def revertsTx : Out → Bool
  | .inv (.reverted _) => true
  | _ => false

theorem noTransactions {h : Hist} (h1 : h.all (fun x => !submits x.1) = true) (h2 : (outputs h).all (fun o => !revertsTx o) = true) : NoTransactions h := by
  refine ⟨fun t o hm => ?_, fun t hm => ?_⟩
  · have := List.all_eq_true.1 h1 _ hm
    simp [submits] at this
  · have := List.all_eq_true.1 h2 _ hm
    simp [revertsTx] at this

theorem same : SameChain conf [1] (state true scanCmds) (state true otherCmds) 1 3 where
  blocks := by decide +kernel
  filters := by
    intro i hi f1 f2 k h1 h2 _
    have hf : (state true scanCmds).cbf.filters.all = [(5, 6), (1, 62), (9, 630), (1, 6302)] := by decide +kernel
    have hf' : (state true otherCmds).cbf.filters.all = [(5, 6), (1, 62), (9, 630), (1, 6302)] := by decide +kernel
    have key : ∃ hdr prev, ([(5, 6), (1, 62), (9, 630), (1, 6302)] : List (Nat × Nat))[1 + i]?.map (·.2) = some hdr ∧
        Cbf.below [(5, 6), (1, 62), (9, 630), (1, 6302)] (1 + i) = some prev := by
      obtain rfl | rfl | rfl : i = 0 ∨ i = 1 ∨ i = 2 := by omega
      exacts [⟨_, _, rfl, rfl⟩, ⟨_, _, rfl, rfl⟩, ⟨_, _, rfl, rfl⟩]
    obtain ⟨hdr, prev, k1, k2⟩ := key
    have e1 := filter_sum h1 (hf ▸ k1) (hf ▸ k2)
    have e2 := filter_sum h2 (hf' ▸ k1) (hf' ▸ k2)
    have : f1.sum = f2.sum := by omega
    simp [conf, params, this]

/-- The hypotheses of `C93_order_partial` are met. -/
example : reported (outputs (later ++ [(.rescan (.included 1) .unbounded [1], outs)])) = reported (outputs (later' ++ [(.rescan (.included 1) .unbounded [1], outs')])) := by
  refine C93_order_partial ctx ctx (scan_hist ▸ scan_run) (other_hist ▸ other_run) later_not_asks (not_asks (by decide +kernel))
    (scan_hist ▸ not_awaited scan_not_awaited) (other_hist ▸ not_awaited (by decide +kernel)) scan_drained (drained (by decide +kernel))
    (scan_hist ▸ noTransactions (by decide +kernel) (by decide +kernel)) (other_hist ▸ noTransactions (by decide +kernel) (by decide +kernel)) ?_ 3 scan_length (by decide +kernel) same
  rw [← scan_hist, ← other_hist]
  intro b1 b2 s1 s2
  have key : ∀ b1 ∈ sent (hist true scanCmds), ∀ b2 ∈ sent (hist true otherCmds), b1.hash = b2.hash → b1 = b2 := by decide +kernel
  exact key b1 (mem_sent s1) b2 (mem_sent s2)

/-! ### The wallet -/

def blocks : Nat → Block
  | 1 => block1
  | 2 => block2
  | _ => block3

theorem genuine : Genuine conf Wallet.Scenario.codec [1] (hist true scanCmds) (state true scanCmds) blocks 1 3 where
  hash := by
    intro i hi k hk
    have key : ∀ i < 3, onChain conf (state true scanCmds) (1 + i) = some (blocks (1 + i)).hash := by decide +kernel
    rw [key i hi] at hk
    exact Option.some.inj hk
  sent := by
    intro i hi b hb he
    have key : ∀ b ∈ sent (hist true scanCmds), ∀ i < 3, b.hash = (blocks (1 + i)).hash → b = blocks (1 + i) := by decide +kernel
    exact key b (mem_sent hb) i hi he
  filter := by
    intro i hi f hf hc
    obtain rfl | rfl | rfl : i = 0 ∨ i = 1 ∨ i = 2 := by omega
    · simp [conf, params, filter1 hf, Wallet.Codec.watch, Wallet.Scenario.codec]
    · obtain ⟨t, ht, _⟩ := hc
      simp [blocks, block2] at ht
    · simp [conf, params, filter3 hf, Wallet.Codec.watch, Wallet.Scenario.codec]

theorem wallet_scan : Wallet.scan Wallet.Scenario.codec (Wallet.Scenario.codec.watch [1])
    ((reported (outputs (later ++ [(.rescan (.included 1) .unbounded [1], outs)]))).map (·.2)) (Wallet.Db.new, 0) = .ok (Wallet.Scenario.result, 34) := by decide +kernel

/-- The hypotheses of `C92_wallet_partial` are met: the wallet has the coin of 29 that the third block pays back to it. -/
example : Wallet.Unspent Wallet.Scenario.codec [1] (((List.range' 1 3).map blocks).flatMap (·.txs)) ⟨2, 1⟩ ⟨29, 1⟩ :=
  (C92_wallet_partial ctx Wallet.Scenario.codec_sound (addrs := [1]) (by simp) (scan_hist ▸ scan_run) later_not_asks (scan_hist ▸ not_awaited scan_not_awaited)
    scan_drained 3 scan_length.symm blocks (scan_hist ▸ genuine) (Wallet.Scenario.sane_of _ (by decide) (by decide)) wallet_scan _ _).1 (by decide)

/-! ### Commands -/

theorem step_ok {n : Fsm} {now : Nat} {i : Input} (h : (match n.step conf (env now) i with | .ok _ => true | _ => false) = true) : ∃ n', n.step conf (env now) i = .ok n' := by
  split at h
  · exact ⟨_, ‹_›⟩
  · cases h

/-- The hypotheses of `C94_future_partial` are met: while a scan of three blocks is under way, another is asked for that starts above them. -/
example : ∃ (n' : Fsm) (last : Option Nat), n'.log = (state true (before ++ [.rescan (.included 1) .unbounded [1]])).log ++ [.cbf (.event (.rescanStarted 4 last))] := by
  obtain ⟨n', hs⟩ := step_ok (n := state true (before ++ [.rescan (.included 1) .unbounded [1]])) (now := 7400000) (i := .rescan (.included 4) .unbounded [1]) (by decide +kernel)
  obtain ⟨last, h, _⟩ := C94_future_partial hs (by decide +kernel)
  exact ⟨n', last, h⟩

/-- `C95_idempotent` applies: a transaction is submitted twice. -/
example : ∃ n' n'' : Fsm, SameButWakeups n' n'' ∧ n'.inv.pool.length = 1 := by
  obtain ⟨n', hs⟩ := step_ok (n := state true before) (now := 7400000) (i := .submit Wallet.Scenario.receive) (by decide +kernel)
  obtain ⟨n'', hs'⟩ := step_ok (n := state true (before ++ [.submit Wallet.Scenario.receive])) (now := 7400000) (i := .submit Wallet.Scenario.receive) (by decide +kernel)
  have : (match (state true before).step conf (env 7400000) (.submit Wallet.Scenario.receive) with
    | .ok m => decide (m = state true (before ++ [.submit Wallet.Scenario.receive]) ∧ m.inv.pool.length = 1) | _ => false) = true := by decide +kernel
  rw [hs] at this
  obtain ⟨rfl, hl⟩ := of_decide_eq_true this
  exact ⟨_, n'', C95_idempotent (.inr (.inl ⟨_, rfl⟩)) hs hs', hl⟩

/-! ## Counterexamples -/

/-- As `scanCmds`, but before the filters arrive the user asks for a scan that starts above them. -/
def futureCmds : List Cmd := before ++ [.rescan (.included 1) .unbounded [1], .rescan (.included 4) .unbounded [1]] ++ after

/-- A rescan of heights that are not there yet is not without effect: the scan under way is given up, and blocks it would have found are not. -/
theorem C94_moves_scan : Run conf U false Calm (fresh true) (hist true futureCmds) (state true futureCmds) ∧
    found (outputs (hist true futureCmds)) = [] ∧ found (outputs (hist true scanCmds)) = [(1, 11), (3, 13)] :=
  ⟨run_calm (by decide +kernel) (by decide +kernel), by decide +kernel, by decide +kernel⟩

/-- The user asks for the third block, which is received; before the event is taken, the filters of the first and the third block are found to match. -/
def askedCmds : List Cmd := before ++ [.rescan (.included 1) .unbounded [1]] ++ take 5 ++ [.request 13, .block block3] ++
  [.cfilter 1 11 [1], .cfilter 1 12 [4, 5], .cfilter 1 13 [1]] ++ take 10 ++ [.block block1, .block block3] ++ take 10

/-- When the user requests blocks, matching blocks are reported in another order. -/
theorem C90_user_request : Run conf U false Any (fresh true) (hist false askedCmds) (state false askedCmds) ∧
    found (outputs (hist false askedCmds)) = [(1, 11), (3, 13)] ∧ reported (outputs (hist false askedCmds)) = [(3, block3), (1, block1)] :=
  ⟨run_any (by decide +kernel) (by decide +kernel), by decide +kernel, by decide +kernel⟩

/-- A first rescan finds the second block; then there is one for another script, whose filters are in memory; then all blocks are sent. -/
def cachedCmds : List Cmd := before ++ [.rescan (.included 1) .unbounded [9], .cfilter 1 11 [1], .cfilter 1 12 [4, 5], .cfilter 1 13 [1]] ++ take 10 ++ [.block block2] ++ take 10 ++
  [.rescan (.included 1) .unbounded [1]] ++ take 10 ++ [.block block1, .block block3] ++ take 10

/-- The blocks with a `BlockProcessed` event, by hash. -/
def processed (l : List Out) : List Nat := l.filterMap fun o => match o with | .inv (.processed b _ _) => some b.hash | _ => none

/-- Blocks found to match by filters in memory are requested, received and processed, but never reported. -/
theorem C90_cached_match : Run conf U false Any (fresh true) (hist false cachedCmds) (state false cachedCmds) ∧ Drained (state false cachedCmds) ∧
    awaited (hist false cachedCmds) = [] ∧ found (outputs (hist false cachedCmds)) = [(2, 12), (1, 11), (3, 13)] ∧
    processed (outputs (hist false cachedCmds)) = [12, 11, 13] ∧ reported (outputs (hist false cachedCmds)) = [(2, block2)] :=
  ⟨run_any (by decide +kernel) (by decide +kernel), drained (by decide +kernel), by decide +kernel, by decide +kernel, by decide +kernel, by decide +kernel⟩

/-- A transaction that is in no block of the chain. -/
def bogus : Transaction := ⟨9, 9, [⟨102, 0⟩], [⟨1000, 1⟩], 400⟩

/-- The peer sends the first block with another transaction in it. -/
def forgedCmds : List Cmd := before ++ [.rescan (.included 1) .unbounded [1], .cfilter 1 11 [1], .cfilter 1 12 [4, 5], .cfilter 1 13 [1]] ++ take 10 ++
  [.block ⟨11, [bogus]⟩, .block block3] ++ take 10

/-- A block with other transactions than those of the block with that hash is reported, in a calm history, and gives the wallet a coin that does not exist. -/
theorem C92_forged_block : Run conf U false Calm (fresh true) (hist true forgedCmds) (state true forgedCmds) ∧
    reported (outputs (hist true forgedCmds)) = [(1, ⟨11, [bogus]⟩), (3, block3)] ∧
    ∃ db balance, Wallet.scan Wallet.Scenario.codec (Wallet.Scenario.codec.watch [1]) ((reported (outputs (hist true forgedCmds))).map (·.2)) (Wallet.Db.new, 0) =
      .ok (db, balance) ∧ db.utxo Wallet.Scenario.codec ⟨9, 0⟩ = some ⟨1000, 1⟩ ∧
      ¬ Wallet.Unspent Wallet.Scenario.codec [1] (((List.range' 1 3).map blocks).flatMap (·.txs)) ⟨9, 0⟩ ⟨1000, 1⟩ := by
  have hr : reported (outputs (hist true forgedCmds)) = [(1, ⟨11, [bogus]⟩), (3, block3)] := by decide +kernel
  refine ⟨run_calm (by decide +kernel) (by decide +kernel), hr, ⟨[(⟨9, 0⟩, ⟨1, 1000⟩), (⟨2, 1⟩, ⟨1, 29⟩), (⟨3, 0⟩, ⟨1, 5⟩)]⟩, 1034, ?_, ?_, ?_⟩
  · rw [hr]; decide
  · decide
  · rintro ⟨pre, tx, post, h1, h2, _⟩
    have hm : tx ∈ ((List.range' 1 3).map blocks).flatMap (·.txs) := by rw [h1]; simp
    have key : ∀ tx ∈ ((List.range' 1 3).map blocks).flatMap (·.txs), tx.txid ≠ 9 := by decide
    exact key tx hm h2.1.symm

end Verif.Node.Scenario
