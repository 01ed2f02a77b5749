import Verif.Node.PropsFilter
import Verif.Node.TidyExamples

/-!
# Scans with real compact filters: concrete histories
-/

set_option autoImplicit false

namespace Verif.Node.Filters
open Verif.Tx (Block Transaction OutPoint TxOut)
open Verif.Chain (Header)
open Verif.Chain.Scenario (a1 a2 a3 g)
open Verif.Cbf.Gcs (blockFilter Filtered)
open Verif.Cbf.Gcs.Scenario (sb)
open Verif.Wallet.Scenario (receive spend more)
open Verif.Node.Scenario (Cmd env take calm calm_sound not_asks awaited not_awaited drained split_at sent mem_sent)
open Verif.Node.Crash (fresh)
open Verif.Node.Reorg (U legal ok tidy c2 c3 c4)

/-! ## The blocks and their filters -/

/-- The scripts of the coins. -/
def coin : OutPoint → Nat
  | ⟨1, 0⟩ | ⟨2, 1⟩ | ⟨3, 0⟩ => 1
  | ⟨1, 1⟩ | ⟨2, 0⟩ => 9
  | k => if 1000 < k.txid then 5 else 77

def coinbase (n : Nat) : Transaction := ⟨n, n, [OutPoint.null], [⟨50, 5⟩], 400⟩

/-- A transaction that the user submits. -/
def mine : Transaction := ⟨5, 5, [⟨105, 0⟩], [⟨20, 9⟩, ⟨3, 2⟩], 400⟩

/-- The blocks on the first branch. -/
def block1 : Block := ⟨11, [coinbase 1011, receive]⟩
def block2 : Block := ⟨12, [coinbase 1012]⟩
def block3 : Block := ⟨13, [coinbase 1013, spend, more]⟩
/-- A block on the second branch, with the user's transaction. -/
def block42 : Block := ⟨42, [coinbase 1042, mine]⟩

/-- Bytes of filters. -/
def fa : Cbf.Filter := [4, 160, 234, 50, 234, 40, 193, 68, 55, 17, 137, 192]
def fb : Cbf.Filter := [1, 71, 198, 80]
def fc : Cbf.Filter := [4, 160, 234, 50, 69, 114, 138, 75, 103, 22, 154, 144]

/-- They are the filters of the blocks. -/
theorem filters_eq : blockFilter sb coin block1 = fa ∧ blockFilter sb coin block2 = fb ∧ blockFilter sb coin block3 = fa ∧ blockFilter sb coin block42 = fc := by decide +kernel

/-- A toy hash of filters without collisions among those above; filters are matched as by the client. -/
def params : Cbf.Params where
  filterHash := fun f => if f = fa then 1 else if f = fb then 2 else if f = fc then 3 else 0
  filterHeader := fun h prev => h + 10 * prev + 1
  matchAny := (Cbf.Gcs.params sb .regtest true).matchAny
  matchAll := (Cbf.Gcs.params sb .regtest true).matchAll
  genHash := 5
  genHeader := 6
  checked := false

theorem real : RealFilters sb params := ⟨fun _ _ _ => rfl, fun _ _ _ => rfl⟩

def conf : Cfg := ⟨Crash.conf.sync, params⟩

theorem ctx : Ctx conf U false fresh g := ⟨Reorg.ctx.acyclic, rfl, .init⟩

theorem collisionFree : Chain.CollisionFree conf.sync.chain U := Reorg.collisionFree

def new : Fsm := Owned.new

/-! ## Running commands -/

theorem tidy_sound {h : Hist} {n : Fsm} {c : Cmd} {outs : List Out} (hc : tidy (outputs h) n c outs = true) : TidyStep conf h n c.input outs :=
  let t := Reorg.tidy_sound hc
  ⟨t.clean, t.taken, t.request, t.rescan, t.reorg, t.alone⟩

/-- Run a list of commands. -/
def go (strict : Bool) : List Cmd → Nat → Hist → Fsm → Option (Hist × Fsm)
  | [], _, h, n => some (h, n)
  | c :: cs, now, h, n =>
    match n.step conf (env now) c.input with
    | .ok n' =>
      let outs := n'.log.drop n.log.length
      if n'.log = n.log ++ outs ∧ tidy (outputs h) n c outs = true ∧ ok c = true ∧ (!strict || calm (outputs h) n c n' outs) = true then
        go strict cs (now + 1) ((c.input, outs) :: h) n' else none
    | _ => none

theorem go_tidy {strict : Bool} : ∀ {cs : List Cmd} {now : Nat} {h h' : Hist} {n n' : Fsm},
    Tidy conf U false fresh h n → go strict cs now h n = some (h', n') → Tidy conf U false fresh h' n'
  | [], _, _, _, _, _, r, e => by cases e; exact r
  | c :: cs, now, h, h', n, n', r, e => by
    unfold go at e
    cases hs : n.step conf (env now) c.input with
    | ok n1 =>
      simp only [hs] at e
      split at e
      · rename_i hc
        exact go_tidy (.step (env now) r (legal hc.2.2.1 now) rfl (tidy_sound hc.2.1) hs hc.1) e
      · cases e
    | err e' => simp [hs] at e
    | panic => simp [hs] at e

theorem go_calm : ∀ {cs : List Cmd} {now : Nat} {h h' : Hist} {n n' : Fsm},
    Run conf U false Calm fresh h n → go true cs now h n = some (h', n') → Run conf U false Calm fresh h' n'
  | [], _, _, _, _, _, r, e => by cases e; exact r
  | c :: cs, now, h, h', n, n', r, e => by
    unfold go at e
    cases hs : n.step conf (env now) c.input with
    | ok n1 =>
      simp only [hs] at e
      split at e
      · rename_i hc
        exact go_calm (.step (env now) r (legal hc.2.2.1 now) hs hc.1 (calm_sound (by simpa using hc.2.2.2))) e
      · cases e
    | err e' => simp [hs] at e
    | panic => simp [hs] at e

def result (strict : Bool) (cs : List Cmd) : Option (Hist × Fsm) := go strict cs 7300000 [] new
def hist (strict : Bool) (cs : List Cmd) : Hist := ((result strict cs).getD ([], new)).1
def state (strict : Bool) (cs : List Cmd) : Fsm := ((result strict cs).getD ([], new)).2

theorem run {strict : Bool} {cs : List Cmd} (hs : (result strict cs).isSome = true) : Tidy conf U false fresh (hist strict cs) (state strict cs) := by
  obtain ⟨⟨h, m⟩, e⟩ := Option.isSome_iff_exists.1 hs
  unfold hist state
  rw [e]
  exact go_tidy (.start Owned.filters 100) e

theorem run_calm {cs : List Cmd} (hs : (result true cs).isSome = true) : Run conf U false Calm fresh (hist true cs) (state true cs) := by
  obtain ⟨⟨h, m⟩, e⟩ := Option.isSome_iff_exists.1 hs
  unfold hist state
  rw [e]
  exact go_calm (.start Owned.filters 100) e

/-- Which filter a filter header commits to. -/
theorem filter_hash {n : Fsm} {height hdr prev : Nat} {f : Cbf.Filter} (h : filterAt conf n height f)
    (h1 : n.cbf.filters.all[height]?.map (·.2) = some hdr) (h2 : Cbf.below n.cbf.filters.all height = some prev) : params.filterHash f + 10 * prev + 1 = hdr := by
  obtain ⟨a, b, e1, e2, e3⟩ := h
  rw [h1] at e1
  rw [h2] at e2
  cases e1; cases e2
  exact e3

theorem of_hash {f : Cbf.Filter} : (params.filterHash f = 1 → f = fa) ∧ (params.filterHash f = 2 → f = fb) ∧ (params.filterHash f = 3 → f = fc) := by
  simp only [params]
  split
  · simp_all
  · split
    · simp_all
    · split <;> simp_all

/-! ## A scan -/

def before : List Cmd := [.start, .peer 1 3] ++ take 10 ++ [.headers 1 [a1, a2, a3]] ++ take 10 ++ [.cfheaders 1 13 6 [1, 2, 1]] ++ take 10

def scan : List Cmd := [.rescan (.included 1) .unbounded [1], .cfilter 1 12 fb, .cfilter 1 11 fa, .cfilter 1 13 fa] ++ take 10 ++ [.block block3, .block block1] ++ take 10

def cmds : List Cmd := before ++ scan

theorem cmds_run : Run conf U false Calm fresh (hist true cmds) (state true cmds) := run_calm (by decide +kernel)

def earlier : Hist := (hist true cmds).drop 26
def later : Hist := (hist true cmds).take 25
def outs : List Out := ((hist true cmds).drop 25).head?.elim [] (·.2)

theorem split : hist true cmds = later ++ (.rescan (.included 1) .unbounded [1], outs) :: earlier := split_at (by decide +kernel)

theorem cmds_drained : Drained (state true cmds) := drained (by decide +kernel)

theorem cmds_awaited : awaited (hist true cmds) = [] := by decide +kernel

theorem later_not_asks : ∀ x ∈ later, (∀ a b v, x.1 ≠ .rescan a b v) ∧ ∀ v, x.1 ≠ .watch v := not_asks (by decide +kernel)

theorem cmds_scans : scans (outputs (later ++ [(.rescan (.included 1) .unbounded [1], outs)])) = [(1, 11, true), (2, 12, false), (3, 13, true)] := by decide +kernel

theorem cmds_filters : (state true cmds).cbf.filters.all = [(5, 6), (1, 62), (2, 623), (1, 6232)] := by decide +kernel

theorem only1 : Only conf sb coin (state true cmds) 1 block1 := ⟨by decide, fun f hf => by
  have := filter_hash (hdr := 62) (prev := 6) hf (by rw [cmds_filters]; rfl) (by rw [cmds_filters]; rfl)
  rw [filters_eq.1]
  exact of_hash.1 (by omega)⟩

theorem only2 : Only conf sb coin (state true cmds) 2 block2 := ⟨by decide, fun f hf => by
  have := filter_hash (hdr := 623) (prev := 62) hf (by rw [cmds_filters]; rfl) (by rw [cmds_filters]; rfl)
  rw [filters_eq.2.1]
  exact of_hash.2.1 (by omega)⟩

theorem only3 : Only conf sb coin (state true cmds) 3 block3 := ⟨by decide, fun f hf => by
  have := filter_hash (hdr := 6232) (prev := 623) hf (by rw [cmds_filters]; rfl) (by rw [cmds_filters]; rfl)
  rw [filters_eq.2.2.1]
  exact of_hash.1 (by omega)⟩

/-- The hypotheses of `C91_filters_partial` are met: the third block spends a coin paid to the script 1. -/
example : ∃ b', (3, b') ∈ reported (outputs (later ++ [(.rescan (.included 1) .unbounded [1], outs)])) ∧ b'.hash = 13 :=
  C91_filters_partial real ctx (split ▸ cmds_run) later_not_asks (split ▸ not_awaited cmds_awaited) cmds_drained (by decide) (by rw [cmds_scans]; decide)
    (b := block3) (by decide +kernel) only3 (x := 1) (by simp) (.spent (first := coinbase 1013) (others := [spend, more]) (t := spend) (k := ⟨1, 0⟩) rfl (by simp) (by decide) (by decide))

def blocks : Nat → Block
  | 1 => block1
  | 2 => block2
  | _ => block3

theorem honest : Honest conf sb coin (hist true cmds) (state true cmds) blocks 1 3 where
  hash := by
    intro i hi k hk
    have key : ∀ i < 3, onChain conf (state true cmds) (1 + i) = some (blocks (1 + i)).hash := by decide +kernel
    rw [key i hi] at hk
    exact Option.some.inj hk
  sent := by
    intro i hi b hb he
    have key : ∀ b ∈ sent (hist true cmds), ∀ i < 3, b.hash = (blocks (1 + i)).hash → b = blocks (1 + i) := by decide +kernel
    exact key b (mem_sent hb) i hi he
  filter := by
    intro i hi
    obtain rfl | rfl | rfl : i = 0 ∨ i = 1 ∨ i = 2 := by omega
    exacts [only1, only2, only3]
  first := by
    intro i hi t ts ht
    have key : ∀ t' ∈ ((List.range' 1 3).map blocks).flatMap (·.txs), OutPoint.null.txid ≠ t'.txid := by decide
    have : t.inputs = [OutPoint.null] := by
      obtain rfl | rfl | rfl : i = 0 ∨ i = 1 ∨ i = 2 := by omega
      all_goals
        simp only [blocks, block1, block2, block3, List.cons.injEq] at ht
        rw [← ht.1]; rfl
    intro k hk
    rw [this, List.mem_singleton] at hk
    rw [hk]
    exact key
  coins := by
    intro t' ht' k o hk ho
    have key : ∀ t' ∈ ((List.range' 1 3).map blocks).flatMap (·.txs), ∀ v < t'.outputs.length, t'.outputs[v]?.map (·.script) = some (coin ⟨t'.txid, v⟩) := by decide
    have := key t' ht' k.vout (List.getElem?_eq_some_iff.1 ho).1
    rw [ho, ← hk] at this
    exact (Option.some.inj this).symm

theorem wallet_scan : Wallet.scan Wallet.Scenario.codec (Wallet.Scenario.codec.watch [1])
    ((reported (outputs (later ++ [(.rescan (.included 1) .unbounded [1], outs)]))).map (·.2)) (Wallet.Db.new, 0) = .ok (Wallet.Scenario.result, 34) := by decide +kernel

/-- The hypotheses of `C92_filters_partial` are met. -/
example : Wallet.Unspent Wallet.Scenario.codec [1] (((List.range' 1 3).map blocks).flatMap (·.txs)) ⟨2, 1⟩ ⟨29, 1⟩ ∧
    ¬ Wallet.Unspent Wallet.Scenario.codec [1] (((List.range' 1 3).map blocks).flatMap (·.txs)) ⟨1, 0⟩ ⟨50, 1⟩ := by
  have h := C92_filters_partial (sb := sb) (coin := coin) real ctx Wallet.Scenario.codec_sound (addrs := [1]) (by simp) (by
      intro a ha
      rw [List.mem_singleton.1 ha]
      exact ⟨by decide, by intro l e; cases e⟩) (s := 1) (stop := .unbounded) (outs := outs) (later := later) (split ▸ cmds_run) later_not_asks
    (split ▸ not_awaited cmds_awaited) cmds_drained 3 (congrArg List.length cmds_scans).symm blocks (split ▸ honest)
    (Wallet.Scenario.sane_of _ (by decide) (by decide)) wallet_scan
  exact ⟨(h _ _).1 (by decide), fun hu => absurd ((h _ _).2 hu) (by decide)⟩

/-! ## A re-org, and a transaction submitted -/

/-- The user submits a transaction and asks for a rescan; three blocks are scanned, then two of them replaced by three others. -/
def reorg : List Cmd := before ++ [.submit mine] ++ take 4 ++ scan ++ [.headers 1 [c2, c3, c4]] ++ take 16 ++ [.cfheaders 1 44 62 [3, 2, 2]] ++ take 10 ++
  [.cfilter 1 44 fb, .cfilter 1 42 fc, .cfilter 1 43 fb] ++ take 10

theorem reorg_run : Tidy conf U false fresh (hist false reorg) (state false reorg) := run (by decide +kernel)

def earlierR : Hist := (hist false reorg).drop 67
def laterR : Hist := (hist false reorg).take 66
def outsR : List Out := ((hist false reorg).drop 66).head?.elim [] (·.2)

theorem splitR : hist false reorg = laterR ++ (.rescan (.included 1) .unbounded [1], outsR) :: earlierR := split_at (by decide +kernel)

theorem laterR_not_asks : ∀ x ∈ laterR, (∀ a b v, x.1 ≠ .rescan a b v) ∧ ∀ v, x.1 ≠ .watch v := not_asks (by decide +kernel)

theorem reorg_filters : (state false reorg).cbf.filters.all = [(5, 6), (1, 62), (3, 624), (2, 6243), (2, 62433)] := by decide +kernel

theorem reorg_progress : progress 1 (outputs (laterR ++ [(.rescan (.included 1) .unbounded [1], outsR)])) = 5 := by decide +kernel

theorem only42 : Only conf sb coin (state false reorg) 2 block42 := ⟨by decide, fun f hf => by
  have := filter_hash (hdr := 624) (prev := 62) hf (by rw [reorg_filters]; rfl) (by rw [reorg_filters]; rfl)
  rw [filters_eq.2.2.2]
  exact of_hash.2.2 (by omega)⟩

/-- The transactions submitted or reverted. -/
def followed (h : Hist) : List Transaction :=
  h.filterMap (fun x => match x.1 with | .submit t => some t | _ => none) ++ (outputs h).filterMap (fun | .inv (.reverted t) => some t | _ => none)

theorem mem_followed {h : Hist} {t : Transaction} (hf : (∃ o, (Input.submit t, o) ∈ h) ∨ Out.inv (.reverted t) ∈ outputs h) : t ∈ followed h := by
  rcases hf with ⟨o, hm⟩ | hm
  · exact List.mem_append_left _ (List.mem_filterMap.2 ⟨_, hm, rfl⟩)
  · exact List.mem_append_right _ (List.mem_filterMap.2 ⟨_, hm, rfl⟩)

/-- Whether an output says that a transaction was confirmed. -/
def confirms : Out → Bool
  | .inv (.confirmed _ _ _) => true
  | _ => false

theorem submitted : ∃ o, (Input.submit mine, o) ∈ earlierR := by
  have : earlierR.any (fun x => match x.1 with | .submit t => decide (t = mine) | _ => false) = true := by decide +kernel
  obtain ⟨⟨i, o⟩, hm, he⟩ := List.any_eq_true.1 this
  cases i <;> simp at he
  subst he
  exact ⟨o, hm⟩

/-- The hypotheses of `C137_scanned_partial` are met: the block with the transaction is found, although it has nothing to do with the script watched. -/
example : latest (outputs (laterR ++ [(.rescan (.included 1) .unbounded [1], outsR)])) 2 = some (42, true) ∧ ¬ Filtered sb coin block42 (sb 1) := by
  obtain ⟨o, ho⟩ := submitted
  refine ⟨C137_scanned_partial real ctx collisionFree (splitR ▸ reorg_run) laterR_not_asks ho ?_ ?_ ?_ (by decide) (by rw [reorg_progress]; decide)
    (b := block42) (by decide +kernel) only42 (by decide), ?_⟩
  · rw [← splitR]
    have h1 : (outputs (hist false reorg)).all (fun o => !confirms o) = true := by decide +kernel
    intro block height hm
    exact absurd (List.all_eq_true.1 h1 _ hm) (by simp [confirms])
  · rw [← splitR]
    have h1 : ∀ t ∈ followed (hist false reorg), t = mine := by decide +kernel
    intro t' ht' _
    rw [h1 t' (mem_followed ht')]
  · intro o ho
    have : ∀ o ∈ mine.outputs, o.script = 9 ∨ o.script = 2 := by decide
    rcases this o ho with e | e <;> rw [e] <;> exact ⟨by decide, by intro l h; cases h⟩
  · intro h
    have := Cbf.Gcs.mem_elements.2 h
    revert this
    decide

/-- Then the blocks that are awaited come. -/
def ended : List Cmd := reorg ++ [.block block42] ++ take 10

theorem ended_run : Tidy conf U false fresh (hist false ended) (state false ended) := run (by decide +kernel)

def earlierE : Hist := (hist false ended).drop 78
def laterE : Hist := (hist false ended).take 77
def outsE : List Out := ((hist false ended).drop 77).head?.elim [] (·.2)

theorem splitE : hist false ended = laterE ++ (.rescan (.included 1) .unbounded [1], outsE) :: earlierE := split_at (by decide +kernel)

theorem ended_awaited : awaited (hist false ended) = [] := by decide +kernel

theorem only1E : Only conf sb coin (state false ended) 1 block1 := ⟨by decide, fun f hf => by
  have := filter_hash (hdr := 62) (prev := 6) hf (by decide +kernel) (by decide +kernel)
  rw [filters_eq.1]
  exact of_hash.1 (by omega)⟩

/-- The hypotheses of `C91_filters_reorg_partial` are met. -/
example : (∃ b', (1, b') ∈ reported (outputs (laterE ++ [(.rescan (.included 1) .unbounded [1], outsE)])) ∧ b'.hash = 11) ∧
    reported (outputs (hist false ended)) = [(1, block1), (3, block3), (2, block42)] := by
  have hp : 1 < progress 1 (outputs (laterE ++ [(.rescan (.included 1) .unbounded [1], outsE)])) := by decide +kernel
  refine ⟨C91_filters_reorg_partial real ctx collisionFree (splitE ▸ ended_run) (not_asks (by decide +kernel)) (splitE ▸ not_awaited ended_awaited)
    (drained (by decide +kernel)) (by decide) hp (b := block1) (by decide +kernel) only1E (x := 1) (by simp)
    (.output (t := receive) (o := ⟨50, 1⟩) (by decide) (by decide) (by decide) (by intro l e; cases e)), by decide +kernel⟩

end Verif.Node.Filters
