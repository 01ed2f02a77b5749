import Verif.Node.PropsTidy
import Verif.Node.OwnersExamples

/-!
# Scans and re-orgs: concrete histories
-/

set_option autoImplicit false

namespace Verif.Node.Reorg
open Verif.Tx (Block Transaction OutPoint TxOut)
open Verif.Chain (Header)
open Verif.Chain.Scenario (a1 a2 a3 g e mk)
open Verif.Node.Scenario (Cmd env take before block1 block3 not_asks awaited not_awaited drained filter_sum isScan_eq split_at noTransactions sent mem_sent)
open Verif.Node.Crash (conf fresh)

/-- A branch on top of the first block. -/
def c2 : Header := mk 42 11 302 10
/-- See `c2`. -/
def c3 : Header := mk 43 42 402 10
/-- See `c2`. -/
def c4 : Header := mk 44 43 502 10

/-- The headers presented. -/
def known : List Header := [g, a1, a2, a3, c2, c3, c4]

def U (x : Header) : Prop := x ∈ known

instance (x : Header) : Decidable (U x) := inferInstanceAs (Decidable (x ∈ known))

theorem ctx : Ctx conf U false fresh g := ⟨⟨id, fun x h => by
  have : ∀ x ∈ known, x.prev < x.nonce := by decide
  exact this x h⟩, rfl, .init⟩

theorem collisionFree : Chain.CollisionFree conf.sync.chain U := fun x y hx hy he => by
  have : ∀ x ∈ known, ∀ y ∈ known, x.nonce = y.nonce → x = y := by decide
  exact this x hx y hy he

def ok : Cmd → Bool
  | .headers _ l => l.all (fun x => decide (U x))
  | _ => true

theorem legal {c : Cmd} (h : ok c = true) (now : Nat) : Legal U false (env now) c.input := by
  refine ⟨Sync.Scenario.env_legal, Inv.Scenario.env_legal, ?_⟩
  cases c with
  | headers a l =>
    intro p hp
    obtain ⟨x, hx, rfl⟩ := List.mem_map.1 hp
    exact ⟨by simpa using List.all_eq_true.1 h x hx, Chain.Scenario.eOk false⟩
  | _ => simp [Cmd.input, Input.batch]

/-- The heights that an output says left the chain. -/
def gone : Out → List Nat
  | .sync (.disconnected k _) => [k]
  | .sync (.imported _ _ _ _ rv) => rv.map (·.1)
  | _ => []

theorem gone_sound {o : Out} {k : Nat} (h : Leaves k o) : k ∈ gone o := by
  cases o with
  | sync y =>
    cases y with
    | disconnected j x => simp only [Leaves] at h; simp [gone, h]
    | imported a b c d rv =>
      obtain ⟨r, hr, rfl⟩ := h
      exact List.mem_map_of_mem hr
    | _ => cases h
  | _ => cases h

theorem get_mem {V : Type} {k : Nat} : ∀ {m : AMap Nat V}, (m.get k).isSome = true → k ∈ m.map (·.1)
  | [], h => by cases h
  | (j, v) :: m, h => by
    unfold AMap.get at h
    split at h
    · rename_i e; simp [e]
    · exact List.mem_cons_of_mem _ (get_mem h)

/-- The step is tidy, as far as can be computed. -/
def tidy (outs0 : List Out) (n : Fsm) (c : Cmd) (outs : List Out) : Bool :=
  Owned.clean n c.input && (c matches .next || n.qSync.all (fun o => decide (¬ (Out.sync o).Reverts))) &&
  (match c with
  | .request _ => false
  | .rescan _ _ _ => decide ((reported outs0).map (fun p => (p.1, p.2.hash)) = found outs0) && decide (found outs = [])
  | _ => true) &&
  outs.all (fun o => (gone o).all fun k => (unreported outs0).all (fun x => decide (x.1 < k)) && (n.cbf.rescan.received.map (·.1)).all (fun j => decide (j < k))) &&
  (outs.all (fun o => decide (¬ o.Reverts)) || n.qSync.all (fun o => !o.isImported))

theorem tidy_sound {h : Hist} {n : Fsm} {c : Cmd} {outs : List Out} (hc : tidy (outputs h) n c outs = true) : TidyStep conf h n c.input outs := by
  simp only [tidy, Bool.and_eq_true, Bool.or_eq_true] at hc
  obtain ⟨⟨⟨⟨h1, h2⟩, h3⟩, h4⟩, h5⟩ := hc
  refine ⟨Owned.clean_sound h1, ?_, ?_, ?_, ?_, ?_⟩
  · rcases h2 with h2 | h2
    · left
      cases c <;> first | rfl | cases h2
    · exact .inr (by simpa using h2)
  · intro k hk
    cases c <;> simp [Cmd.input] at hk
    cases h3
  · intro a b w hk
    cases c <;> simp [Cmd.input] at hk
    simpa using h3
  · intro o ho k hk
    have := List.all_eq_true.1 (List.all_eq_true.1 h4 o ho) k (gone_sound hk)
    simp only [Bool.and_eq_true] at this
    exact ⟨fun x hx => by simpa using List.all_eq_true.1 this.1 x hx, fun j hj => by simpa using List.all_eq_true.1 this.2 j (get_mem hj)⟩
  · rintro ⟨o, ho, hr⟩
    rcases h5 with h5 | h5
    · exact absurd hr (by simpa using List.all_eq_true.1 h5 o ho)
    · simpa using h5

/-- Run a list of commands. -/
def go : List Cmd → Nat → Hist → Fsm → Option (Hist × Fsm)
  | [], _, h, n => some (h, n)
  | c :: cs, now, h, n =>
    match n.step conf (env now) c.input with
    | .ok n' =>
      let outs := n'.log.drop n.log.length
      if n'.log = n.log ++ outs ∧ tidy (outputs h) n c outs = true ∧ ok c = true then go cs (now + 1) ((c.input, outs) :: h) n' else none
    | _ => none

theorem go_tidy : ∀ {cs : List Cmd} {now : Nat} {h h' : Hist} {n n' : Fsm}, Tidy conf U false fresh h n → go cs now h n = some (h', n') → Tidy conf U false fresh h' n'
  | [], _, _, _, _, _, r, e => by cases e; exact r
  | c :: cs, now, h, h', n, n', r, e => by
    unfold go at e
    cases hs : n.step conf (env now) c.input with
    | ok n1 =>
      simp only [hs] at e
      split at e
      · rename_i hc
        exact go_tidy (.step (env now) r (legal hc.2.2 now) rfl (tidy_sound hc.2.1) hs hc.1) e
      · cases e
    | err e' => simp [hs] at e
    | panic => simp [hs] at e

def result (cs : List Cmd) : Option (Hist × Fsm) := go cs 7300000 [] Owned.new
def hist (cs : List Cmd) : Hist := ((result cs).getD ([], Owned.new)).1
def state (cs : List Cmd) : Fsm := ((result cs).getD ([], Owned.new)).2

theorem run {cs : List Cmd} (hs : (result cs).isSome = true) : Tidy conf U false fresh (hist cs) (state cs) := by
  obtain ⟨⟨h, m⟩, e⟩ := Option.isSome_iff_exists.1 hs
  unfold hist state
  rw [e]
  exact go_tidy (.start Owned.filters 100) e

def block42 : Block := ⟨42, []⟩

/-- Three blocks are scanned. -/
def first : List Cmd := before ++ [.rescan (.included 1) .unbounded [1]] ++
  [.cfilter 1 12 [4, 5], .cfilter 1 11 [1], .cfilter 1 13 [1]] ++ take 10 ++ [.block block3, .block block1] ++ take 10

/-- Then the second and the third are replaced by three others. -/
def second : List Cmd := [.headers 1 [c2, c3, c4]] ++ take 16 ++ [.cfheaders 1 44 62 [1, 9, 9]] ++ take 10 ++
  [.cfilter 1 44 [9], .cfilter 1 42 [1], .cfilter 1 43 [9]] ++ take 10 ++ [.block block42] ++ take 10

def cmds : List Cmd := first ++ second

theorem cmds_run : Tidy conf U false fresh (hist cmds) (state cmds) := run (by decide +kernel)

def earlier : Hist := (hist cmds).drop 78
def later : Hist := (hist cmds).take 77
def outs : List Out := ((hist cmds).drop 77).head?.elim [] (·.2)

theorem split : hist cmds = later ++ (.rescan (.included 1) .unbounded [1], outs) :: earlier := split_at (by decide +kernel)

theorem cmds_drained : Drained (state cmds) := drained (by decide +kernel)

theorem cmds_awaited : awaited (hist cmds) = [] := by decide +kernel

theorem cmds_reported : reported (outputs (hist cmds)) = [(1, block1), (3, block3), (2, block42)] := by decide +kernel

/-- The hypotheses of `C90_complete_reorg_partial` and `C90_reports_reorg_partial` are met: the block at height 2 is reported after that at height 3, which left the chain. -/
example : [(1, 11), (3, 13), (2, 42)] = found (outputs (hist cmds)) ∧ ∀ p ∈ reported (outputs (hist cmds)), Sent p.2 (hist cmds) := by
  refine ⟨?_, (C90_reports_reorg_partial ctx collisionFree cmds_run).2⟩
  rw [← C90_complete_reorg_partial ctx collisionFree cmds_run (not_awaited cmds_awaited) cmds_drained, cmds_reported]
  rfl

theorem later_not_asks : ∀ x ∈ later, (∀ a b v, x.1 ≠ .rescan a b v) ∧ ∀ v, x.1 ≠ .watch v := not_asks (by decide +kernel)

theorem filter2 {f : Cbf.Filter} (h : filterAt conf (state cmds) 2 f) : f.sum = 1 := by
  have := filter_sum (hdr := 622) (prev := 62) (n := state cmds) h (by decide +kernel) (by decide +kernel)
  omega

/-- The rescan reached the tip, went back to the fork and reached the new tip. -/
theorem passed : progress 1 (outputs (later ++ [(.rescan (.included 1) .unbounded [1], outs)])) = 5 ∧ progress 1 (outputs ((hist first).take 25)) = 4 ∧
    scans (outputs (later ++ [(.rescan (.included 1) .unbounded [1], outs)])) =
      [(1, 11, true), (2, 12, false), (3, 13, true), (2, 42, true), (3, 43, false), (4, 44, false)] := by decide +kernel

/-- The hypotheses of `C91_rescan_reorg_partial` are met, also those of its last part. -/
example : (∃ b, (2, b) ∈ reported (outputs (later ++ [(.rescan (.included 1) .unbounded [1], outs)])) ∧ b.hash = 42) ∧
    InOrder 1 1 (outputs (later ++ [(.rescan (.included 1) .unbounded [1], outs)])) := by
  have h := C91_rescan_reorg_partial ctx collisionFree (split ▸ cmds_run) later_not_asks
  refine ⟨(h.2.2 (split ▸ not_awaited cmds_awaited) cmds_drained).2 2 (by decide) (by rw [passed.1]; decide) 42 (by decide +kernel) (by simp) fun f hf => ?_, h.1⟩
  simp [conf, Scenario.params, filter2 hf]

theorem split_cons' {h : Hist} {k : Nat} (hk : k < h.length) : h = h.take k ++ (h[k].1, h[k].2) :: h.drop (k + 1) := (Scenario.split_cons hk).symm

/-- The hypotheses of `C89_scanned_reorg_partial` are met: the first block was scanned before the re-org, and is still on the chain. -/
example : onChain conf (state cmds) 1 = some 11 := by
  have hs : scans ((hist cmds)[75]'(by decide +kernel)).2 = [(1, 11, true), (2, 12, false)] := by decide +kernel
  refine (C89_scanned_reorg_partial ctx collisionFree ((split_cons' (h := hist cmds) (k := 75) (by decide +kernel)) ▸ cmds_run) 1 11 true (by rw [hs]; simp) ?_).1
  have h1 : (outputs ((hist cmds).take 75)).all (fun o => (gone o).all fun k => decide (1 < k)) = true := by decide +kernel
  intro o ho k hk
  simpa using List.all_eq_true.1 (List.all_eq_true.1 h1 o ho) k (gone_sound hk)

/-- The filter at height 2 scanned before the re-org is not on the chain any more, and this was reported. -/
example : (outputs ((hist cmds).take 75)).any (fun o => (gone o).contains 2) = true := by decide +kernel

/-- The hypotheses of `C90_onchain_reorg_partial` are met when a block is reported after the re-org. -/
example : onChain conf (state (cmds.take 103)) 2 = some 42 ∧ reported ((hist (cmds.take 103)).head?.elim [] (·.2)) = [(2, block42)] := by
  have hr : Tidy conf U false fresh (hist (cmds.take 103)) (state (cmds.take 103)) := run (by decide +kernel)
  cases hh : hist (cmds.take 103) with
  | nil => exact absurd hh (by decide +kernel)
  | cons x l =>
    have : (hist (cmds.take 103)).head?.elim [] (fun y => reported y.2) = [(2, block42)] := by decide +kernel
    rw [hh] at hr this
    exact ⟨C90_onchain_reorg_partial ctx collisionFree (i := x.1) (outs := x.2) hr (2, block42) (by
      have h2 : reported x.2 = [(2, block42)] := this
      rw [h2]; simp), this⟩


/-! ## Without the re-org -/

/-- A client that is told about the second branch only. -/
def direct : List Cmd := [.start, .peer 1 4] ++ take 10 ++ [.headers 1 [a1, c2, c3, c4]] ++ take 10 ++ [.cfheaders 1 44 6 [1, 1, 9, 9]] ++ take 10 ++
  [.rescan (.included 1) .unbounded [1]] ++ [.cfilter 1 44 [9], .cfilter 1 42 [1], .cfilter 1 43 [9], .cfilter 1 11 [1]] ++ take 10 ++ [.block block1, .block block42] ++ take 16

theorem direct_run : Tidy conf U false fresh (hist direct) (state direct) := run (by decide +kernel)

def earlier' : Hist := (hist direct).drop 33
def later' : Hist := (hist direct).take 32
def outs' : List Out := ((hist direct).drop 32).head?.elim [] (·.2)

theorem split' : hist direct = later' ++ (.rescan (.included 1) .unbounded [1], outs') :: earlier' := split_at (by decide +kernel)

theorem same : SameChain conf [1] (state cmds) (state direct) 1 4 where
  blocks := by decide +kernel
  filters := by
    intro i hi f1 f2 k h1 h2 _
    have hf : (state cmds).cbf.filters.all = [(5, 6), (1, 62), (1, 622), (9, 6230), (9, 62310)] := by decide +kernel
    have hf' : (state direct).cbf.filters.all = [(5, 6), (1, 62), (1, 622), (9, 6230), (9, 62310)] := by decide +kernel
    have key : ∃ hdr prev, ([(5, 6), (1, 62), (1, 622), (9, 6230), (9, 62310)] : List (Nat × Nat))[1 + i]?.map (·.2) = some hdr ∧
        Cbf.below [(5, 6), (1, 62), (1, 622), (9, 6230), (9, 62310)] (1 + i) = some prev := by
      obtain rfl | rfl | rfl | rfl : i = 0 ∨ i = 1 ∨ i = 2 ∨ i = 3 := by omega
      exacts [⟨_, _, rfl, rfl⟩, ⟨_, _, rfl, rfl⟩, ⟨_, _, rfl, rfl⟩, ⟨_, _, rfl, rfl⟩]
    obtain ⟨hdr, prev, k1, k2⟩ := key
    have e1 := filter_sum (n := state cmds) h1 (hf ▸ k1) (hf ▸ k2)
    have e2 := filter_sum (n := state direct) h2 (hf' ▸ k1) (hf' ▸ k2)
    have : f1.sum = f2.sum := by omega
    simp [conf, Scenario.params, this]

/-- The hypotheses of `C93_order_reorg_partial` are met by a client that went through a re-org and one that did not. -/
example : ∃ b, b.hash = 42 ∧ (2, b) ∈ reported (outputs (later ++ [(.rescan (.included 1) .unbounded [1], outs)])) ∧
    (2, b) ∈ reported (outputs (later' ++ [(.rescan (.included 1) .unbounded [1], outs')])) := by
  refine (C93_order_reorg_partial ctx collisionFree ctx collisionFree (split ▸ cmds_run) later_not_asks (split' ▸ direct_run) (not_asks (by decide +kernel))
    (split ▸ noTransactions (by decide +kernel) (by decide +kernel)) (split' ▸ noTransactions (by decide +kernel) (by decide +kernel)) 4 (by decide +kernel) (by decide +kernel) same).2
    (split ▸ not_awaited cmds_awaited) cmds_drained (split' ▸ not_awaited (by decide +kernel)) (drained (by decide +kernel)) ?_ 1 (by decide) 42 (by decide +kernel)
  rw [← split, ← split']
  intro b1 b2 s1 s2
  have key : ∀ b1 ∈ sent (hist cmds), ∀ b2 ∈ sent (hist direct), b1.hash = b2.hash → b1 = b2 := by decide +kernel
  exact key b1 (mem_sent s1) b2 (mem_sent s2)

end Verif.Node.Reorg
