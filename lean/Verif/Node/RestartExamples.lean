import Verif.Node.PropsRestart
import Verif.Node.OwnersExamples

/-!
# Stopping and starting the client: concrete histories
-/

set_option autoImplicit false

namespace Verif.Node.Owned
open Verif.Tx (Block Transaction OutPoint TxOut)
open Verif.Chain (Header)
open Verif.Chain.Scenario (a1 a2 a3 b1 b2 b3 b4 g e mk)
open Verif.Node.Scenario (Cmd env take before)
open Verif.Node.Crash (conf fresh heavy)

/-- The filter headers after three blocks of the first branch. -/
def threeFilters : List Cbf.Entry := [(5, 6), (1, 62), (9, 630), (1, 6302)]

theorem before_filters : (state before).cbf.filters = ⟨(5, 6), [(1, 62), (9, 630), (1, 6302)], threeFilters⟩ := by decide +kernel

theorem before_owned : owned before = [1, 11, 12, 13] := by decide +kernel

theorem before_track : Track conf U false fresh (hist before) (state before) [1, 11, 12, 13] := before_owned ▸ track (cs := before) (by decide +kernel)

theorem before_idle : (state before).qSync = [] := by decide +kernel

theorem before_chain : Cbf.FilterChain conf.cbf (state before).cbf.filters.all := by
  rw [before_filters]
  exact (Cbf.C23_verify_iff conf.cbf _).1 (by decide)

theorem settled_of {n : Fsm} (h : n.qSync = []) : Settled n := by
  intro b k k' cn rv hm
  rw [h] at hm
  cases hm

/-- The hypotheses of `C107_stop_partial` are met. -/
example : ∃ n0, restart conf g true 100 (state before).disk = some n0 ∧ n0.tree.headers = (state before).tree.headers ∧ Track conf U false n0.tree [] n0 [1, 11, 12, 13] := by
  obtain ⟨n0, h1, h2, -, -, -, h6⟩ := C107_stop_partial ctx collisionFree before_track (settled_of before_idle) true (fun _ => before_chain) 100
  exact ⟨n0, h1, h2, h6⟩

theorem partly_of {α : Type} {old new d : List α} (h1 : d <+: new) (h2 : ∀ c ∈ old.inits, c <+: new → c <+: d) : Partly old new d :=
  .inr ⟨h1, fun c hc => h2 c ((List.mem_inits c old).2 hc)⟩

theorem prefix_cases {α : Type} {P : List α → Prop} {l : List α} (h : ∀ p ∈ l.inits, P p) : ∀ p, p <+: l → P p := fun p hp => h p ((List.mem_inits p l).2 hp)

/-- Two more headers for the first branch. -/
def more : List (Header × Chain.Env) := [(a4, e), (a5, e)]

/-- The hypotheses of `C107_crash_partial` are met: the process is killed between the two headers. -/
example : ∃ n0 ow', restart conf g true 100 ⟨[g, a1, a2, a3, a4], threeFilters⟩ = some n0 ∧ (state before).tree.headers <+: n0.tree.headers ∧
    Track conf U false n0.tree [] n0 ow' ∧ [1, 11, 12, 13] <+: ow' := by
  have hd : CrashIn conf (state before) (env 7300100) (.headers 1 more) ⟨[g, a1, a2, a3, a4], (state before).cbf.filters.store⟩ :=
    .headers (env 7300100) [(a4, e)] (a5, e) [] rfl (prefix_cases (by decide +kernel)) (partly_of (by decide +kernel) (by decide +kernel))
  have hs : (state before).cbf.filters.store = threeFilters := by rw [before_filters]
  rw [hs] at hd
  obtain ⟨n0, ow', h1, h2, -, -, -, h6, h7⟩ := C107_crash_partial ctx collisionFree before_track (settled_of before_idle) true (fun _ => before_chain) 100
    (legal (c := .headers 1 [a4, a5]) (by decide) 7300100) rfl (prefix_cases (by decide +kernel)) hd
  exact ⟨n0, ow', h1, h2, h6, h7⟩

/-- A branch that replaces the three blocks. -/
def fork : List (Header × Chain.Env) := [(b1, e), (b2, e), (b3, e), (b4, e)]

/-- **C107** is false: the process is killed during a re-org, when the old blocks were cut off and the new ones not yet written.  After that the client cannot be started
any more: each start ends in a panic and leaves the disk as it is. -/
theorem C107_crash_in_reorg : ∃ h n ow d n0, Track conf U false fresh h n ow ∧ Settled n ∧ Legal U false (env 7300100) (.headers 1 fork) ∧
    CrashIn conf n (env 7300100) (.headers 1 fork) d ∧ restart conf g true 100 d = some n0 ∧
    ∀ e : Env, 60000 ≤ e.cbf.now → n0.step conf e .init = .panic ∧ n0.disk = d := by
  have hs : (state before).cbf.filters.store = threeFilters := by rw [before_filters]
  have hd : CrashIn conf (state before) (env 7300100) (.headers 1 fork) ⟨[g], (state before).cbf.filters.store⟩ :=
    .headers (env 7300100) [(b1, e), (b2, e), (b3, e)] (b4, e) [] rfl (prefix_cases (by decide +kernel)) (partly_of (by decide +kernel) (by decide +kernel))
  rw [hs] at hd
  obtain ⟨n0, hn⟩ := Option.isSome_iff_exists.1 (show (restart conf g true 100 ⟨[g], threeFilters⟩).isSome = true by decide +kernel)
  exact ⟨_, _, _, _, n0, before_track, settled_of before_idle, legal (c := .headers 1 [b1, b2, b3, b4]) (by decide) 7300100, hd, hn,
    fun e he => C107_never_starts hn (by decide) (by decide) he⟩

/-- **C107** is false: the process is killed after it handled a re-org and before the outputs were taken (or it panics, C102).  It starts
with the new chain and the filter headers of the old one, and keeps them as long as messages with filter headers do not continue those of the old chain. -/
theorem C107_kill_before_outputs : ∃ h n n0 f, Track conf U false fresh h n [1, 11, 12, 13] ∧ restart conf g true 100 n.disk = some n0 ∧
    hashes conf n0.tree = [1, 21, 22, 23, 24] ∧ n0.cbf.filters = f ∧ f.all = threeFilters ∧ ∀ n', Unfit conf f n0 n' → n'.cbf.filters = f := by
  have ho : owned pending = [1, 11, 12, 13] := by decide +kernel
  have hx : (match restart conf g true 100 (state pending).disk with
    | some n0 => decide (hashes conf n0.tree = [1, 21, 22, 23, 24] ∧ n0.cbf.filters.all = threeFilters ∧ n0.qSync = []) | none => false) = true := by decide +kernel
  cases hn : restart conf g true 100 (state pending).disk with
  | none => rw [hn] at hx; cases hx
  | some n0 =>
    rw [hn] at hx
    obtain ⟨h1, h2, h3⟩ := of_decide_eq_true hx
    exact ⟨_, _, n0, n0.cbf.filters, ho ▸ track (cs := pending) (by decide +kernel), hn, h1, rfl, h2, fun n' hu => C107_stuck rfl h3 hu⟩

/-- The state after that start. -/
def stale : Fsm := (restart conf g true 100 (state pending).disk).getD new

/-- Not a message that fits. -/
def noFit : Cmd → Bool
  | .cfheaders _ _ prev _ => decide (prev ≠ Cbf.tipHeader stale.cbf.filters)
  | _ => true

/-- Not a report of a re-org that reaches down to the filter headers. -/
def noReorg : Out → Bool
  | .sync (.imported _ _ _ _ rv) => rv.all (fun r => decide (stale.cbf.filters.height < r.1))
  | _ => true

/-- Run a list of commands after it; messages with filter headers do not fit. -/
def fits : List Cmd → Nat → Fsm → Option Fsm
  | [], _, n => some n
  | c :: cs, now, n =>
    match n.step conf (env now) c.input with
    | .ok n' =>
      let outs := n'.log.drop n.log.length
      if n'.log = n.log ++ outs ∧ noFit c = true ∧ outs.all noReorg = true then fits cs (now + 1) n' else none
    | _ => none

theorem fits_unfit : ∀ {cs : List Cmd} {now : Nat} {n n' : Fsm}, Unfit conf stale.cbf.filters stale n → fits cs now n = some n' → Unfit conf stale.cbf.filters stale n'
  | [], _, _, _, r, e => by cases e; exact r
  | c :: cs, now, n, n', r, e => by
    unfold fits at e
    cases hs : n.step conf (env now) c.input with
    | ok n1 =>
      simp only [hs] at e
      split at e
      · rename_i hc
        refine fits_unfit (.step (env now) r hs hc.1 ?_ ?_) e
        · intro a msg hi
          cases c <;> simp only [Cmd.input, Input.cfheaders.injEq, reduceCtorEq] at hi
          obtain ⟨rfl, rfl⟩ := hi
          exact of_decide_eq_true hc.2.1
        · intro b k k' cn rv x hx hxr
          exact of_decide_eq_true (List.all_eq_true.1 (List.all_eq_true.1 hc.2.2 _ hx) x hxr)
      · cases e
    | err e' => simp [hs] at e
    | panic => simp [hs] at e

/-- A peer connects, is asked for filter headers, and answers twice with the filter header of the new best block, on top of those of the other new blocks. -/
def answers : List Cmd := [.start, .peer 1 4] ++ take 10 ++ [.cfheaders 1 24 999 [4]] ++ take 3 ++ [.cfheaders 1 24 999 [4]] ++ take 3

/-- Histories as in `C107_stuck` exist, in which the client asks the peer for the filter header above its stale ones. -/
example : ∃ n, Unfit conf stale.cbf.filters stale n ∧ n.cbf.filters = stale.cbf.filters ∧ n.log.any (fun o => decide (o = .cbf (.getCFHeaders 1 4 24))) = true := by
  obtain ⟨n, hn⟩ := Option.isSome_iff_exists.1 (show (fits answers 7300200 stale).isSome = true by decide +kernel)
  have hl : ((fits answers 7300200 stale).any fun n => n.log.any (fun o => decide (o = .cbf (.getCFHeaders 1 4 24)))) = true := by decide +kernel
  rw [hn] at hl
  have u := fits_unfit .start hn
  exact ⟨n, u, C107_stuck rfl (by decide +kernel) u, hl⟩

end Verif.Node.Owned
