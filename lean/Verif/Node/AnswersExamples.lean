import Verif.Node.PropsAnswers
import Verif.Node.OwnersExamples
import Verif.Node.Scenarios

/-!
# C128: concrete histories
-/

set_option autoImplicit false

namespace Verif.Node.Owned
open Verif.Tx (Block Transaction OutPoint TxOut)
open Verif.Chain (Header)
open Verif.Chain.Scenario (a1 a2 a3 b1 b2 b3 b4 g e mk)
open Verif.Node.Scenario (Cmd env take before)
open Verif.Node.Crash (conf fresh heavy)

/-- In the histories with clean imports, steps are clean. -/
theorem track_clean {cfg : Cfg} {U : Header → Prop} {fail : Bool} {t0 : Chain.State} {h : Hist} {n : Fsm} {ow : List Nat} (r : Track cfg U fail t0 h n ow) :
    Run cfg U fail (fun _ n i _ _ => Clean cfg n i) t0 h n := by
  induction r with
  | start f k hs hh => exact .start f k
  | step e r l hf hc hs ho ih => exact .step e ih l hs ho hc

/-- `C128_chain` applies: a re-org has replaced three headers by four others. -/
example : (state reorg).getTip conf = (4, b4, (state reorg).tree.chainWork) ∧ (state reorg).getBlockByHeight 1 = some b1 ∧
    (state reorg).getBlockByHash 11 = none ∧ (state reorg).getBlockByHash 23 = some (3, b3) ∧
    ∃ chain : List Header, chain[0]? = some g ∧ ∀ i, (state reorg).getBlockByHeight i = chain[i]? := by
  obtain ⟨chain, h1, -, h3, -⟩ := C128_chain ctx (track (cs := reorg) (by decide +kernel)).run
  exact ⟨by decide +kernel, by decide +kernel, by decide +kernel, by decide +kernel, chain, h1, h3⟩

/-- `C128_work` applies: the work has grown. -/
example : ∃ n n', Later conf U false n n' ∧ (n.getTip conf).2.2 < (n'.getTip conf).2.2 ∧ n'.getBlockByHeight 1 ≠ n.getBlockByHeight 1 ∧
    (n.getTip conf).2.2 ≤ (n'.getTip conf).2.2 := by
  have h : (match (state before).step conf (env 7300100) (.headers 1 ([b1, b2, b3, b4].map fun x => (x, e))) with
    | .ok n' => decide (((state before).getTip conf).2.2 < (n'.getTip conf).2.2 ∧ n'.getBlockByHeight 1 ≠ (state before).getBlockByHeight 1) | _ => false) = true := by decide +kernel
  cases hs : (state before).step conf (env 7300100) (.headers 1 ([b1, b2, b3, b4].map fun x => (x, e))) with
  | ok n' =>
    simp only [hs] at h
    obtain ⟨h1, h2⟩ := of_decide_eq_true h
    have l : Later conf U false (state before) n' := .step (env 7300100) (.now _) (legal (c := .headers 1 [b1, b2, b3, b4]) (by decide) 7300100) hs
    exact ⟨state before, n', l, h1, h2, (C128_work ctx (track (cs := before) (by decide +kernel)).run l).1⟩
  | err => simp only [hs] at h; cases h
  | panic => simp only [hs] at h; cases h

/-- `C128_events_partial` applies to a history with a re-org; the events about it were taken. -/
example : (state reorg).qSync = [] ∧ ∃ shown, Sync.replay fresh.iter (syncOuts (outputs (hist reorg))) = some shown ∧ shown.map (·.2) = [g, b1, b2, b3, b4] := by
  have hq : (state reorg).qSync = [] := by decide +kernel
  obtain ⟨told, shown, chain, h1, h2, h3, h4, h5⟩ := C128_events_partial ctx collisionFree (track_clean (track (cs := reorg) (by decide +kernel)))
  rw [hq, List.append_nil] at h1
  refine ⟨hq, shown, by rw [h1]; exact h2, ?_⟩
  have : Sync.replay fresh.iter (syncOuts (outputs (hist reorg))) = some [(0, g), (1, b1), (2, b2), (3, b3), (4, b4)] := by decide +kernel
  rw [h1, h2, Option.some.injEq] at this
  rw [this]; rfl

/-- The events of the re-org wait: what was told so far is the old chain. -/
example : (state pending).qSync ≠ [] ∧ (state pending).getBlockByHeight 1 = some b1 ∧
    ∃ told, syncOuts (outputs (hist pending)) = told ++ (state pending).qSync ∧ Sync.replay fresh.iter told = some [(0, g), (1, a1), (2, a2), (3, a3)] := by
  refine ⟨by decide +kernel, by decide +kernel, syncOuts (outputs (hist before)), by decide +kernel, by decide +kernel⟩

/-- **C128 (events) is false** if an import fails: no event waits, and the chain of the answers is not the one the events tell of. -/
theorem C128_failed_import : ∃ h n, Run conf U false (fun _ _ _ _ _ => True) fresh h n ∧ n.qSync = [] ∧ n.getBlockByHeight 1 = some b1 ∧
    Sync.replay fresh.iter (syncOuts (outputs h)) = some [(0, g), (1, a1), (2, a2), (3, a3)] := by
  have h : (match (state before).step conf (env 7300100) (.headers 1 ([b1, b2, b3, b4, old].map fun x => (x, e))) with
    | .ok n' => decide (n'.qSync = [] ∧ n'.getBlockByHeight 1 = some b1 ∧ n'.log = (state before).log ++ n'.log.drop (state before).log.length ∧
        Sync.replay fresh.iter (syncOuts (outputs (hist before) ++ n'.log.drop (state before).log.length)) = some [(0, g), (1, a1), (2, a2), (3, a3)])
    | _ => false) = true := by decide +kernel
  cases hs : (state before).step conf (env 7300100) (.headers 1 ([b1, b2, b3, b4, old].map fun x => (x, e))) with
  | ok n' =>
    simp only [hs] at h
    obtain ⟨h1, h2, h3, h4⟩ := of_decide_eq_true h
    exact ⟨_, n', .step (env 7300100) (track (cs := before) (by decide +kernel)).run (legal (c := .headers 1 [b1, b2, b3, b4, old]) (by decide) 7300100) hs h3 trivial,
      h1, h2, by rw [outputs_cons]; exact h4⟩
  | err => simp only [hs] at h; cases h
  | panic => simp only [hs] at h; cases h

/-- A transaction is submitted and gets into the first block; a re-org replaces that block. -/
def paid : List Cmd := before ++ [.submit Wallet.Scenario.receive, .request 11, .block Scenario.block1]
def unpaid : List Cmd := paid ++ take 12 ++ [.headers 1 [b1, b2, b3, b4]] ++ take 12

/-- `C128_submitted` applies: the transaction is found, then not, then found again. -/
example : (state (before ++ [.submit Wallet.Scenario.receive])).getSubmitted Wallet.Scenario.receive.txid = some Wallet.Scenario.receive ∧
    (state paid).getSubmitted Wallet.Scenario.receive.txid = none ∧ (state unpaid).getSubmitted Wallet.Scenario.receive.txid = some Wallet.Scenario.receive ∧
    pendingTx (hist unpaid) Wallet.Scenario.receive.wtxid = some Wallet.Scenario.receive := by
  have h : (state unpaid).getSubmitted Wallet.Scenario.receive.txid = some Wallet.Scenario.receive := by decide +kernel
  exact ⟨by decide +kernel, by decide +kernel, h, ((C128_submitted (track (cs := unpaid) (by decide +kernel)).run _ _).1 h).1⟩

end Verif.Node.Owned
