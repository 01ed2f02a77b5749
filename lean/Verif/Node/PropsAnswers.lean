import Verif.Node.Answers

/-!
# C128: what the client answers about the chain and about submitted transactions
-/

set_option autoImplicit false

namespace Verif.Node
open Verif.Tx (Block Transaction)
open Verif.Chain (Header totalWork)

variable {cfg : Cfg} {U : Header → Prop} {fail : Bool} {t0 : Chain.State} {g : Header} {h : Hist} {n n' : Fsm}
variable {P : Hist → Fsm → Input → Fsm → List Out → Prop}

theorem byHeight_headers (t : Chain.State) (i : Nat) : t.getByHeight i = t.headers[i]? := by
  simp [Chain.State.getByHeight, Chain.State.headers]

/-- **C128.** At every time, all answers about the chain come from one list of headers, which starts with the genesis header and in which each header names the one before it. -/
theorem C128_chain (c : Ctx cfg U fail t0 g) (r : Run cfg U fail P t0 h n) :
    ∃ chain : List Header, chain[0]? = some g ∧
      (∀ (i : Nat) (x y : Header), chain[i]? = some x → chain[i + 1]? = some y → y.prev = cfg.sync.chain.hash x) ∧
      (∀ i, n.getBlockByHeight i = chain[i]?) ∧
      (∀ k i x, n.getBlockByHash k = some (i, x) ↔ chain[i]? = some x ∧ cfg.sync.chain.hash x = k) ∧
      ∃ tip, chain.getLast? = some tip ∧ n.getTip cfg = (chain.length - 1, tip, totalWork cfg.sync.chain chain) := by
  obtain ⟨hs, hr⟩ := (run_parts r).sync
  have hreach := Sync.run_reach c.start hr
  have v := Chain.C01_consistent_view c.acyclic c.genesis hreach
  have w := Chain.C02_chain_work_exact c.acyclic c.genesis hreach
  have len : n.tree.headers.length = n.tree.height + 1 := by
    have h1 := (v.defined n.tree.height).2 (Nat.le_refl _)
    have h2 := v.defined (n.tree.height + 1)
    rw [byHeight_headers] at h1 h2
    have h3 : n.tree.height < n.tree.headers.length := by
      by_contra hc
      rw [List.getElem?_eq_none (by omega)] at h1
      simp at h1
    by_contra hc
    have h4 : n.tree.headers[n.tree.height + 1]?.isSome = true := by
      rw [List.getElem?_eq_getElem (by omega)]; rfl
    have := h2.1 h4
    omega
  refine ⟨n.tree.headers, ?_, ?_, fun i => byHeight_headers _ i, ?_, ?_⟩
  · rw [← byHeight_headers]; exact v.genesis
  · intro i x y h1 h2
    rw [← byHeight_headers] at h1 h2
    exact v.linked i x y h1 h2
  · intro k i x
    rw [← byHeight_headers]
    exact v.byHash k i x
  · obtain ⟨tip, h1, h2⟩ := v.tip
    refine ⟨tip, ?_, ?_⟩
    · rw [List.getLast?_eq_getElem?, len, Nat.add_sub_cancel, ← byHeight_headers]; exact h1
    · simp only [Fsm.getTip, h2, w, len, Nat.add_sub_cancel]

/-- **C128.** The work of the chain never gets less, as long as the header store does not fail.  On mainnet, if it is the same then so is the chain. -/
theorem C128_work (c : Ctx cfg U false t0 g) (r : Run cfg U false P t0 h n) (l : Later cfg U false n n') :
    (n.getTip cfg).2.2 ≤ (n'.getTip cfg).2.2 ∧
    (cfg.sync.chain.mainnet = true → (n'.getTip cfg).2.2 = (n.getTip cfg).2.2 → ∀ i, n'.getBlockByHeight i = n.getBlockByHeight i) := by
  have key : (∃ hh, Run cfg U false (fun _ _ _ _ _ => True) t0 hh n') ∧ n.tree.chainWork ≤ n'.tree.chainWork ∧
      (cfg.sync.chain.mainnet = true → n'.tree.headers ≠ n.tree.headers → n.tree.chainWork < n'.tree.chainWork) := by
    induction l with
    | now =>
      refine ⟨?_, Nat.le_refl _, fun _ hc => absurd rfl hc⟩
      clear c
      induction r with
      | start f k => exact ⟨_, .start f k⟩
      | step e r l hs ho p ih =>
        obtain ⟨hh, k⟩ := ih
        exact ⟨_, .step e k l hs ho trivial⟩
    | @step n2 n3 i e l hl hs ih =>
      obtain ⟨⟨hh, rr⟩, k1, k2⟩ := ih
      obtain ⟨⟨d, hd, -⟩, -⟩ := step_waits hs
      refine ⟨⟨_, .step e rr hl hs hd trivial⟩, ?_⟩
      obtain ⟨hs', hr⟩ := (run_parts rr).sync
      have hreach := Sync.run_reach c.start hr
      rcases step_turn hl hs with s | ⟨op, m, t, a1, a2, a3, a4, a5, a6⟩
      · rw [s.tree]; exact ⟨k1, k2⟩
      · rcases Sync.step_imported a1 a3 with rfl | ⟨q, h1, -⟩
        · rw [a5]; exact ⟨k1, k2⟩
        · have h2 := Chain.C02_import_monotone c.acyclic c.genesis hreach op.batch a1.2
          rw [h1] at h2
          rw [a5]
          refine ⟨Nat.le_trans k1 h2.1, fun hm hne => ?_⟩
          by_cases he : n2.tree.headers = n.tree.headers
          · exact Nat.lt_of_le_of_lt k1 (h2.2 hm (by rw [he]; exact hne))
          · exact Nat.lt_of_lt_of_le (k2 hm he) h2.1
  refine ⟨key.2.1, fun hm he i => ?_⟩
  have : n'.tree.headers = n.tree.headers := by
    by_contra hc
    have := key.2.2 hm hc
    simp only [Fsm.getTip] at he
    omega
  simp only [Fsm.getBlockByHeight, byHeight_headers, this]

/-- **C128.** The events about blocks that were handed out so far, applied to the chain the client started with, give a chain; those that wait to be handed out lead
from it to the chain of the answers.  When none waits, the two are the same.  Partial: as long as headers are imported without an error (or the erroneous import leaves the active chain alone) and no single
batch re-activates headers of the old chain. -/
theorem C128_events_partial (c : Ctx cfg U fail t0 g) (cf : Chain.CollisionFree cfg.sync.chain U)
    (r : Run cfg U fail (fun _ n i _ _ => Clean cfg n i) t0 h n) :
    ∃ told shown chain, syncOuts (outputs h) = told ++ n.qSync ∧ Sync.replay t0.iter told = some shown ∧ Sync.replay shown n.qSync = some chain ∧
      (∀ i, n.getBlockByHeight i = chain[i]?.map (·.2)) ∧ (n.qSync = [] → shown = chain) := by
  obtain ⟨hs, h1, h2⟩ := run_syncPart (Q := Sync.Clean cfg.sync) r (by
    intro h n i n' outs op p hb
    unfold Sync.Clean
    rw [hb]
    exact p)
  have h3 := Sync.C52_replay_partial c.acyclic cf c.genesis c.start h1
  have v := Chain.C01_consistent_view c.acyclic c.genesis (Sync.run_reach c.start h1)
  obtain ⟨told, h4⟩ := queue_suffix r
  rw [h2, ← h4, Sync.replay_append] at h3
  obtain ⟨shown, h5, h6⟩ := Option.bind_eq_some_iff.1 h3
  refine ⟨told, shown, n.tree.iter, by rw [← run_log r, h4], h5, h6, fun i => ?_, fun hq => ?_⟩
  · rw [v.iter i]
    unfold Fsm.getBlockByHeight
    cases n.tree.getByHeight i <;> rfl
  · rw [hq] at h6
    simpa [Sync.replay] using h6

/-- **C128.** The client answers with a transaction exactly if a pending one has the id: one that was submitted, or was in a block that was reverted, and that was in no block processed since.
If there are several (they differ in their witnesses), it is the one with the lowest witness id. -/
theorem C128_submitted (r : Run cfg U fail P t0 h n) (txid : Nat) (t : Transaction) :
    n.getSubmitted txid = some t ↔ pendingTx h t.wtxid = some t ∧ t.txid = txid ∧ ∀ w t', pendingTx h w = some t' → t'.txid = txid → t.wtxid ≤ w := by
  obtain ⟨hi, ri⟩ := (run_parts r).inv
  have good := (Inv.run_sync ri).good
  rw [← run_pending r]
  have hf := fun w t => Inv.find_sorted (q := fun t => t.txid = txid) good.pool w t
  unfold Fsm.getSubmitted Inv.Mgr.getSubmitted
  rw [Option.map_eq_some_iff]
  constructor
  · rintro ⟨⟨w, x⟩, h1, rfl⟩
    obtain ⟨⟨h2, h3⟩, h4⟩ := (hf w x).1 h1
    have h5 := good.keys w x h2
    simp only [h5]
    exact ⟨h2, by simpa using h3, fun w' t' a b => h4 w' t' a (by simpa using b)⟩
  · rintro ⟨h2, h3, h4⟩
    exact ⟨(t.wtxid, t), (hf _ _).2 ⟨⟨h2, by simpa using h3⟩, fun w' t' a b => h4 w' t' a (by simpa using b)⟩, rfl⟩

end Verif.Node
