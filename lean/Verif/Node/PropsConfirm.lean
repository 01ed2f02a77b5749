import Verif.Node.Confirm
import Verif.Node.PropsFilter

/-!
# A submitted transaction in a scanned block is reported as confirmed: C138
-/

set_option autoImplicit false

namespace Verif.Node
open Verif.Tx (Block Transaction OutPoint TxOut)
open Verif.Chain (Header)

section
variable {cfg : Cfg} {U : Header → Prop} {fail : Bool} {t0 : Chain.State} {g : Header} {n' : Fsm} {h : Hist}
variable {sb : Nat → List Nat} {coin : OutPoint → Nat}

theorem mem_found_of_latest {l : List Out} {height hash : Nat} (e : latest l height = some (hash, true)) : (height, hash) ∈ found l := by
  unfold latest at e
  obtain ⟨x, hx, ex⟩ := Option.map_eq_some_iff.1 e
  have h1 := List.mem_of_find?_eq_some hx
  have h2 := List.find?_some hx
  rw [List.mem_reverse] at h1
  rw [found_scans, List.mem_filterMap]
  obtain ⟨a, b, c⟩ := x
  simp only [beq_iff_eq] at h2
  subst h2
  cases ex
  exact ⟨_, h1, rfl⟩

/-- **C138.** A transaction was submitted before a rescan (without end) was asked for.  Some block of the active chain that was scanned since contains it.  Then, when every block found to match was received since and all outputs were
taken, the client has reported the transaction as confirmed; in tidy histories, with re-orgs.  Peers may send other blocks, but none with the same hash (the transactions of a block are not checked against its header).
Partial: only if the script of no output of the transaction is empty or begins with OP_RETURN (see `C137_counterexample`); histories as for `C91_rescan_reorg_partial`. -/
theorem C138_confirmed_partial (hp : RealFilters sb cfg.cbf) (c : Ctx cfg U fail t0 g) (cf : Chain.CollisionFree cfg.sync.chain U) {s : Nat} {w : List Nat} {outs : List Out} {later : Hist}
    (r : Tidy cfg U fail t0 (later ++ (.rescan (.included s) .unbounded w, outs) :: h) n')
    (hl : ∀ x ∈ later, (∀ a b v, x.1 ≠ .rescan a b v) ∧ ∀ v, x.1 ≠ .watch v)
    (ha : ∀ k, ¬ Awaited k (later ++ (.rescan (.included s) .unbounded w, outs) :: h)) (hd : Drained n')
    {t : Transaction} {outs' : List Out} (hsub : (Input.submit t, outs') ∈ h)
    (hid : ∀ t', (∃ o, (Input.submit t', o) ∈ later ++ (.rescan (.included s) .unbounded w, outs) :: h) ∨ Out.inv (.reverted t') ∈ outputs (later ++ (.rescan (.included s) .unbounded w, outs) :: h) →
      (t'.txid = t.txid → t'.outputs = t.outputs) ∧ (t'.wtxid = t.wtxid → t'.txid = t.txid))
    (ho : ∀ o ∈ t.outputs, Findable (sb o.script))
    {height : Nat} (h1 : s ≤ height) (h2 : height < progress s (outputs (later ++ [(.rescan (.included s) .unbounded w, outs)])))
    {b : Block} (hch : onChain cfg n' height = some b.hash) (hf : Only cfg sb coin n' height b) (ht : t ∈ b.txs)
    (hb : ∀ b', Sent b' (later ++ (.rescan (.included s) .unbounded w, outs) :: h) → b'.hash = b.hash → b' = b) :
    ∃ block k, Out.inv (.confirmed t.txid block k) ∈ outputs (later ++ (.rescan (.included s) .unbounded w, outs) :: h) := by
  by_contra hnot
  push Not at hnot
  -- the block is found, and reported since
  have hfound := mem_found_of_latest (C137_scanned_partial hp c cf r hl hsub hnot (fun t' h e => (hid t' h).1 e) ho h1 h2 hch hf ht)
  have hall := C90_complete_reorg_partial c cf r ha hd
  have hsent := (C90_reports_reorg_partial c cf r).2
  have start : ∀ n0, Tidy cfg U fail t0 ((.rescan (.included s) .unbounded w, outs) :: h) n0 →
      (reported (outputs h)).map (fun p => (p.1, p.2.hash)) = found (outputs h) := by
    intro n0 r0
    rcases r0 with _ | @⟨_, m, _, _, _, e, r0, l, hf, ps, hs, ho⟩
    exact (ps.rescan _ _ _ rfl).1
  have hpre : ∀ (l : Hist) {m : Fsm}, Tidy cfg U fail t0 (l ++ (.rescan (.included s) .unbounded w, outs) :: h) m →
      ∃ m', Tidy cfg U fail t0 ((.rescan (.included s) .unbounded w, outs) :: h) m' := by
    intro l
    induction l with
    | nil => intro m r; exact ⟨m, r⟩
    | cons x l ih =>
      intro m r
      rcases r with _ | @⟨_, m, _, _, _, e, r0, l, hf, ps, hs, ho⟩
      exact ih r0
  obtain ⟨m, rm⟩ := hpre later r
  have hst := start m rm
  have hsplit : later ++ (.rescan (.included s) .unbounded w, outs) :: h = (later ++ [(.rescan (.included s) .unbounded w, outs)]) ++ h := by simp
  rw [hsplit, outputs_append, reported_append, found_append, List.map_append, hst] at hall
  have hall := List.append_cancel_left hall
  rw [← hall] at hfound
  obtain ⟨x, hx, ex⟩ := List.mem_map.1 hfound
  -- it is this block
  have hxb : x.2 = b := by
    refine hb _ (hsent x ?_) (congrArg Prod.snd ex)
    rw [hsplit, outputs_append, reported_append]
    exact List.mem_append_right _ hx
  -- and was processed since
  have hproc := (tidy_passing (later := later ++ [(.rescan (.included s) .unbounded w, outs)]) (h := h) (fun n0 r0 => not_passing c cf r0 hst) (hsplit ▸ r)).2 x hx
  obtain ⟨k, f, hproc⟩ := hproc
  rw [hxb] at hproc
  -- so the transaction is confirmed
  obtain ⟨ha1, ha2, hh⟩ := List.append_of_mem hsub
  subst hh
  have hsplit2 : later ++ (.rescan (.included s) .unbounded w, outs) :: (ha1 ++ (.submit t, outs') :: ha2) =
      ((later ++ [(.rescan (.included s) .unbounded w, outs)]) ++ ha1) ++ (.submit t, outs') :: ha2 := by simp
  rcases run_pooled (hsplit2 ▸ r.run) (fun t' h => (hid t' (by
    rw [hsplit2, outputs_append _ (_ :: _)]
    exact h.imp (fun ⟨o, h⟩ => ⟨o, List.mem_append_left _ h⟩) (fun h => List.mem_append_right _ h))).2) with ⟨block, k', hm⟩ | ⟨-, hno⟩
  · refine hnot block k' ?_
    rw [hsplit2, outputs_append _ (_ :: _)]
    exact List.mem_append_right _ hm
  · have := hno b k f (by rw [outputs_append]; exact List.mem_append_right _ hproc)
    have hhas : b.has t.wtxid = true := by
      simp only [Block.has, List.any_eq_true]
      exact ⟨t, ht, by simp⟩
    rw [hhas] at this
    cases this

end

end Verif.Node
