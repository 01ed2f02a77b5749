import Verif.Node.Owners

/-!
# Which blocks the filter headers belong to: properties
-/

set_option autoImplicit false

namespace Verif.Node
open Verif.Tx (Block Transaction)
open Verif.Chain (Header)

variable {cfg : Cfg} {U : Header → Prop} {fail : Bool} {t0 : Chain.State} {g : Header} {h : Hist} {n n' : Fsm} {ow : List Nat}

theorem change_prefix {p : Cbf.Params} {r i fl : Bool} {f f' : Cbf.FilterHeaders} (hc : Cbf.HeadersChange p r i fl f f') : f'.all <+: f.all ∨ f.all <+: f'.all := by
  cases hc with
  | same => exact .inl (List.prefix_refl _)
  | imported hs _ =>
    right
    cases fl <;> simp [Cbf.importHeaders, Cbf.FilterHeaders.all]
  | rolledBack k _ =>
    left
    cases fl <;> simp [Cbf.rollbackHeaders, Cbf.FilterHeaders.all, List.take_prefix]

theorem filters_callCbf {env : Cbf.Env} {b : Option Block} {op : Cbf.Op} (h1 : op.reverts = false) (h2 : op.imports = false)
    (e : n.callCbf cfg env b op = .ok n') : n'.cbf.filters = n.cbf.filters := (shift_callCbf h1 h2 e).filters

theorem filters_callInv {op : Inv.Op} (e : n.callInv cfg op = .ok n') : n'.cbf.filters = n.cbf.filters := (shift_callInv e).filters

theorem filters_callSync {op : Sync.Op} (e : n.callSync cfg op = .ok n') : n'.cbf.filters = n.cbf.filters := by
  obtain ⟨m, t, -, rfl⟩ := callSync_ok e
  rfl

/-- How an input changes the filter headers: they are extended by a message with filter headers, and shortened on a report of a re-org. -/
theorem step_change {e : Env} {i : Input} (hs : n.step cfg e i = .ok n') :
    ∃ r m, Cbf.HeadersChange cfg.cbf r m e.cbf.fail n.cbf.filters n'.cbf.filters ∧
      (r = true → i = .next ∧ ∃ b k k' cn rv, Sync.Out.imported b k k' cn rv ∈ n.qSync ∧ rv ≠ []) ∧ (m = true → ∃ a msg, i = .cfheaders a msg) := by
  have same : n'.cbf.filters = n.cbf.filters → ∃ r m, Cbf.HeadersChange cfg.cbf r m e.cbf.fail n.cbf.filters n'.cbf.filters ∧
      (r = true → i = .next ∧ ∃ b k k' cn rv, Sync.Out.imported b k k' cn rv ∈ n.qSync ∧ rv ≠ []) ∧ (m = true → ∃ a msg, i = .cfheaders a msg) :=
    fun h => ⟨false, false, by rw [h]; exact .same _ _, by simp, by simp⟩
  cases i with
  | init =>
    simp only [Fsm.step, Res.bind_eq_ok] at hs
    obtain ⟨n1, h1, h2⟩ := hs
    exact same ((filters_callCbf rfl rfl h2).trans (filters_callSync h1))
  | negotiated =>
    simp only [Fsm.step, Res.bind_eq_ok] at hs
    obtain ⟨n1, h1, n2, h2, h3⟩ := hs
    exact same ((filters_callSync h3).trans ((filters_callInv h2).trans (filters_callCbf rfl rfl h1)))
  | disconnected =>
    simp only [Fsm.step, Res.bind_eq_ok] at hs
    obtain ⟨n1, h1, n2, h2, h3⟩ := hs
    exact same ((filters_callSync h3).trans ((filters_callInv h2).trans (filters_callCbf rfl rfl h1)))
  | timer =>
    simp only [Fsm.step, Res.bind_eq_ok] at hs
    obtain ⟨n1, h1, n2, h2, h3⟩ := hs
    exact same ((filters_callCbf rfl rfl h3).trans ((filters_callSync h2).trans (filters_callInv h1)))
  | submit =>
    simp only [Fsm.step, Res.bind_eq_ok] at hs
    obtain ⟨n1, h1, h2⟩ := hs
    exact same ((filters_callInv h2).trans (filters_callCbf rfl rfl h1))
  | next =>
    simp only [Fsm.step, Fsm.next] at hs
    split at hs
    · rename_i o q hq
      cases o with
      | imported b hash height cn rv =>
        simp only [Fsm.deliverSync, Res.bind_eq_ok] at hs
        obtain ⟨n1, h1, h2⟩ := hs
        rw [filters_callInv h2]
        refine ⟨_, _, Cbf.step_filters cfg.cbf e.cbf _ _ _ _ (callCbf_step h1).1, fun hr => ?_, fun hm => by cases hm⟩
        refine ⟨rfl, b, hash, height, cn, rv, by rw [hq]; exact List.mem_cons_self, fun hn => ?_⟩
        subst hn
        cases hr
      | disconnected => exact same (filters_callCbf (n := { n with qSync := q }) rfl rfl (by simpa only [Fsm.deliverSync] using hs))
      | _ => cases hs; exact same rfl
    · split at hs
      · rename_i o q hq
        exact same (shift_deliverInv (n := { n with qInv := q }) hs).filters
      · cases hs; exact same rfl
  | headers => exact same (filters_callSync hs)
  | getheaders => exact same (filters_callSync hs)
  | invs => exact same (filters_callSync hs)
  | importHeaders => exact same (filters_callSync hs)
  | block => exact same (filters_callInv hs)
  | getdata => exact same (filters_callInv (cfg := cfg) (op := .getdata _ _) hs)
  | requestBlock => exact same (filters_callInv (cfg := cfg) (op := .getBlock _) hs)
  | watch => simp only [Fsm.step] at hs; exact same (filters_callCbf rfl rfl hs)
  | cfheaders a msg =>
    exact ⟨_, _, Cbf.step_filters cfg.cbf e.cbf _ _ _ _ (callCbf_step hs).1, fun hr => (by cases hr), fun _ => ⟨a, msg, rfl⟩⟩
  | getcfheaders => exact same (filters_callCbf rfl rfl hs)
  | cfilter => exact same (filters_callCbf rfl rfl hs)
  | requestFilters => exact same (filters_callCbf rfl rfl hs)
  | rescan => exact same (filters_callCbf rfl rfl hs)

/-- **C106**, filter headers are dropped from the end or added at the end: an input does not do both, and changes no filter header in between.  (This is what
`owners` builds on.) -/
theorem C106_filter_headers_ends {e : Env} {i : Input} (hs : n.step cfg e i = .ok n') :
    n'.cbf.filters.all <+: n.cbf.filters.all ∨ n.cbf.filters.all <+: n'.cbf.filters.all := by
  obtain ⟨r, m, h, -, -⟩ := step_change hs
  exact change_prefix h

/-- **C106**, the filter headers belong to the active chain: whenever the outputs have been taken, the block that was active at the height of a filter header
when it was accepted is still the one at that height.  In particular there is no filter header above the best block.  Partial: imports that fail after they
changed the chain, and blocks that come back in the batch that reverted them, are excluded (`Clean`); see `C106_failed_import`. -/
theorem C106_filter_headers_active_partial (c : Ctx cfg U fail t0 g) (cf : Chain.CollisionFree cfg.sync.chain U) (r : Track cfg U fail t0 h n ow)
    (hq : n.qSync = []) : ow <+: hashes cfg n.tree ∧ ow.length = n.cbf.filters.all.length := by
  have o := track_own c cf r
  refine ⟨?_, ?_⟩
  · refine List.prefix_iff_getElem?.2 fun k hk => ?_
    rcases o.each k _ (List.getElem?_eq_getElem hk) with h1 | ⟨x, hx, -⟩
    · exact h1
    · rw [hq] at hx; cases hx
  · rw [o.len]
    simp [Cbf.FilterHeaders.all, Cbf.FilterHeaders.height]

/-- **C106**, what is on disk is what is in memory. -/
theorem C106_filter_store (c : Ctx cfg U fail t0 g) (cf : Chain.CollisionFree cfg.sync.chain U) (r : Track cfg U fail t0 h n ow) :
    n.cbf.filters.store = n.cbf.filters.all := (track_own c cf r).store

/-- **C106**, there is a filter header above the best block, or one that belongs to a block that left the chain, only while the report of the re-org waits. -/
theorem C106_filter_headers_waiting (c : Ctx cfg U fail t0 g) (cf : Chain.CollisionFree cfg.sync.chain U) (r : Track cfg U fail t0 h n ow) (k x : Nat)
    (hk : ow[k]? = some x) (hx : (hashes cfg n.tree)[k]? ≠ some x) :
    ∃ b hash height cn rv r, .imported b hash height cn rv ∈ n.qSync ∧ r ∈ rv ∧ r.1 ≤ k := by
  rcases (track_own c cf r).each k x hk with h1 | ⟨o, h1, h2⟩
  · exact absurd h1 hx
  · cases o with
    | imported b hash height cn rv =>
      obtain ⟨y, h3, h4⟩ := h2
      exact ⟨b, hash, height, cn, rv, y, h1, List.mem_of_getLast? h3, h4⟩
    | _ => cases h2

end Verif.Node
