import Verif.Node.Restart

/-!
# Stopping and starting the client: properties
-/

set_option autoImplicit false

namespace Verif.Node
open Verif.Tx (Block Transaction)
open Verif.Chain (Header)

variable {cfg : Cfg} {U : Header → Prop} {fail : Bool} {t0 : Chain.State} {g : Header} {h : Hist} {n n' : Fsm} {ow : List Nat}

/-- The filter headers stay linked, so that a verification at the next start succeeds. -/
theorem C107_linked {e : Env} {i : Input} (hs : n.step cfg e i = .ok n') (hc : Cbf.FilterChain cfg.cbf n.cbf.filters.all) : Cbf.FilterChain cfg.cbf n'.cbf.filters.all := by
  obtain ⟨r, m, h, -, -⟩ := step_change hs
  exact (Cbf.change_filterChain cfg.cbf h hc).1

theorem all_ne (f : Cbf.FilterHeaders) : f.all ≠ [] := by simp [Cbf.FilterHeaders.all]

theorem track_reach (c : Ctx cfg U fail t0 g) (r : Track cfg U fail t0 h n ow) : Chain.Reach cfg.sync.chain U g fail n.tree := by
  obtain ⟨_, hr⟩ := (run_parts r.run).sync
  exact Sync.run_reach c.start hr

theorem length_hashes (t : Chain.State) : (hashes cfg t).length = t.headers.length := by simp [hashes]

/-- **C107**, a stop: if the client is stopped when no report of a re-org waits to be delivered, it starts again with the same active chain and the same filter headers,
and these still belong to the same blocks: histories after the start are again histories as in C106. -/
theorem C107_stop_partial (c : Ctx cfg U false t0 g) (cf : Chain.CollisionFree cfg.sync.chain U) (r : Track cfg U false t0 h n ow) (s : Settled n) (verify : Bool)
    (hv : verify = true → Cbf.FilterChain cfg.cbf n.cbf.filters.all) (cs : Nat) :
    ∃ n0, restart cfg g verify cs n.disk = some n0 ∧ n0.tree.headers = n.tree.headers ∧ n0.cbf.filters.all = n.cbf.filters.all ∧ n0.disk = n.disk ∧
      Ctx cfg U false n0.tree g ∧ Track cfg U false n0.tree [] n0 ow := by
  have o := track_own c cf r
  have hr := track_reach c r
  obtain ⟨inv, hm⟩ := Chain.reach_inv c.acyclic c.genesis hr
  have ho := settled_owned s o
  have hlen : n.cbf.filters.all.length = ow.length := by rw [o.len]; simp [Cbf.FilterHeaders.all, Cbf.FilterHeaders.height]
  have hd : n.disk = ⟨n.tree.headers, n.cbf.filters.all⟩ := by rw [Fsm.disk, hm rfl, o.store]
  rw [hd]
  obtain ⟨n0, h1, h2, h3, h4, h5, h6⟩ := restart_ok (d := ⟨n.tree.headers, n.cbf.filters.all⟩) c hr (List.prefix_refl _) (by simp [inv.headers_eq]) (all_ne _) hv cs
    (by rw [hlen, ← length_hashes (cfg := cfg)]; exact ho.length_le)
  refine ⟨n0, h1, h2, h3, h4, h5, ?_⟩
  have : (hashes cfg n0.tree).take n.cbf.filters.all.length = ow := by
    rw [hashes, h2, hlen]
    exact (List.prefix_iff_eq_take.1 ho).symm
  rw [← this]
  exact h6

/-- **C107**, a crash: if the process is killed while it handles an input that reverts no block, at whatever point, and no report of a re-org waits to be delivered, the
client starts again; no block header and no filter header is lost, and the filter headers still belong to the same blocks.  Partial: re-orgs are excluded, see
`C107_crash_in_reorg` and `C107_kill_before_outputs`. -/
theorem C107_crash_partial (c : Ctx cfg U false t0 g) (cf : Chain.CollisionFree cfg.sync.chain U) (r : Track cfg U false t0 h n ow) (s : Settled n) (verify : Bool)
    (hv : verify = true → Cbf.FilterChain cfg.cbf n.cbf.filters.all) (cs : Nat) {e : Env} {i : Input} (l : Legal U false e i) (hf : e.cbf.fail = false)
    (hg : ∀ p, p <+: i.batch → n.tree.store <+: (Chain.importBlocks cfg.sync.chain n.tree p).1.store) {d : Disk} (hd : CrashIn cfg n e i d) :
    ∃ n0 ow', restart cfg g verify cs d = some n0 ∧ n.tree.headers <+: n0.tree.headers ∧ n.cbf.filters.all <+: n0.cbf.filters.all ∧ n0.disk = d ∧
      Ctx cfg U false n0.tree g ∧ Track cfg U false n0.tree [] n0 ow' ∧ ow <+: ow' := by
  have o := track_own c cf r
  have hr := track_reach c r
  obtain ⟨inv, hm⟩ := Chain.reach_inv c.acyclic c.genesis hr
  have ho := settled_owned s o
  have hlen : n.cbf.filters.all.length = ow.length := by rw [o.len]; simp [Cbf.FilterHeaders.all, Cbf.FilterHeaders.height]
  have hle : n.cbf.filters.all.length ≤ n.tree.headers.length := by rw [hlen, ← length_hashes (cfg := cfg)]; exact ho.length_le
  have fin : ∀ d : Disk, ∀ s : Chain.State, Chain.Reach cfg.sync.chain U g false s → d.headers <+: s.headers → n.tree.headers <+: d.headers → n.cbf.filters.all <+: d.filters →
      d.filters.length ≤ d.headers.length → (verify = true → Cbf.FilterChain cfg.cbf d.filters) →
      ∃ n0 ow', restart cfg g verify cs d = some n0 ∧ n.tree.headers <+: n0.tree.headers ∧ n.cbf.filters.all <+: n0.cbf.filters.all ∧ n0.disk = d ∧
      Ctx cfg U false n0.tree g ∧ Track cfg U false n0.tree [] n0 ow' ∧ ow <+: ow' := by
    intro d s hs h1 h2 h3 h4 h5
    have hne : ∀ {α : Type} {a b : List α}, a ≠ [] → a <+: b → b ≠ [] := fun ha hp hb => by
      subst hb
      exact ha (List.prefix_nil.1 hp)
    obtain ⟨n0, k1, k2, k3, k4, k5, k6⟩ := restart_ok c hs h1 (hne (by simp [inv.headers_eq]) h2) (hne (all_ne _) h3) h5 cs h4
    refine ⟨n0, _, k1, by rw [k2]; exact h2, by rw [k3]; exact h3, k4, k5, k6, ?_⟩
    refine List.prefix_take_iff.2 ⟨ho.trans (hashes_prefix (by rw [k2]; exact h2)), ?_⟩
    rw [← hlen]
    exact h3.length_le
  cases hd with
  | headers _ pre x post hb hp hd =>
    have reach : ∀ p, p <+: i.batch → Chain.Reach cfg.sync.chain U g false (Chain.importBlocks cfg.sync.chain n.tree p).1 := fun p hpp =>
      .importBlocks p hr (fun q hq => l.headers q (hpp.subset hq)) (hp p hpp)
    have p1 : pre <+: i.batch := by rw [hb]; exact List.prefix_append _ _
    have p2 : pre ++ [x] <+: i.batch := by rw [hb]; exact ⟨post, by simp⟩
    have m1 := (Chain.reach_inv c.acyclic c.genesis (reach _ p1)).2 rfl
    have m2 := (Chain.reach_inv c.acyclic c.genesis (reach _ p2)).2 rfl
    have g1 := hg _ p1
    have g2 := hg _ p2
    have hst : n.cbf.filters.store = n.cbf.filters.all := o.store
    rw [hm rfl] at g1 g2
    rw [hst]
    rcases hd with rfl | ⟨hd1, hd2⟩
    · refine fin _ _ (reach _ p1) (by rw [m1]) g1 (List.prefix_refl _) (Nat.le_trans hle g1.length_le) hv
    · have := hd2 _ g1 g2
      refine fin _ _ (reach _ p2) (by rw [← m2]; exact hd1) this (List.prefix_refl _) (Nat.le_trans hle this.length_le) hv
  | @filters _ n' d _ hb hs hd =>
    obtain ⟨rr, m, hc, hc1, hc2⟩ := step_change hs
    have hch : verify = true → Cbf.FilterChain cfg.cbf n'.cbf.filters.all := fun hvt => C107_linked hs (hv hvt)
    have hrr : rr = false := by
      cases rr with
      | false => rfl
      | true =>
        obtain ⟨-, b, k, k', cn, rv, h1, h2⟩ := hc1 rfl
        exact absurd (s _ _ _ _ _ h1) h2
    have key : n.cbf.filters.all <+: n'.cbf.filters.all ∧ n'.cbf.filters.store = n'.cbf.filters.all ∧ n'.cbf.filters.all.length ≤ n.tree.headers.length := by
      by_cases hmm : m = true
      · obtain ⟨a, msg, rfl⟩ := hc2 hmm
        simp only [Fsm.step] at hs
        obtain ⟨h1, h2, h3⟩ := callCbf_step hs
        rcases cfheaders_heights hf o.store h1 with h4 | ⟨h4, h5, h6⟩
        · rw [h4]
          exact ⟨List.prefix_refl _, o.store, hle⟩
        · refine ⟨?_, h6, ?_⟩
          · rcases change_prefix hc with h7 | h7
            · have := h7.length_le
              simp only [Cbf.FilterHeaders.all, Cbf.FilterHeaders.height, List.length_cons] at this h4
              omega
            · exact h7
          · rw [view_hashes, length_hashes] at h5
            simp only [Cbf.FilterHeaders.all, Cbf.FilterHeaders.height, List.length_cons] at h5 ⊢
            omega
      · have hmf : m = false := by simpa using hmm
        subst hrr hmf
        have : n'.cbf.filters = n.cbf.filters := by
          generalize n'.cbf.filters = f' at hc
          generalize n.cbf.filters = f at hc ⊢
          cases hc with
          | same => rfl
          | imported _ h => cases h
          | rolledBack _ h => cases h
        rw [this]
        exact ⟨List.prefix_refl _, o.store, hle⟩
    obtain ⟨k1, k2, k3⟩ := key
    rw [hm rfl]
    rw [o.store, k2] at hd
    rcases hd with rfl | ⟨hd1, hd2⟩
    · exact fin _ _ hr (List.prefix_refl _) (List.prefix_refl _) (List.prefix_refl _) hle hv
    · have hpre := hd2 _ (List.prefix_refl _) k1
      refine fin ⟨_, d⟩ _ hr (List.prefix_refl _) (List.prefix_refl _) hpre (Nat.le_trans hd1.length_le k3) (fun hvt => ?_)
      have h1 := List.prefix_iff_eq_take.1 hd1
      have h2 : d.length = (d.length - 1) + 1 := by
        have := hpre.length_le
        have := List.length_pos_of_ne_nil (all_ne n.cbf.filters)
        omega
      simp only
      rw [h1, h2]
      exact Cbf.filterChain_take cfg.cbf (hch hvt) _

theorem load_length {t : Chain.State} {d : List Header} (hne : d ≠ []) (hl : Chain.load cfg.sync.chain (Chain.new cfg.sync.chain g d) = .ok t) :
    t.chain.length = d.length ∧ t.store = d := by
  simp only [Chain.load, Res.bind_eq_ok] at hl
  obtain ⟨-, -, -, -, -, -, h3⟩ := hl
  cases h3
  refine ⟨?_, rfl⟩
  have := List.length_pos_of_ne_nil hne
  simp [Chain.State.chain, Chain.buildIndex, Chain.new]
  omega

/-- **C107**, what keeps the client from starting: if there are more filter headers than block headers on disk, every start ends in a panic, and it leaves the disk as it
is. -/
theorem C107_never_starts {verify : Bool} {cs : Nat} {d : Disk} {n0 : Fsm} (hr : restart cfg g verify cs d = some n0) (hd : d.headers.length < d.filters.length) (hne : d.headers ≠ [])
    {e : Env} (hn : 60000 ≤ e.cbf.now) : n0.step cfg e .init = .panic ∧ n0.disk = d := by
  replace hn : Cbf.idleTimeout ≤ e.cbf.now := hn
  unfold restart at hr
  cases hl : Chain.load cfg.sync.chain (Chain.new cfg.sync.chain g d.headers) with
  | ok t =>
    simp only [hl] at hr
    obtain ⟨h1, h2⟩ := load_length hne hl
    cases hc : Cbf.loadWith d.filters (fun _ => false) with
    | ok f =>
      simp only [hc] at hr
      have hn0 : n0 = Fsm.new t f cs := by
        split at hr
        · split at hr
          · cases hr; rfl
          · cases hr
        · cases hr; rfl
      have hf : f.store = d.filters ∧ f.height + 1 = d.filters.length := by
        unfold Cbf.loadWith at hc
        split at hc
        · cases hc
        · rename_i x rest hx
          split at hc
          · cases hc
          · cases hc
            rw [hx]
            exact ⟨rfl, rfl⟩
      subst hn0
      refine ⟨?_, ?_⟩
      · simp only [Fsm.step]
        cases hs : (Fsm.new t f cs).callSync cfg (.init e.sync e.now) with
        | ok n1 =>
          have ht : n1.tree = t ∧ n1.cbf = Cbf.Mgr.new f cs := by
            obtain ⟨m, t', h3, rfl⟩ := callSync_ok hs
            simp only [Sync.Mgr.step, Res.bind_eq_ok, Res.ok.injEq, Prod.mk.injEq] at h3
            obtain ⟨m1, -, -, h4⟩ := h3
            exact ⟨h4.symm, rfl⟩
          have hstep : n1.cbf.step cfg.cbf e.cbf (view cfg n1.tree) .init = .panic := by
            rw [ht.1, ht.2]
            have hh : ¬ f.height ≤ (view cfg t).height := by
              have := List.length_pos_of_ne_nil hne
              have := hf.2
              simp only [view, Cbf.Tree.height, List.length_map, h1]
              omega
            simp only [Cbf.Mgr.step, Cbf.Mgr.idle, Cbf.Mgr.new, Cbf.Mgr.sync, Option.getD_none, Nat.sub_zero, hn, hh, if_true, if_false]
            rfl
          show n1.callCbf cfg e.cbf none .init = .panic
          simp only [Fsm.callCbf, hstep]
        | err er => 
          unfold Fsm.callSync at hs
          split at hs <;> cases hs
        | panic => rfl
      · cases d
        simp only [Fsm.disk, Fsm.new, Cbf.Mgr.new, hf.1, h2]
    | err => simp only [hc] at hr; cases hr
    | panic => simp only [hc] at hr; cases hr
  | err => simp only [hl] at hr; cases hr
  | panic => simp only [hl] at hr; cases hr

/-! ## Filter headers that nobody extends -/

/-- Histories from a state on, in which no message with filter headers fits `f`, and no re-org is reported that reaches down to it. -/
inductive Unfit (cfg : Cfg) (f : Cbf.FilterHeaders) (n0 : Fsm) : Fsm → Prop where
  | start : Unfit cfg f n0 n0
  | step {n n' : Fsm} {i : Input} {outs : List Out} (e : Env) (r : Unfit cfg f n0 n) (hs : n.step cfg e i = .ok n') (ho : n'.log = n.log ++ outs)
      (hm : ∀ a msg, i = .cfheaders a msg → msg.prev ≠ Cbf.tipHeader f)
      (hr : ∀ b k k' cn rv r, Out.sync (.imported b k k' cn rv) ∈ outs → r ∈ rv → f.height < r.1) : Unfit cfg f n0 n'

theorem unfit_cfheaders {p : Cbf.Params} {env : Cbf.Env} {t : Cbf.Tree} {m m' : Cbf.Mgr} {a : Nat} {msg : Cbf.CFHeadersMsg} (hp : msg.prev ≠ Cbf.tipHeader m.filters)
    (e : m.step p env t (.cfheaders a msg) = .ok m') : m'.filters = m.filters := by
  have hc : (m.receivedCFHeaders p env t msg).1.filters = m.filters := by
    unfold Cbf.Mgr.receivedCFHeaders
    split
    · rfl
    · simp only
      split
      · rfl
      · split
        · rfl
        · split
          · rfl
          · rfl
  simp only [Cbf.Mgr.step] at e
  generalize m.receivedCFHeaders p env t msg = x at hc e
  obtain ⟨m1, r⟩ := x
  simp only at hc
  cases r with
  | ok => cases e; exact hc
  | err er => cases er <;> (cases e; exact hc)
  | panic => cases e

/-- Queued events were put out. -/
def QL (n n' : Fsm) : Prop := ∃ d, n'.log = n.log ++ d ∧ ∀ o ∈ n'.qSync, o ∈ n.qSync ∨ Out.sync o ∈ d

theorem QL.trans {n1 n2 n3 : Fsm} (a : QL n1 n2) (b : QL n2 n3) : QL n1 n3 := by
  obtain ⟨d1, a1, a2⟩ := a
  obtain ⟨d2, b1, b2⟩ := b
  refine ⟨d1 ++ d2, by rw [b1, a1, List.append_assoc], fun o ho => ?_⟩
  rcases b2 o ho with h1 | h1
  · rcases a2 o h1 with h2 | h2
    · exact .inl h2
    · exact .inr (List.mem_append_left _ h2)
  · exact .inr (List.mem_append_right _ h1)

theorem ql_callSync {op : Sync.Op} (e : n.callSync cfg op = .ok n') : QL n n' := callSync_log e

theorem ql_callInv {op : Inv.Op} (e : n.callInv cfg op = .ok n') : QL n n' := by
  obtain ⟨m, -, rfl⟩ := callInv_ok e
  exact ⟨_, rfl, fun o ho => .inl ho⟩

theorem ql_callCbf {env : Cbf.Env} {b : Option Block} {op : Cbf.Op} (e : n.callCbf cfg env b op = .ok n') : QL n n' := by
  obtain ⟨⟨d, hd⟩, -⟩ := callCbf_log e
  obtain ⟨-, -, hq⟩ := callCbf_step e
  exact ⟨d, hd, fun o ho => .inl (by rw [← hq]; exact ho)⟩

theorem ql_deliverInv {e : Env} {o : Inv.Out} (hs : n.deliverInv cfg e o = .ok n') : QL n n' := by
  cases o <;> simp only [Fsm.deliverInv] at hs <;> first | exact ql_callCbf hs | (cases hs; exact ⟨[], by simp, fun o ho => .inl ho⟩)

theorem ql_deliverSync {e : Env} {o : Sync.Out} (hs : n.deliverSync cfg e o = .ok n') : QL n n' := by
  cases o with
  | imported =>
    simp only [Fsm.deliverSync, Res.bind_eq_ok] at hs
    obtain ⟨n1, h1, h2⟩ := hs
    exact (ql_callCbf h1).trans (ql_callInv h2)
  | disconnected => exact ql_callCbf (by simpa only [Fsm.deliverSync] using hs)
  | _ => cases hs; exact ⟨[], by simp, fun o ho => .inl ho⟩

theorem step_ql {e : Env} {i : Input} (hs : n.step cfg e i = .ok n') : QL n n' := by
  cases i with
  | init =>
    simp only [Fsm.step, Res.bind_eq_ok] at hs
    obtain ⟨n1, h1, h2⟩ := hs
    exact (ql_callSync h1).trans (ql_callCbf h2)
  | negotiated =>
    simp only [Fsm.step, Res.bind_eq_ok] at hs
    obtain ⟨n1, h1, n2, h2, h3⟩ := hs
    exact ((ql_callCbf h1).trans (ql_callInv h2)).trans (ql_callSync h3)
  | disconnected =>
    simp only [Fsm.step, Res.bind_eq_ok] at hs
    obtain ⟨n1, h1, n2, h2, h3⟩ := hs
    exact ((ql_callCbf h1).trans (ql_callInv h2)).trans (ql_callSync h3)
  | timer =>
    simp only [Fsm.step, Res.bind_eq_ok] at hs
    obtain ⟨n1, h1, n2, h2, h3⟩ := hs
    exact ((ql_callInv h1).trans (ql_callSync h2)).trans (ql_callCbf h3)
  | submit =>
    simp only [Fsm.step, Res.bind_eq_ok] at hs
    obtain ⟨n1, h1, h2⟩ := hs
    exact (ql_callCbf h1).trans (ql_callInv h2)
  | next =>
    simp only [Fsm.step, Fsm.next] at hs
    split at hs
    · rename_i o q hq
      have : QL n { n with qSync := q } := ⟨[], by simp, fun o ho => .inl (by rw [hq]; exact List.mem_cons_of_mem _ ho)⟩
      exact this.trans (ql_deliverSync hs)
    · split at hs
      · rename_i o q hq
        have : QL n { n with qInv := q } := ⟨[], by simp, fun o ho => .inl ho⟩
        exact this.trans (ql_deliverInv hs)
      · cases hs; exact ⟨[], by simp, fun o ho => .inl ho⟩
  | headers => exact ql_callSync hs
  | getheaders => exact ql_callSync hs
  | invs => exact ql_callSync hs
  | importHeaders => exact ql_callSync hs
  | block => exact ql_callInv hs
  | getdata => exact ql_callInv (cfg := cfg) (op := .getdata _ _) hs
  | requestBlock => exact ql_callInv (cfg := cfg) (op := .getBlock _) hs
  | watch => simp only [Fsm.step] at hs; exact ql_callCbf hs
  | cfheaders => exact ql_callCbf hs
  | getcfheaders => exact ql_callCbf hs
  | cfilter => exact ql_callCbf hs
  | requestFilters => exact ql_callCbf hs
  | rescan => exact ql_callCbf hs

/-- **C107**, filter headers that belong to blocks that left the chain stay, if no report of the re-org is delivered: as long as all messages with filter headers continue
another chain (as those of honest peers do), the filter headers do not change. -/
theorem C107_stuck {f : Cbf.FilterHeaders} {n0 : Fsm} (h0 : n0.cbf.filters = f) (hq : n0.qSync = []) (r : Unfit cfg f n0 n) : n.cbf.filters = f := by
  suffices h : n.cbf.filters = f ∧ ∀ b k k' cn rv r, Sync.Out.imported b k k' cn rv ∈ n.qSync → r ∈ rv → f.height < r.1 from h.1
  induction r with
  | start => exact ⟨h0, by simp [hq]⟩
  | @step n n' i outs e r hs ho hm hr ih =>
    obtain ⟨ih1, ih2⟩ := ih
    refine ⟨?_, ?_⟩
    · obtain ⟨rr, m, hc, hc1, hc2⟩ := step_change hs
      by_cases hmm : m = true
      · obtain ⟨a, msg, rfl⟩ := hc2 hmm
        rw [← ih1]
        exact unfit_cfheaders (by rw [ih1]; exact hm a msg rfl) (callCbf_step hs).1
      · by_cases hrr : rr = true
        · obtain ⟨rfl, -⟩ := hc1 hrr
          simp only [Fsm.step, Fsm.next] at hs
          split at hs
          · rename_i o q hqs
            cases o with
            | imported b hash height cn rv =>
              simp only [Fsm.deliverSync, Res.bind_eq_ok] at hs
              obtain ⟨n1, h1, h2⟩ := hs
              rw [filters_callInv h2]
              cases hl : rv.getLast? with
              | none =>
                have : rv = [] := by simpa using hl
                subst this
                exact (filters_callCbf (n := { n with qSync := q }) rfl rfl h1).trans ih1
              | some r =>
                have hlt : f.height < r.1 := ih2 _ _ _ _ _ r (by rw [hqs]; exact List.mem_cons_self) (List.mem_of_getLast? hl)
                obtain ⟨hst, -, -⟩ := callCbf_step h1
                have hlm : (rv.map (·.1)).getLast? = some r.1 := by rw [List.getLast?_map, hl]; rfl
                simp only [Cbf.Mgr.step, hlm, Cbf.subUsize, if_pos (show 1 ≤ r.1 by omega), Res.ok_bind, Res.bind_eq_ok] at hst
                obtain ⟨m1, hm1, hm2⟩ := hst
                rw [(Cbf.quiet_sync cfg.cbf e.cbf _ _ _ hm2).filters]
                rcases Cbf.rollback_cases e.cbf n.cbf m1 (r.1 - 1) hm1 with ⟨rfl, -⟩ | ⟨hlt', -⟩
                · exact ih1
                · rw [ih1] at hlt'; omega
            | disconnected => exact (filters_callCbf (n := { n with qSync := q }) rfl rfl (by simpa only [Fsm.deliverSync] using hs)).trans ih1
            | _ => cases hs; exact ih1
          · split at hs
            · rename_i o q hqs
              exact ((shift_deliverInv (n := { n with qInv := q }) hs).filters).trans ih1
            · cases hs; exact ih1
        · have hmf : m = false := by simpa using hmm
          have hrf : rr = false := by simpa using hrr
          subst hmf hrf
          rw [← ih1]
          generalize n'.cbf.filters = f' at hc
          generalize n.cbf.filters = f1 at hc ⊢
          cases hc with
          | same => rfl
          | imported _ h => cases h
          | rolledBack _ h => cases h
    · intro b k k' cn rv x hx hxr
      obtain ⟨d, hd1, hd2⟩ := step_ql hs
      have : d = outs := List.append_cancel_left (hd1.symm.trans ho)
      subst this
      rcases hd2 _ hx with h1 | h1
      · exact ih2 _ _ _ _ _ x h1 hxr
      · exact hr _ _ _ _ _ x h1 hxr

end Verif.Node
