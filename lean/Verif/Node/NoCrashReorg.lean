import Verif.Node.PropsRestart

/-!
# The state machine: no crashes, with re-orgs to shorter chains
-/

set_option autoImplicit false

namespace Verif.Cbf
variable (p : Params)

/-- The report of a re-org does not make the filter manager panic in a release build, if the filter headers that remain are within the active chain. -/
theorem reverts_back {t : Tree} {m : Mgr} (hk : CacheOK List.length m.rescan.cache) (hst : m.filters.store = m.filters.all) (e : Env) (hf : e.fail = false)
    (reverted : List Nat) (hlow : (∀ k, reverted.getLast? ≠ some k) → m.filters.height < t.hashes.length)
    (hlow' : ∀ k, reverted.getLast? = some k → 0 < k ∧ min m.filters.height (k - 1) < t.hashes.length) :
    ∃ m', m.step p e t (.headersImported reverted) = .ok m' ∧ Sound t m' := by
  have fin : ∀ m1 : Mgr, m1.filters.height < t.hashes.length → ∃ m', (m1.sync p e t : Res Unit Mgr) = .ok m' ∧ m'.filters.height < t.hashes.length := by
    intro m1 h1
    obtain ⟨m', h2⟩ := sync_ok (E := Unit) p e t m1 h1
    exact ⟨m', h2, by rw [(quiet_sync p e t m1 m' h2).filters]; exact h1⟩
  have key : ∃ m', m.step p e t (.headersImported reverted) = .ok m' ∧ m'.filters.height < t.hashes.length := by
    simp only [Mgr.step]
    cases hl : reverted.getLast? with
    | none => exact fin m (hlow (by simp [hl]))
    | some k =>
      obtain ⟨hk0, hmin⟩ := hlow' k hl
      simp only [subUsize, if_pos (show 1 ≤ k from hk0), Res.ok_bind]
      have hrb : ∃ m1, m.rollback e (k - 1) = .ok m1 := by
        unfold Mgr.rollback
        split
        · exact ⟨_, rfl⟩
        · obtain ⟨c, hc, _⟩ := C27_rollback List.length m.rescan.cache hk (k - 1)
          simp only [Rescan.rollback, hc, Res.ok_bind, rollbackHeaders, hf, Bool.false_eq_true, if_false]
          split
          · split <;> exact ⟨_, rfl⟩
          · exact ⟨_, rfl⟩
      obtain ⟨m1, h1⟩ := hrb
      rw [h1, Res.ok_bind]
      refine fin m1 ?_
      rcases rollback_cases e m m1 (k - 1) h1 with ⟨rfl, hle⟩ | ⟨hlt, c, _, _, hok, _⟩
      · omega
      · rw [(hok hf).1]
        simp only [rollbackHeaders, Bool.false_eq_true, if_false, FilterHeaders.height, List.length_take] at hlt hmin ⊢
        omega
  obtain ⟨m', h1, h2⟩ := key
  exact ⟨m', h1, (step_facts p e t m m' _ h1 hk).cacheOK, change_store p (hf ▸ step_filters p e t m m' _ h1) hst, h2⟩

end Verif.Cbf

namespace Verif.Node
open Verif.Tx (Block Transaction)
open Verif.Chain (Header)

variable {cfg : Cfg} {U : Header → Prop} {fail : Bool} {t0 : Chain.State} {g : Header} {h : Hist} {n n' : Fsm} {ow : List Nat} {S S' : Block → Prop}

/-! ## Specification -/

/-- All reports of imported headers have been delivered. -/
def Delivered (n : Fsm) : Prop := ∀ b k k' cn rv, Sync.Out.imported b k k' cn rv ∉ n.qSync

/-- Histories as in C106 in which reports of imported headers are delivered (by taking the outputs) before the next input is given. -/
inductive Orderly (cfg : Cfg) (U : Header → Prop) (fail : Bool) (t0 : Chain.State) : Hist → Fsm → Prop where
  | start (f : Cbf.FilterHeaders) (cacheSize : Nat) (hs : f.store = f.all) (hh : f.height ≤ t0.height) : Orderly cfg U fail t0 [] (Fsm.new t0 f cacheSize)
  | step {h : Hist} {n n' : Fsm} {i : Input} {outs : List Out} (e : Env) (r : Orderly cfg U fail t0 h n) (l : Legal U fail e i) (hf : e.cbf.fail = false)
      (hc : Clean cfg n i) (hd : i = .next ∨ Delivered n) (hs : n.step cfg e i = .ok n') (ho : n'.log = n.log ++ outs) : Orderly cfg U fail t0 ((i, outs) :: h) n'

/-! ## The invariant -/

theorem Orderly.track (r : Orderly cfg U fail t0 h n) : ∃ ow, Track cfg U fail t0 h n ow := by
  induction r with
  | start f cs hs hh => exact ⟨_, .start f cs hs hh⟩
  | step e r l hf hc hd hs ho ih =>
    obtain ⟨ow, ih⟩ := ih
    exact ⟨_, .step e ih l hf hc hs ho⟩

/-- The part that does not depend on the height of the filter headers. -/
structure Base (cfg : Cfg) (S : Block → Prop) (n : Fsm) : Prop where
  inv : ∃ h, Inv.Run cfg.cbf.checked h n.inv ∧ ∀ b k outs, (Inv.Op.block b k, outs) ∈ h → S b
  cacheOK : Cbf.CacheOK List.length n.cbf.rescan.cache

theorem Base.mono (s : Base cfg S n) (hS : ∀ b, S b → S' b) : Base cfg S' n := by
  obtain ⟨hi, h1, h2⟩ := s.inv
  exact ⟨⟨hi, h1, fun b k o hb => hS b (h2 b k o hb)⟩, s.cacheOK⟩

theorem Base.callSync (s : Base cfg S n) {op : Sync.Op} (e : n.callSync cfg op = .ok n') : Base cfg S n' := by
  obtain ⟨m, t, hs, rfl⟩ := callSync_ok e
  exact ⟨s.inv, s.cacheOK⟩

theorem Base.callInv (s : Base cfg S n) {op : Inv.Op} (l : op.Legal) (hS : ∀ b k, op = .block b k → S b) (e : n.callInv cfg op = .ok n') : Base cfg S n' := by
  obtain ⟨m, hs, rfl⟩ := callInv_ok e
  obtain ⟨hi, h1, h2⟩ := s.inv
  refine ⟨⟨_, .step h1 l hs, fun b k o hb => ?_⟩, s.cacheOK⟩
  rcases List.mem_cons.1 hb with hb | hb
  · simp only [Prod.mk.injEq] at hb
    exact hS b k hb.1.symm
  · exact h2 b k o hb

theorem Base.requestBlocks (ks : List Nat) (s : Base cfg S n) : ∃ n', Fsm.requestBlocks cfg ks n = .ok n' ∧ Base cfg S n' := by
  induction ks generalizing n with
  | nil => exact ⟨n, rfl, s⟩
  | cons k ks ih =>
    have h1 : ∃ n1, n.callInv cfg (.getBlock k) = .ok n1 := ⟨_, rfl⟩
    obtain ⟨n1, h1⟩ := h1
    obtain ⟨n', h2, h3⟩ := ih (s.callInv (op := .getBlock k) trivial (by simp) h1)
    exact ⟨n', by simp only [Fsm.requestBlocks, h1, Res.ok_bind, h2], h3⟩

theorem Base.totalCbf (s : Base cfg S n) {env : Cbf.Env} {b : Option Block} {op : Cbf.Op} {c : Cbf.Mgr} (e : n.cbf.step cfg.cbf env (view cfg n.tree) op = .ok c) :
    ∃ n', n.callCbf cfg env b op = .ok n' ∧ Base cfg S n' := by
  unfold Fsm.callCbf
  simp only [e]
  exact Base.requestBlocks _ (n := { n with cbf := c, qCbf := _, log := _ }) ⟨s.inv, (Cbf.step_facts cfg.cbf env _ _ _ op e s.cacheOK).cacheOK⟩

theorem Base.callCbf (s : Base cfg S n) {env : Cbf.Env} {b : Option Block} {op : Cbf.Op} (e : n.callCbf cfg env b op = .ok n') : Base cfg S n' := by
  obtain ⟨n1, k1, k2⟩ := s.totalCbf (b := b) (callCbf_step e).1
  rw [k1] at e; cases e; exact k2

theorem Base.step {e : Env} {i : Input} {outs : List Out} (s : Base cfg (fun b => Sent b h) n) (l : Legal U fail e i) (hs : n.step cfg e i = .ok n') :
    Base cfg (fun b => Sent b ((i, outs) :: h)) n' := by
  have s := s.mono (S' := fun b => Sent b ((i, outs) :: h)) (fun b ⟨o, hb⟩ => ⟨o, List.mem_cons_of_mem _ hb⟩)
  cases i with
  | init =>
    simp only [Fsm.step, Res.bind_eq_ok] at hs
    obtain ⟨n1, h1, h2⟩ := hs
    exact (s.callSync h1).callCbf h2
  | negotiated =>
    simp only [Fsm.step, Res.bind_eq_ok] at hs
    obtain ⟨n1, h1, n2, h2, h3⟩ := hs
    exact ((s.callCbf h1).callInv (op := .negotiated _ _ _ _) trivial (by simp) h2).callSync h3
  | disconnected =>
    simp only [Fsm.step, Res.bind_eq_ok] at hs
    obtain ⟨n1, h1, n2, h2, h3⟩ := hs
    exact ((s.callCbf h1).callInv (op := .disconnected _) trivial (by simp) h2).callSync h3
  | headers => exact s.callSync hs
  | getheaders => exact s.callSync hs
  | invs => exact s.callSync hs
  | block b => exact s.callInv (op := .block _ _) trivial (by rintro _ _ he; cases he; exact ⟨outs, List.mem_cons_self⟩) hs
  | getdata => exact s.callInv (op := .getdata _ _) trivial (by simp) hs
  | cfheaders => exact s.callCbf hs
  | getcfheaders => exact s.callCbf hs
  | cfilter => exact s.callCbf hs
  | timer =>
    simp only [Fsm.step, Res.bind_eq_ok] at hs
    obtain ⟨n1, h1, n2, h2, h3⟩ := hs
    exact ((s.callInv (op := .timer _ _ _) l.inv (by simp) h1).callSync h2).callCbf h3
  | importHeaders => exact s.callSync hs
  | requestFilters => exact s.callCbf hs
  | requestBlock k => exact s.callInv (op := .getBlock _) trivial (by simp) hs
  | submit t =>
    simp only [Fsm.step, Res.bind_eq_ok] at hs
    obtain ⟨n1, h1, h2⟩ := hs
    exact (s.callCbf h1).callInv (op := .announce _) trivial (by simp) h2
  | rescan => exact s.callCbf hs
  | watch => simp only [Fsm.step] at hs; exact s.callCbf hs
  | next =>
    simp only [Fsm.step, Fsm.next] at hs
    split at hs
    · rename_i o q hq
      have s1 : Base cfg (fun b => Sent b ((Input.next, outs) :: h)) { n with qSync := q } := ⟨s.inv, s.cacheOK⟩
      cases o <;> simp only [Fsm.deliverSync] at hs
      case imported =>
        rw [Res.bind_eq_ok] at hs
        obtain ⟨n1, h1, h2⟩ := hs
        exact (s1.callCbf h1).callInv (op := .reverted _) trivial (by simp) h2
      case disconnected => exact s1.callCbf hs
      all_goals (cases hs; exact s1)
    · split at hs
      · rename_i o q hq
        have s1 : Base cfg (fun b => Sent b ((Input.next, outs) :: h)) { n with qInv := q } := ⟨s.inv, s.cacheOK⟩
        cases o <;> simp only [Fsm.deliverInv] at hs
        case processed => exact s1.callCbf hs
        case confirmed => exact s1.callCbf hs
        case reverted => exact s1.callCbf hs
        all_goals (cases hs; exact s1)
      · cases hs; exact ⟨s.inv, s.cacheOK⟩

theorem orderly_base (r : Orderly cfg U fail t0 h n) : Base cfg (fun b => Sent b h) n := by
  induction r with
  | start f cs => exact ⟨⟨_, .start, by simp⟩, Cbf.new_cacheOK f cs⟩
  | step e r l hf hc hd hs ho ih => exact ih.step l hs

/-! ## At most one re-org is reported at a time -/

/-- All waiting reports are of the same import. -/
def Lone (n : Fsm) : Prop := ∃ rv, ∀ b k k' cn rv', Sync.Out.imported b k k' cn rv' ∈ n.qSync → rv' = rv

/-- A report in the queue is an old one, or that of the import of `batch`. -/
def FreshFrom (cfg : Cfg) (t : Chain.State) (batch : List (Header × Chain.Env)) (n n' : Fsm) : Prop :=
  ∀ b k k' cn rv, Sync.Out.imported b k k' cn rv ∈ n'.qSync → Sync.Out.imported b k k' cn rv ∈ n.qSync ∨
    ∃ x, (Chain.importBlocks cfg.sync.chain t batch).2 = .ok (.tipChanged x k k' rv cn)

theorem fresh_callSync (p : Parts cfg U fail t0 n) {op : Sync.Op} (l : op.Legal U fail) (e : n.callSync cfg op = .ok n') : FreshFrom cfg n.tree op.batch n n' := by
  obtain ⟨m, t, hs, rfl⟩ := callSync_ok e
  obtain ⟨hh, hr⟩ := p.sync
  intro b k k' cn rv hm
  rcases List.mem_append.1 hm with h1 | h1
  · exact .inl h1
  · obtain ⟨⟨header, hx⟩, -⟩ := Sync.step_from (Sync.run_inv hr) l hs _ h1
    exact .inr ⟨header, by rw [hx]⟩

theorem fresh_quiet (p : Parts cfg U fail t0 n) {op : Sync.Op} (l : op.Legal U fail) (hb : op.batch = []) (e : n.callSync cfg op = .ok n') :
    ∀ b k k' cn rv, Sync.Out.imported b k k' cn rv ∈ n'.qSync → Sync.Out.imported b k k' cn rv ∈ n.qSync := by
  intro b k k' cn rv hm
  rcases fresh_callSync p l e b k k' cn rv hm with h1 | ⟨x, h1⟩
  · exact h1
  · rw [hb] at h1
    cases h1

theorem step_fresh (p : Parts cfg U fail t0 n) {e : Env} {i : Input} (l : Legal U fail e i) (hs : n.step cfg e i = .ok n') : FreshFrom cfg n.tree i.batch n n' := by
  have none : ∀ p ∈ ([] : List (Header × Chain.Env)), U p.1 ∧ Chain.EnvOk fail p.2 := by simp
  have same : ∀ {n1 : Fsm} {env : Cbf.Env} {b : Option Block} {op : Cbf.Op}, n1.callCbf cfg env b op = .ok n' → n1.qSync = n.qSync → FreshFrom cfg n.tree i.batch n n' := by
    intro n1 env b op h1 h2 b k k' cn rv hm
    rw [(callCbf_step h1).2.2, h2] at hm
    exact .inl hm
  have same' : ∀ {n1 : Fsm} {op : Inv.Op}, n1.callInv cfg op = .ok n' → n1.qSync = n.qSync → FreshFrom cfg n.tree i.batch n n' := by
    intro n1 op h1 h2 b k k' cn rv hm
    obtain ⟨m, -, rfl⟩ := callInv_ok h1
    rw [← h2]
    exact .inl hm
  have quiet : ∀ {n1 n2 : Fsm}, Parts cfg U fail t0 n1 → ∀ op : Sync.Op, op.Legal U fail → op.batch = [] → n1.callSync cfg op = .ok n2 → n1.qSync = n.qSync → n2.qSync = n'.qSync →
      FreshFrom cfg n.tree i.batch n n' :=
    fun p1 op lo ho h1 h2 h3 b k k' cn rv hm => .inl (by rw [← h2]; exact fresh_quiet p1 lo ho h1 b k k' cn rv (by rw [h3]; exact hm))
  have qInv : ∀ {n1 n2 : Fsm} {op : Inv.Op}, n1.callInv cfg op = .ok n2 → n2.qSync = n1.qSync := by
    intro n1 n2 op h1
    obtain ⟨m, -, rfl⟩ := callInv_ok h1
    rfl
  cases i with
  | init =>
    simp only [Fsm.step, Res.bind_eq_ok] at hs
    obtain ⟨n1, h1, h2⟩ := hs
    exact quiet p (.init e.sync e.now) ⟨l.sync, none⟩ rfl h1 rfl (callCbf_step h2).2.2.symm
  | negotiated a height outbound network filters relay wtxidrelay persistent =>
    simp only [Fsm.step, Res.bind_eq_ok] at hs
    obtain ⟨n1, h1, n2, h2, h3⟩ := hs
    exact quiet ((p.callCbf h1).callInv (op := .negotiated _ _ _ _) trivial h2) (.negotiated e.sync e.now a height network filters outbound) ⟨l.sync, none⟩ rfl h3
      ((qInv h2).trans (callCbf_step h1).2.2) rfl
  | disconnected a =>
    simp only [Fsm.step, Res.bind_eq_ok] at hs
    obtain ⟨n1, h1, n2, h2, h3⟩ := hs
    exact quiet ((p.callCbf h1).callInv (op := .disconnected _) trivial h2) (.gone a) ⟨trivial, none⟩ rfl h3 ((qInv h2).trans (callCbf_step h1).2.2) rfl
  | headers a hs' => exact fresh_callSync p (op := .headers e.sync e.now a hs') ⟨l.sync, l.headers⟩ hs
  | getheaders a loc => exact quiet p (.getheaders a loc) ⟨trivial, none⟩ rfl hs rfl rfl
  | invs a items => exact quiet p (.inv e.now a items) ⟨trivial, none⟩ rfl hs rfl rfl
  | block b => exact same' hs rfl
  | getdata => exact same' (op := .getdata _ _) hs rfl
  | cfheaders => exact same hs rfl
  | getcfheaders => exact same hs rfl
  | cfilter => exact same hs rfl
  | timer =>
    simp only [Fsm.step, Res.bind_eq_ok] at hs
    obtain ⟨n1, h1, n2, h2, h3⟩ := hs
    exact quiet (p.callInv (op := .timer _ _ _) l.inv h1) (.timer e.sync e.now) ⟨l.sync, none⟩ rfl h2 (qInv h1) (callCbf_step h3).2.2.symm
  | importHeaders hs' => exact fresh_callSync p (op := .userImport e.sync hs') ⟨l.sync, l.headers⟩ hs
  | requestFilters => exact same hs rfl
  | requestBlock => exact same' (op := .getBlock _) hs rfl
  | submit t =>
    simp only [Fsm.step, Res.bind_eq_ok] at hs
    obtain ⟨n1, h1, h2⟩ := hs
    exact same' h2 (callCbf_step h1).2.2
  | rescan => exact same hs rfl
  | watch => simp only [Fsm.step] at hs; exact same hs rfl
  | next =>
    simp only [Fsm.step, Fsm.next] at hs
    split at hs
    · rename_i o q hq
      have hsub : ∀ x, x ∈ q → x ∈ n.qSync := fun x hx => by rw [hq]; exact List.mem_cons_of_mem _ hx
      have hqs : n'.qSync = q := by
        cases o <;> simp only [Fsm.deliverSync] at hs
        case imported =>
          rw [Res.bind_eq_ok] at hs
          obtain ⟨n1, h1, h2⟩ := hs
          exact (qInv h2).trans (callCbf_step h1).2.2
        case disconnected => exact (callCbf_step hs).2.2
        all_goals (cases hs; rfl)
      intro b k k' cn rv hm
      rw [hqs] at hm
      exact .inl (hsub _ hm)
    · split at hs
      · rename_i o q hq
        intro b k k' cn rv hm
        have hqs : n'.qSync = n.qSync := by
          cases o <;> simp only [Fsm.deliverInv] at hs
          case processed => exact (callCbf_step hs).2.2
          case confirmed => exact (callCbf_step hs).2.2
          case reverted => exact (callCbf_step hs).2.2
          all_goals (cases hs; rfl)
        exact .inl (by rw [← hqs]; exact hm)
      · cases hs
        intro b k k' cn rv hm
        exact .inl hm

theorem orderly_lone (r : Orderly cfg U fail t0 h n) : Lone n := by
  induction r with
  | start f cs => exact ⟨[], by simp [Fsm.new]⟩
  | @step h n n' i outs e r l hf hc hd hs ho ih =>
    obtain ⟨ow, rt⟩ := r.track
    have hfr := step_fresh (run_parts rt.run) l hs
    rcases hd with rfl | hd
    · obtain ⟨rv, ih⟩ := ih
      refine ⟨rv, fun b k k' cn rv' hm => ?_⟩
      rcases hfr b k k' cn rv' hm with h1 | ⟨x, h1⟩
      · exact ih b k k' cn rv' h1
      · cases h1
    · cases hres : (Chain.importBlocks cfg.sync.chain n.tree i.batch).2 with
      | ok res =>
        cases res with
        | tipChanged x k k' rv cn =>
          refine ⟨rv, fun b1 k1 k1' cn1 rv' hm => ?_⟩
          rcases hfr b1 k1 k1' cn1 rv' hm with h1 | ⟨x, h1⟩
          · exact absurd h1 (hd _ _ _ _ _)
          · rw [hres] at h1
            simp only [Res.ok.injEq, Chain.ImportResult.tipChanged.injEq] at h1
            exact h1.2.2.2.1.symm
        | tipUnchanged =>
          refine ⟨[], fun b1 k1 k1' cn1 rv' hm => ?_⟩
          rcases hfr b1 k1 k1' cn1 rv' hm with h1 | ⟨x, h1⟩
          · exact absurd h1 (hd _ _ _ _ _)
          · rw [hres] at h1; cases h1
      | _ =>
        refine ⟨[], fun b1 k1 k1' cn1 rv' hm => ?_⟩
        rcases hfr b1 k1 k1' cn1 rv' hm with h1 | ⟨x, h1⟩
        · exact absurd h1 (hd _ _ _ _ _)
        · rw [hres] at h1; cases h1

/-! ## Property -/

theorem Base.totalInv (s : Base cfg S n) (hc : cfg.cbf.checked = false) {hs : List Nat} : ∃ n', n.callInv cfg (.reverted hs) = .ok n' := by
  obtain ⟨hi, r, hsent⟩ := s.inv
  obtain ⟨m', h1⟩ := Inv.C74_inventory_partial r (op := .reverted hs) trivial (by intro h; rw [hc] at h; cases h)
  unfold Fsm.callInv
  rw [h1]
  exact ⟨_, rfl⟩

/-- **C102**, re-orgs included: as `C102_no_crash_partial`, but the active chain may become shorter by re-orgs, if reports of imported headers are delivered before the next input is
given, and imports are clean as in C106.  (Missing: what the conditions exclude.) -/
theorem C102_no_crash_reorg_partial (hc : cfg.sync.chain.checked = false) (hc' : cfg.cbf.checked = false) (c : Ctx cfg U fail t0 g)
    (cf : Chain.CollisionFree cfg.sync.chain U) (r : Orderly cfg U fail t0 h n) {e : Env} {i : Input} (hd : i = .next ∨ Delivered n) (l : Legal U fail e i) (hf : e.cbf.fail = false)
    (hh : n.tree.height + 1 < 2 ^ 64) (hh' : (Chain.importBlocks cfg.sync.chain n.tree i.batch).1.height < 2 ^ 64)
    (hb : Sane (fun b => Sent b h ∨ i = .block b)) (hi : Careful n i) : ∃ n', n.step cfg e i = .ok n' := by
  obtain ⟨ow, rt⟩ := r.track
  have o := track_own c cf rt
  have base := (orderly_base r).mono (S' := fun b => Sent b h ∨ i = .block b) (fun _ => .inl)
  have low : ∀ k, k ≤ n.cbf.filters.height → (∀ o ∈ n.qSync, ¬ Hits k o) → k < (view cfg n.tree).hashes.length := by
    intro k hk hno
    have hkl : k < ow.length := by rw [o.len]; omega
    rcases o.each k _ (List.getElem?_eq_getElem hkl) with h1 | ⟨x, h1, h2⟩
    · rw [view_hashes]
      exact (List.getElem?_eq_some_iff.1 h1).1
    · exact absurd h2 (hno x h1)
  have safe : Delivered n → ∃ n', n.step cfg e i = .ok n' := by
    intro hd
    have s : Safe cfg U fail t0 (fun b => Sent b h ∨ i = .block b) n := by
      refine ⟨(run_parts rt.run).sync, base.inv, base.cacheOK, o.store, low _ (Nat.le_refl _) fun x hx hit => ?_⟩
      cases x with
      | imported => exact hd _ _ _ _ _ hx
      | _ => cases hit
    exact s.total hc hc' c cf l hf hh hh' hb (fun _ => .inr) hi
  rcases hd with rfl | hd
  · cases hq : n.qSync with
    | nil => exact safe (by simp [Delivered, hq])
    | cons x q =>
      simp only [Fsm.step, Fsm.next, hq]
      have base1 : Base cfg (fun b => Sent b h ∨ Input.next = .block b) { n with qSync := q } := ⟨base.inv, base.cacheOK⟩
      cases x <;> simp only [Fsm.deliverSync]
      case imported b hash height cn rv =>
        obtain ⟨rv0, hlone⟩ := orderly_lone r
        have hrv : rv = rv0 := hlone b hash height cn rv (by rw [hq]; exact List.mem_cons_self)
        subst hrv
        have hno : ∀ k, (∀ r, rv.getLast? = some r → k < r.1) → ∀ o ∈ n.qSync, ¬ Hits k o := by
          intro k hk x hx hit
          cases x with
          | imported b1 k1 k1' cn1 rv1 =>
            have := hlone b1 k1 k1' cn1 rv1 hx
            subst this
            obtain ⟨r, h1, h2⟩ := hit
            have := hk r h1
            omega
          | _ => cases hit
        have hlm : (rv.map (·.1)).getLast? = rv.getLast?.map (·.1) := List.getLast?_map
        obtain ⟨m', h1, -⟩ := Cbf.reverts_back cfg.cbf (t := view cfg n.tree) (m := n.cbf) base.cacheOK o.store e.cbf hf (rv.map (·.1))
          (fun hn => low _ (Nat.le_refl _) (hno _ fun r hr => absurd (by rw [hlm, hr]; rfl) (hn r.1)))
          (by
            intro k hk
            rw [hlm, Option.map_eq_some_iff] at hk
            obtain ⟨r, hr, rfl⟩ := hk
            have hpos : 0 < r.1 := o.pos (.imported b hash height cn rv) (by rw [hq]; exact List.mem_cons_self) r hr
            refine ⟨hpos, low _ (Nat.min_le_left _ _) (hno _ fun r' hr' => ?_)⟩
            rw [hr] at hr'
            cases hr'
            omega)
        obtain ⟨n1, h2, base2⟩ := base1.totalCbf (b := none) (env := e.cbf) (c := m') h1
        obtain ⟨n2, h3⟩ := base2.totalInv hc' (hs := rv.map (·.1))
        exact ⟨n2, by simp only [h2, Res.ok_bind, h3]⟩
      case disconnected k x =>
        obtain ⟨n1, h1, -⟩ := base1.totalCbf (b := none) (env := e.cbf) (op := .blockDisconnected k) rfl
        exact ⟨n1, h1⟩
      all_goals exact ⟨_, rfl⟩
  · exact safe hd

/-- **C107**, the start goes on: what `restart` gives takes its first input without a panic, in a release build. -/
theorem C107_starts (hc : cfg.sync.chain.checked = false) (hc' : cfg.cbf.checked = false) (c : Ctx cfg U fail t0 g) (cf : Chain.CollisionFree cfg.sync.chain U)
    (r : Track cfg U fail t0 [] n ow) (hh : n.tree.height + 1 < 2 ^ 64) {e : Env} (l : Legal U fail e .init) (hf : e.cbf.fail = false) :
    ∃ n', n.step cfg e .init = .ok n' := by
  cases r with
  | start f cs hs hh' =>
    refine C102_no_crash_partial hc hc' c cf (.start f cs hs hh') l hf hh ?_ ⟨[], by simp, ?_⟩ trivial
    · exact Nat.lt_of_succ_lt hh
    · rintro b (⟨o, hb⟩ | hb)
      · cases hb
      · cases hb

end Verif.Node
