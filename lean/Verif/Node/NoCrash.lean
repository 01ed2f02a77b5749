import Verif.Node.Runs
import Verif.Cbf.PropsSafe
import Verif.Sync.Props
import Verif.Sync.PropsTip
import Verif.Inv.PropsMore

/-!
# The state machine: no crashes
-/

set_option autoImplicit false

namespace Verif.Cbf
variable (p : Params)

/-- The report of a re-org does not make the filter manager panic in a release build, if the filter headers are within the active chain. -/
theorem reverts_sound {t : Tree} {m : Mgr} (hs : Sound t m) (e : Env) (hf : e.fail = false) (hc : p.checked = false) (reverted : List Nat) :
    ∃ m', m.step p e t (.headersImported reverted) = .ok m' ∧ Sound t m' := by
  have fin : ∀ m1 : Mgr, m1.filters.height < t.hashes.length → ∃ m', (m1.sync p e t : Res Unit Mgr) = .ok m' ∧ m'.filters.height < t.hashes.length := by
    intro m1 h1
    obtain ⟨m', h2⟩ := sync_ok (E := Unit) p e t m1 h1
    exact ⟨m', h2, by rw [(quiet_sync p e t m1 m' h2).filters]; exact h1⟩
  have key : ∃ m', m.step p e t (.headersImported reverted) = .ok m' ∧ m'.filters.height < t.hashes.length := by
    simp only [Mgr.step]
    cases reverted.getLast? with
    | none => exact fin m hs.height
    | some k =>
      have hsub : ∃ fork, (subUsize p.checked k 1 : Res Unit Nat) = .ok fork := by
        unfold subUsize
        split
        · exact ⟨_, rfl⟩
        · rw [hc]; exact ⟨_, rfl⟩
      obtain ⟨fork, hfork⟩ := hsub
      simp only [hfork, Res.ok_bind]
      have hrb : ∃ m1, m.rollback e fork = .ok m1 := by
        unfold Mgr.rollback
        split
        · exact ⟨_, rfl⟩
        · obtain ⟨c, hc, _⟩ := C27_rollback List.length m.rescan.cache hs.cacheOK fork
          simp only [Rescan.rollback, hc, Res.ok_bind, rollbackHeaders, hf, Bool.false_eq_true, if_false]
          split
          · split <;> exact ⟨_, rfl⟩
          · exact ⟨_, rfl⟩
      obtain ⟨m1, h1⟩ := hrb
      rw [h1, Res.ok_bind]
      refine fin m1 ?_
      have := hs.height
      rcases rollback_cases e m m1 fork h1 with ⟨rfl, hle⟩ | ⟨_, c, _, _, hok, _⟩
      · exact this
      · rw [(hok hf).1]
        simp only [rollbackHeaders, Bool.false_eq_true, if_false, FilterHeaders.height, List.length_take] at this ⊢
        omega
  obtain ⟨m', h1, h2⟩ := key
  exact ⟨m', h1, (step_facts p e t m m' _ h1 hs.cacheOK).cacheOK, change_store p (hf ▸ step_filters p e t m m' _ h1) hs.store, h2⟩

end Verif.Cbf

namespace Verif.Node
open Verif.Tx (Block Transaction)
open Verif.Chain (Header)

variable {cfg : Cfg} {U : Header → Prop} {fail : Bool} {t0 : Chain.State} {g : Header} {h : Hist} {n n' : Fsm}

/-- Histories in which the active chain never becomes shorter and the filter store does not fail; the filter headers start in line with their store and
within the active chain. -/
inductive Steady (cfg : Cfg) (U : Header → Prop) (fail : Bool) (t0 : Chain.State) : Hist → Fsm → Prop where
  | start (f : Cbf.FilterHeaders) (cacheSize : Nat) (hs : f.store = f.all) (hh : f.height ≤ t0.height) : Steady cfg U fail t0 [] (Fsm.new t0 f cacheSize)
  | step {h : Hist} {n n' : Fsm} {i : Input} {outs : List Out} (e : Env) (r : Steady cfg U fail t0 h n) (l : Legal U fail e i) (hf : e.cbf.fail = false)
      (hs : n.step cfg e i = .ok n') (ho : n'.log = n.log ++ outs) (hl : n.tree.height ≤ n'.tree.height) : Steady cfg U fail t0 ((i, outs) :: h) n'

/-- The amounts in the blocks make sense: they are of transactions none of which pays out more than it takes in, as far as the others tell. -/
def Sane (bs : Block → Prop) : Prop :=
  ∃ K : List Transaction, (∀ tx ∈ K, tx.outputs.length ≤ 2 ^ 32 ∧ Fees.Honest K tx) ∧ ∀ b, bs b → ∀ tx ∈ b.txs, tx ∈ K

/-- The invariant. -/
structure Safe (cfg : Cfg) (U : Header → Prop) (fail : Bool) (t0 : Chain.State) (S : Block → Prop) (n : Fsm) : Prop where
  sync : ∃ h, Sync.Run cfg.sync U fail (fun _ _ => True) t0 h n.sync n.tree
  inv : ∃ h, Inv.Run cfg.cbf.checked h n.inv ∧ ∀ b k outs, (Inv.Op.block b k, outs) ∈ h → S b
  cbf : Cbf.Sound (view cfg n.tree) n.cbf

variable {S S' : Block → Prop}

theorem Safe.mono (s : Safe cfg U fail t0 S n) (hS : ∀ b, S b → S' b) : Safe cfg U fail t0 S' n := by
  obtain ⟨hi, h1, h2⟩ := s.inv
  exact ⟨s.sync, ⟨hi, h1, fun b k o hb => hS b (h2 b k o hb)⟩, s.cbf⟩

theorem Sound.retree {t t' : Cbf.Tree} {m : Cbf.Mgr} (s : Cbf.Sound t m) (h : t.hashes.length ≤ t'.hashes.length) : Cbf.Sound t' m :=
  ⟨s.cacheOK, s.store, Nat.lt_of_lt_of_le s.height h⟩

theorem Safe.callSync (s : Safe cfg U fail t0 S n) {op : Sync.Op} (l : op.Legal U fail) (e : n.callSync cfg op = .ok n')
    (hl : n.tree.chain.length ≤ n'.tree.chain.length) : Safe cfg U fail t0 S n' := by
  obtain ⟨m, t, hs, rfl⟩ := callSync_ok e
  obtain ⟨hh, hr⟩ := s.sync
  exact ⟨⟨_, .step hr l trivial hs⟩, s.inv, Sound.retree s.cbf (by simpa [view] using hl)⟩

theorem Safe.callInv (s : Safe cfg U fail t0 S n) {op : Inv.Op} (l : op.Legal) (hS : ∀ b k, op = .block b k → S b) (e : n.callInv cfg op = .ok n') :
    Safe cfg U fail t0 S n' := by
  obtain ⟨m, hs, rfl⟩ := callInv_ok e
  obtain ⟨hi, h1, h2⟩ := s.inv
  refine ⟨s.sync, ⟨_, .step h1 l hs, fun b k o hb => ?_⟩, s.cbf⟩
  rcases List.mem_cons.1 hb with hb | hb
  · simp only [Prod.mk.injEq] at hb
    exact hS b k hb.1.symm
  · exact h2 b k o hb

theorem Safe.requestBlocks (ks : List Nat) (s : Safe cfg U fail t0 S n) : ∃ n', Fsm.requestBlocks cfg ks n = .ok n' ∧ Safe cfg U fail t0 S n' ∧ n'.tree = n.tree := by
  induction ks generalizing n with
  | nil => exact ⟨n, rfl, s, rfl⟩
  | cons k ks ih =>
    have h1 : ∃ n1, n.callInv cfg (.getBlock k) = .ok n1 := ⟨_, rfl⟩
    obtain ⟨n1, h1⟩ := h1
    obtain ⟨n', h2, h3, h4⟩ := ih (s.callInv (op := .getBlock k) trivial (by simp) h1)
    refine ⟨n', by simp only [Fsm.requestBlocks, h1, Res.ok_bind, h2], h3, ?_⟩
    obtain ⟨m, -, rfl⟩ := callInv_ok h1
    exact h4

/-- If the filter manager does not panic, nor does the call. -/
theorem Safe.callCbf (s : Safe cfg U fail t0 S n) {env : Cbf.Env} {b : Option Block} {op : Cbf.Op} {c : Cbf.Mgr}
    (e : n.cbf.step cfg.cbf env (view cfg n.tree) op = .ok c) (hs : Cbf.Sound (view cfg n.tree) c) :
    ∃ n', n.callCbf cfg env b op = .ok n' ∧ Safe cfg U fail t0 S n' ∧ n'.tree = n.tree := by
  unfold Fsm.callCbf
  simp only [e]
  exact Safe.requestBlocks _ (n := { n with cbf := c, qCbf := _, log := _ }) ⟨s.sync, s.inv, hs⟩

theorem cbf_never_err {m : Cbf.Mgr} {env : Cbf.Env} {t : Cbf.Tree} (s : Cbf.Sound t m) {op : Cbf.Op} (hr : op.reverts = false) {u : Unit} :
    m.step cfg.cbf env t op ≠ .err u := by
  intro h
  cases op with
  | init =>
    obtain ⟨m', hm'⟩ := Cbf.idle_ok (E := Unit) cfg.cbf env t m s.height
    simp [Cbf.Mgr.step, hm'] at h
  | peerNegotiated addr ob hf pers =>
    simp only [Cbf.Mgr.step] at h
    split at h
    · cases h
    · split at h
      · cases h
      · obtain ⟨m', hm'⟩ := Cbf.sync_ok (E := Unit) cfg.cbf env t { m with peers := m.peers.insert addr pers } s.height
        rw [hm'] at h; cases h
  | headersImported reverted =>
    cases reverted with
    | cons => cases hr
    | nil =>
      obtain ⟨m', hm'⟩ := Cbf.sync_ok (E := Unit) cfg.cbf env t m s.height
      simp [Cbf.Mgr.step, hm'] at h
  | timer =>
    obtain ⟨m', hm'⟩ := Cbf.idle_ok (E := Unit) cfg.cbf env t m s.height
    simp only [Cbf.Mgr.step, Cbf.Mgr.timerExpired, hm', Res.ok_bind] at h
    split at h
    · split at h
      · split at h <;> cases h
      · cases h
    · cases h
  | blockProcessed => simp only [Cbf.Mgr.step] at h; split at h <;> cases h
  | cfheaders => simp only [Cbf.Mgr.step] at h; split at h <;> cases h
  | getcfheaders => simp only [Cbf.Mgr.step] at h; split at h <;> cases h
  | cfilter => simp only [Cbf.Mgr.step] at h; split at h <;> cases h
  | rescan => simp only [Cbf.Mgr.step] at h; split at h <;> cases h
  | getCFilters => simp only [Cbf.Mgr.step] at h; split at h <;> cases h
  | _ => cases h

/-- An operation of the filter manager that is none of those that can panic. -/
theorem Safe.callCbf' (s : Safe cfg U fail t0 S n) (hc : cfg.cbf.checked = false) {env : Cbf.Env} (hf : env.fail = false) (hlen : n.tree.chain.length < 2 ^ 64)
    {b : Option Block} {op : Cbf.Op}
    (h1 : ∀ x y, op = .getCFilters x y → x ≤ y → n.cbf.filters.height < y → n.cbf.peers = [])
    (h2 : ∀ a msg, op = .cfheaders a msg → n.cbf.rescan.active = true → n.cbf.peers ≠ []) :
    ∃ n', n.callCbf cfg env b op = .ok n' ∧ Safe cfg U fail t0 S n' ∧ n'.tree = n.tree := by
  by_cases hr : op.reverts = false
  · cases hs : n.cbf.step cfg.cbf env (view cfg n.tree) op with
    | ok c => exact s.callCbf hs (s.cbf.step cfg.cbf env op hf hr hs)
    | err u => exact absurd hs (cbf_never_err s.cbf hr)
    | panic =>
      exfalso
      rcases Cbf.no_crash_sound cfg.cbf s.cbf env op hr (by simpa [view, Cbf.u64] using hlen) hs with ⟨x, y, ho, k1, k2, k3⟩ | ⟨_, _, _, k⟩ | ⟨a, msg, ho, k1, k2⟩ | ⟨_, _, _, _, _, _, _, k⟩
      · exact k3 (h1 x y ho k1 k2)
      · rw [hc] at k; cases k
      · exact h2 a msg ho k1 k2
      · rw [hc] at k; cases k
  · cases op with
    | headersImported reverted =>
      obtain ⟨c, k1, k2⟩ := Cbf.reverts_sound cfg.cbf s.cbf env hf hc reverted
      exact s.callCbf k1 k2
    | _ => exact absurd rfl hr

/-- What happened did not make it unsafe. -/
theorem Safe.calledCbf (s : Safe cfg U fail t0 S n) (hc : cfg.cbf.checked = false) {env : Cbf.Env} (hf : env.fail = false) {b : Option Block} {op : Cbf.Op}
    (e : n.callCbf cfg env b op = .ok n') : Safe cfg U fail t0 S n' := by
  obtain ⟨c, hs, -⟩ := callCbf_ok e
  have hS : Cbf.Sound (view cfg n.tree) c := by
    by_cases hr : op.reverts = false
    · exact s.cbf.step cfg.cbf env op hf hr hs
    · cases op with
      | headersImported reverted =>
        obtain ⟨c', k1, k2⟩ := Cbf.reverts_sound cfg.cbf s.cbf env hf hc reverted
        rw [k1] at hs; cases hs; exact k2
      | _ => exact absurd rfl hr
  obtain ⟨n1, k1, k2, -⟩ := s.callCbf (b := b) hs hS
  rw [k1] at e; cases e; exact k2

theorem Safe.step (hc : cfg.cbf.checked = false) {e : Env} {i : Input} {outs : List Out} (s : Safe cfg U fail t0 (fun b => Sent b h) n) (l : Legal U fail e i)
    (hf : e.cbf.fail = false) (hs : n.step cfg e i = .ok n') (hl : n.tree.chain.length ≤ n'.tree.chain.length) :
    Safe cfg U fail t0 (fun b => Sent b ((i, outs) :: h)) n' := by
  have none : ∀ p ∈ ([] : List (Header × Chain.Env)), U p.1 ∧ Chain.EnvOk fail p.2 := by simp
  have s := s.mono (S' := fun b => Sent b ((i, outs) :: h)) (fun b ⟨o, hb⟩ => ⟨o, List.mem_cons_of_mem _ hb⟩)
  cases i with
  | init =>
    simp only [Fsm.step] at hs
    rw [Res.bind_eq_ok] at hs
    obtain ⟨n1, h1, h2⟩ := hs
    exact (s.callSync (by exact ⟨l.sync, none⟩) h1 ((callCbf_log h2).2 ▸ hl)).calledCbf hc hf h2
  | negotiated =>
    simp only [Fsm.step] at hs
    rw [Res.bind_eq_ok] at hs
    obtain ⟨n1, h1, h2⟩ := hs
    rw [Res.bind_eq_ok] at h2
    obtain ⟨n2, h2, h3⟩ := h2
    refine ((s.calledCbf hc hf h1).callInv (op := .negotiated _ _ _ _) trivial (by simp) h2).callSync (by exact ⟨l.sync, none⟩) h3 ?_
    rw [(callInv_log h2).2, (callCbf_log h1).2]; exact hl
  | disconnected =>
    simp only [Fsm.step] at hs
    rw [Res.bind_eq_ok] at hs
    obtain ⟨n1, h1, h2⟩ := hs
    rw [Res.bind_eq_ok] at h2
    obtain ⟨n2, h2, h3⟩ := h2
    refine ((s.calledCbf hc hf h1).callInv (op := .disconnected _) trivial (by simp) h2).callSync (by exact ⟨trivial, none⟩) h3 ?_
    rw [(callInv_log h2).2, (callCbf_log h1).2]; exact hl
  | headers a hs' => exact s.callSync (by exact ⟨l.sync, l.headers⟩) hs hl
  | getheaders => exact s.callSync (by exact ⟨trivial, none⟩) hs hl
  | invs => exact s.callSync (by exact ⟨trivial, none⟩) hs hl
  | block b => exact s.callInv (op := .block _ _) trivial (by rintro _ _ he; cases he; exact ⟨outs, List.mem_cons_self⟩) hs
  | getdata => exact s.callInv (op := .getdata _ _) trivial (by simp) hs
  | cfheaders => exact s.calledCbf hc hf hs
  | getcfheaders => exact s.calledCbf hc hf hs
  | cfilter => exact s.calledCbf hc hf hs
  | timer =>
    simp only [Fsm.step] at hs
    rw [Res.bind_eq_ok] at hs
    obtain ⟨n1, h1, h2⟩ := hs
    rw [Res.bind_eq_ok] at h2
    obtain ⟨n2, h2, h3⟩ := h2
    refine ((s.callInv (op := .timer _ _ _) l.inv (by simp) h1).callSync (by exact ⟨l.sync, none⟩) h2 ?_).calledCbf hc hf h3
    rw [(callInv_log h1).2, ← (callCbf_log h3).2]; exact hl
  | importHeaders hs' => exact s.callSync (by exact ⟨l.sync, l.headers⟩) hs hl
  | requestFilters => exact s.calledCbf hc hf hs
  | requestBlock k => exact s.callInv (op := .getBlock _) trivial (by simp) hs
  | submit t =>
    simp only [Fsm.step] at hs
    rw [Res.bind_eq_ok] at hs
    obtain ⟨n1, h1, h2⟩ := hs
    exact (s.calledCbf hc hf h1).callInv (op := .announce _) trivial (by simp) h2
  | rescan => exact s.calledCbf hc hf hs
  | watch => simp only [Fsm.step] at hs; exact s.calledCbf hc hf hs
  | next =>
    simp only [Fsm.step, Fsm.next] at hs
    split at hs
    · rename_i o q hq
      have s1 : Safe cfg U fail t0 (fun b => Sent b ((Input.next, outs) :: h)) { n with qSync := q } := ⟨s.sync, s.inv, s.cbf⟩
      cases o <;> simp only [Fsm.deliverSync] at hs
      case imported =>
        rw [Res.bind_eq_ok] at hs
        obtain ⟨n1, h1, h2⟩ := hs
        exact (s1.calledCbf hc hf h1).callInv (op := .reverted _) trivial (by simp) h2
      case disconnected => exact s1.calledCbf hc hf hs
      all_goals (cases hs; exact s1)
    · split at hs
      · rename_i o q hq
        have s1 : Safe cfg U fail t0 (fun b => Sent b ((Input.next, outs) :: h)) { n with qInv := q } := ⟨s.sync, s.inv, s.cbf⟩
        cases o <;> simp only [Fsm.deliverInv] at hs
        case processed => exact s1.calledCbf hc hf hs
        case confirmed => exact s1.calledCbf hc hf hs
        case reverted => exact s1.calledCbf hc hf hs
        all_goals (cases hs; exact s1)
      · cases hs; exact ⟨s.sync, s.inv, s.cbf⟩

theorem chain_length (c : Ctx cfg U fail t0 g) {hh : Sync.Hist} (r : Sync.Run cfg.sync U fail (fun _ _ => True) t0 hh n.sync n.tree) :
    n.tree.chain.length = n.tree.height + 1 := by
  have v := Chain.C01_consistent_view c.acyclic c.genesis (Sync.run_reach c.start r)
  have h1 : ∀ k, k < n.tree.chain.length ↔ k ≤ n.tree.height := by
    intro k
    rw [← v.defined k, Chain.State.getByHeight]
    simp
  have := h1 n.tree.height
  have := h1 (n.tree.height + 1)
  omega

theorem Steady.run (r : Steady cfg U fail t0 h n) : Run cfg U fail (fun _ _ _ _ _ => True) t0 h n := by
  induction r with
  | start f cs => exact .start f cs
  | step e r l hf hs ho hl ih => exact .step e ih l hs ho trivial

theorem steady_safe (hc : cfg.cbf.checked = false) (c : Ctx cfg U fail t0 g) (r : Steady cfg U fail t0 h n) : Safe cfg U fail t0 (fun b => Sent b h) n := by
  induction r with
  | start f cs hs hh =>
    have hr : Sync.Run cfg.sync U fail (fun _ _ => True) t0 [] (Fsm.new t0 f cs).sync (Fsm.new t0 f cs).tree := .start
    refine ⟨⟨_, hr⟩, ⟨_, .start, by simp⟩, Cbf.new_cacheOK f cs, hs, ?_⟩
    have := chain_length c hr
    simp only [view, List.length_map, this]
    exact Nat.lt_succ_of_le hh
  | @step h n n' i outs e r l hf hs ho hl ih =>
    obtain ⟨_, k1⟩ := ih.sync
    obtain ⟨_, k2⟩ := (run_parts (.step e r.run l hs ho trivial)).sync
    exact ih.step hc l hf hs (by rw [chain_length c k1, chain_length c k2]; omega)

/-! ## Totality -/

theorem Safe.totalSync (s : Safe cfg U fail t0 S n) (c : Ctx cfg U fail t0 g) (cf : Chain.CollisionFree cfg.sync.chain U) (hc : cfg.sync.chain.checked = false)
    {op : Sync.Op} (l : op.Legal U fail) (hh : n.tree.height < 2 ^ 64) (hh' : (Chain.importBlocks cfg.sync.chain n.tree op.batch).1.height < 2 ^ 64) :
    ∃ n', n.callSync cfg op = .ok n' := by
  obtain ⟨_, r⟩ := s.sync
  obtain ⟨m', t', h1⟩ := Sync.C79_no_panic_partial hc c.acyclic cf c.genesis c.start r l hh hh'
  unfold Fsm.callSync
  rw [h1]
  exact ⟨_, rfl⟩

/-- An operation of the sync manager without headers leaves the tree alone. -/
theorem callSync_tree {op : Sync.Op} (l : op.Legal U fail) (hb : op.batch = []) (e : n.callSync cfg op = .ok n') : n'.tree = n.tree := by
  obtain ⟨m, t, hs, rfl⟩ := callSync_ok e
  rcases Sync.step_imported l hs with rfl | ⟨r, h1, -⟩
  · rfl
  · rw [hb] at h1
    exact (Prod.mk.inj h1).1.symm

theorem Safe.totalInv (s : Safe cfg U fail t0 S n) (hc : cfg.cbf.checked = false) (hS : Sane S) {op : Inv.Op} (l : op.Legal) (hb : ∀ b k, op = .block b k → S b) :
    ∃ n', n.callInv cfg op = .ok n' := by
  obtain ⟨K, hK, hin⟩ := hS
  obtain ⟨hi, r, hsent⟩ := s.inv
  have sent_waiting : ∀ {hi : Inv.Hist}, (∀ b k outs, (Inv.Op.block b k, outs) ∈ hi → S b) → ∀ k d, Inv.Waiting k d hi → S d := by
    intro hi hsent k d hw
    obtain ⟨h1, h2, outs, rfl, -⟩ := Inv.C48_requested hw
    exact hsent d (some k) outs (by simp)
  have known : ∀ {hi : Inv.Hist} {m : Inv.Mgr}, Inv.Run cfg.cbf.checked hi m → (∀ b k outs, (Inv.Op.block b k, outs) ∈ hi → S b) → ∀ tx ∈ Inv.known hi, tx ∈ K := by
    intro hi m r
    induction r with
    | start => intro _ tx hx; cases hx
    | @step h m m' op r l e ih =>
      intro hsent tx hx
      simp only [Inv.known, List.flatMap_cons, List.mem_append] at hx
      rcases hx with hx | hx
      · obtain ⟨⟨k, b⟩, h1, h2⟩ := List.mem_flatMap.1 hx
        obtain ⟨d, j, rfl, -, -, h3⟩ := (Inv.C48_processed r l e k b).1 (Inv.mem_processed.1 h1)
        rcases h3 with ⟨-, rfl⟩ | ⟨-, hw⟩
        · exact hin b (hsent b _ _ List.mem_cons_self) tx h2
        · exact hin b (sent_waiting (fun b k o hb => hsent b k o (List.mem_cons_of_mem _ hb)) k b hw) tx h2
      · exact ih (fun b k o hb => hsent b k o (List.mem_cons_of_mem _ hb)) tx hx
  have safe : op.Safe cfg.cbf.checked hi := by
    cases op with
    | block b k => exact ⟨K, hK, known r hsent, hin b (hb b k rfl), fun k d hw => hin d (sent_waiting hsent k d hw)⟩
    | reverted hs => intro h; rw [hc] at h; cases h
    | timer => intro h; rw [hc] at h; cases h
    | _ => trivial
  obtain ⟨m', h1⟩ := Inv.C74_inventory_partial r l safe
  unfold Fsm.callInv
  rw [h1]
  exact ⟨_, rfl⟩

/-- The input is none of the two that make the filter manager panic: a request for filters above the filter headers, and filter headers that arrive during a rescan while no peer with
filters is connected. -/
def Careful (n : Fsm) : Input → Prop
  | .requestFilters a b => a ≤ b → n.cbf.filters.height < b → n.cbf.peers = []
  | .cfheaders _ _ => n.cbf.rescan.active = true → n.cbf.peers ≠ []
  | _ => True

/-- In a release build, no input makes a state panic that meets the invariant. -/
theorem Safe.total (hc : cfg.sync.chain.checked = false) (hc' : cfg.cbf.checked = false) (c : Ctx cfg U fail t0 g)
    (cf : Chain.CollisionFree cfg.sync.chain U) {e : Env} {i : Input} (s : Safe cfg U fail t0 S n) (l : Legal U fail e i) (hf : e.cbf.fail = false)
    (hh : n.tree.height + 1 < 2 ^ 64) (hh' : (Chain.importBlocks cfg.sync.chain n.tree i.batch).1.height < 2 ^ 64)
    (hb : Sane S) (hib : ∀ b, i = .block b → S b) (hi : Careful n i) : ∃ n', n.step cfg e i = .ok n' := by
  have hlen : n.tree.chain.length < 2 ^ 64 := by
    obtain ⟨_, k⟩ := s.sync
    rw [chain_length c k]; exact hh
  have none : ∀ p ∈ ([] : List (Header × Chain.Env)), U p.1 ∧ Chain.EnvOk fail p.2 := by simp
  have hn : n.tree.height < 2 ^ 64 := by omega
  -- no headers
  have empty : ∀ t : Chain.State, (Chain.importBlocks cfg.sync.chain t []).1 = t := fun _ => rfl
  have lone : ∀ op : Sync.Op, op.Legal U fail → op.batch = i.batch → ∃ n', n.callSync cfg op = .ok n' :=
    fun op lo ho => s.totalSync c cf hc lo hn (by rw [ho]; exact hh')
  have quiet : ∀ {n1 : Fsm}, Safe cfg U fail t0 S n1 → n1.tree = n.tree → ∀ op : Sync.Op, op.Legal U fail → op.batch = [] →
      ∃ n', n1.callSync cfg op = .ok n' := by
    intro n1 s1 ht op lo ho
    exact s1.totalSync c cf hc lo (by rw [ht]; exact hn) (by rw [ho, empty, ht]; exact hn)
  cases i with
  | init =>
    obtain ⟨n1, h1⟩ := quiet s rfl (.init e.sync e.now) ⟨l.sync, none⟩ rfl
    have ht := callSync_tree (U := U) (fail := fail) (op := .init e.sync e.now) ⟨l.sync, none⟩ rfl h1
    obtain ⟨n', h2, -⟩ := (s.callSync (by exact ⟨l.sync, none⟩) h1 (by rw [ht])).callCbf' (b := Option.none) (op := .init) hc' hf (by rw [ht]; exact hlen) (by simp) (by simp)
    exact ⟨n', by simp only [Fsm.step, h1, Res.ok_bind, h2]⟩
  | negotiated a height outbound network filters relay wtxidrelay persistent =>
    obtain ⟨n1, h1, s1, t1⟩ := s.callCbf' (b := Option.none) (op := .peerNegotiated a outbound filters persistent) hc' hf hlen (by simp) (by simp)
    obtain ⟨n2, h2⟩ := s1.totalInv hc' hb (op := .negotiated a network relay wtxidrelay) trivial (by simp)
    obtain ⟨n3, h3⟩ := quiet (s1.callInv (op := .negotiated _ _ _ _) trivial (by simp) h2) ((callInv_log h2).2.trans t1)
      (.negotiated e.sync e.now a height network filters outbound) ⟨l.sync, none⟩ rfl
    exact ⟨n3, by simp only [Fsm.step, h1, Res.ok_bind, h2, h3]⟩
  | disconnected a =>
    obtain ⟨n1, h1, s1, t1⟩ := s.callCbf' (b := Option.none) (op := .peerDisconnected a) hc' hf hlen (by simp) (by simp)
    obtain ⟨n2, h2⟩ := s1.totalInv hc' hb (op := .disconnected a) trivial (by simp)
    obtain ⟨n3, h3⟩ := quiet (s1.callInv (op := .disconnected _) trivial (by simp) h2) ((callInv_log h2).2.trans t1) (.gone a) ⟨trivial, none⟩ rfl
    exact ⟨n3, by simp only [Fsm.step, h1, Res.ok_bind, h2, h3]⟩
  | headers a hs => exact lone (.headers e.sync e.now a hs) ⟨l.sync, l.headers⟩ rfl
  | getheaders a locators => exact lone (.getheaders a locators) ⟨trivial, none⟩ rfl
  | invs a items => exact lone (.inv e.now a items) ⟨trivial, none⟩ rfl
  | block b => exact s.totalInv hc' hb (op := .block _ _) trivial (by rintro _ _ he; cases he; exact hib b rfl)
  | getdata => exact s.totalInv hc' hb (op := .getdata _ _) trivial (by simp)
  | cfheaders a msg =>
    obtain ⟨n1, h1, -⟩ := s.callCbf' (b := Option.none) (op := .cfheaders a msg) hc' hf hlen (by simp) (fun _ _ _ => hi)
    exact ⟨n1, h1⟩
  | getcfheaders a ft start stop =>
    obtain ⟨n1, h1, -⟩ := s.callCbf' (b := Option.none) (op := .getcfheaders a ft start stop) hc' hf hlen (by simp) (by simp)
    exact ⟨n1, h1⟩
  | cfilter a ft block f =>
    obtain ⟨n1, h1, -⟩ := s.callCbf' (b := Option.none) (op := .cfilter a ft block f) hc' hf hlen (by simp) (by simp)
    exact ⟨n1, h1⟩
  | timer =>
    obtain ⟨n1, h1⟩ := s.totalInv hc' hb (op := .timer e.inv e.now n.tree.height) l.inv (by simp)
    have s1 := s.callInv (op := .timer e.inv e.now n.tree.height) l.inv (by simp) h1
    have t1 := (callInv_log h1).2
    obtain ⟨n2, h2⟩ := quiet s1 t1 (.timer e.sync e.now) ⟨l.sync, none⟩ rfl
    have t2 := callSync_tree (U := U) (fail := fail) (op := .timer e.sync e.now) ⟨l.sync, none⟩ rfl h2
    obtain ⟨n3, h3, -⟩ := (s1.callSync (by exact ⟨l.sync, none⟩) h2 (by rw [t2])).callCbf' (b := Option.none) (op := .timer) hc' hf (by rw [t2, t1]; exact hlen)
      (by simp) (by simp)
    exact ⟨n3, by simp only [Fsm.step, h1, Res.ok_bind, h2, h3]⟩
  | importHeaders hs => exact lone (.userImport e.sync hs) ⟨l.sync, l.headers⟩ rfl
  | requestFilters a b =>
    obtain ⟨n1, h1, -⟩ := s.callCbf' (b := Option.none) (op := .getCFilters a b) hc' hf hlen (by rintro _ _ he; cases he; exact hi) (by simp)
    exact ⟨n1, h1⟩
  | requestBlock k => exact s.totalInv hc' hb (op := .getBlock k) trivial (by simp)
  | submit t =>
    obtain ⟨n1, h1, s1, -⟩ := s.callCbf' (b := Option.none) (op := .watchTransaction t.txid (t.outputs.map (·.script))) hc' hf hlen (by simp) (by simp)
    obtain ⟨n2, h2⟩ := s1.totalInv hc' hb (op := .announce t) trivial (by simp)
    exact ⟨n2, by simp only [Fsm.step, h1, Res.ok_bind, h2]⟩
  | rescan a b w =>
    obtain ⟨n1, h1, -⟩ := s.callCbf' (b := Option.none) (op := .rescan a b w) hc' hf hlen (by simp) (by simp)
    exact ⟨n1, h1⟩
  | watch v =>
    obtain ⟨n1, h1, -⟩ := s.callCbf' (b := Option.none) (op := .watch v) hc' hf hlen (by simp) (by simp)
    exact ⟨n1, h1⟩
  | next =>
    simp only [Fsm.step, Fsm.next]
    split
    · rename_i o q hq
      have s1 : Safe cfg U fail t0 S { n with qSync := q } := ⟨s.sync, s.inv, s.cbf⟩
      cases o <;> simp only [Fsm.deliverSync]
      case imported reorg hash height cn rv =>
        obtain ⟨n1, h1, s2, -⟩ := s1.callCbf' (b := Option.none) (op := .headersImported (rv.map (·.1))) hc' hf hlen (by simp) (by simp)
        obtain ⟨n2, h2⟩ := s2.totalInv hc' hb (op := .reverted (rv.map (·.1))) trivial (by simp)
        exact ⟨n2, by simp only [h1, Res.ok_bind, h2]⟩
      case disconnected k x =>
        obtain ⟨n1, h1, -⟩ := s1.callCbf' (b := Option.none) (op := .blockDisconnected k) hc' hf hlen (by simp) (by simp)
        exact ⟨n1, h1⟩
      all_goals exact ⟨_, rfl⟩
    · split
      · rename_i o q hq
        have s1 : Safe cfg U fail t0 S { n with qInv := q } := ⟨s.sync, s.inv, s.cbf⟩
        cases o <;> simp only [Fsm.deliverInv]
        case processed b k f =>
          obtain ⟨n1, h1, -⟩ := s1.callCbf' (b := some b) (op := .blockProcessed b.hash k) hc' hf hlen (by simp) (by simp)
          exact ⟨n1, h1⟩
        case confirmed txid _ _ =>
          obtain ⟨n1, h1, -⟩ := s1.callCbf' (b := Option.none) (op := .txConfirmed txid) hc' hf hlen (by simp) (by simp)
          exact ⟨n1, h1⟩
        case reverted t =>
          obtain ⟨n1, h1, -⟩ := s1.callCbf' (b := Option.none) (op := .txReverted t.txid (t.outputs.map (·.script))) hc' hf hlen (by simp) (by simp)
          exact ⟨n1, h1⟩
        all_goals exact ⟨_, rfl⟩
      · exact ⟨_, rfl⟩

/-- **C102.** In a release build, no input makes the state machine panic, whatever happened before, if the active chain never became shorter, the filter store did not fail, heights fit
in 64 bits, the amounts in the blocks received make sense, and the input is not one of two that do make it panic.  (Missing: what these conditions
exclude; see the counterexamples named in the note.) -/
theorem C102_no_crash_partial (hc : cfg.sync.chain.checked = false) (hc' : cfg.cbf.checked = false) (c : Ctx cfg U fail t0 g)
    (cf : Chain.CollisionFree cfg.sync.chain U) (r : Steady cfg U fail t0 h n) {e : Env} {i : Input} (l : Legal U fail e i) (hf : e.cbf.fail = false)
    (hh : n.tree.height + 1 < 2 ^ 64) (hh' : (Chain.importBlocks cfg.sync.chain n.tree i.batch).1.height < 2 ^ 64)
    (hb : Sane (fun b => Sent b h ∨ i = .block b)) (hi : Careful n i) : ∃ n', n.step cfg e i = .ok n' := by
  exact ((steady_safe hc' c r).mono (S' := fun b => Sent b h ∨ i = .block b) (fun _ => .inl)).total hc hc' c cf l hf hh hh' hb (fun _ => .inr) hi

end Verif.Node
