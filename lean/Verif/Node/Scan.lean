import Verif.Node.Runs

/-!
# The state machine: scanning filters
-/

set_option autoImplicit false

namespace Verif.Node
open Verif.Tx (Block Transaction)
open Verif.Chain (Header)
open Verif.Cbf (Quiet Params Tree Mgr Op Ev Rescan Matches Committed)

/-! ## Calls of the filter manager -/

/-- Filters scanned, by the outputs of the filter manager. -/
def scansC (o : List Cbf.Out) : List (Nat × Nat × Bool) :=
  o.filterMap (fun x => match x with | .event (.filterProcessed k h _ mt _) => some (h, k, mt) | _ => none)

theorem scans_append (a b : List Out) : scans (a ++ b) = scans a ++ scans b := by simp [scans]

theorem scansC_append (a b : List Cbf.Out) : scansC (a ++ b) = scansC a ++ scansC b := by simp [scansC]

theorem scans_inv (l : List Inv.Out) : scans (l.map .inv) = [] := by
  induction l with
  | nil => rfl
  | cons a l _ => simp [scans]

theorem scans_sync (l : List Sync.Out) : scans (l.map .sync) = [] := by
  induction l with
  | nil => rfl
  | cons a l _ => simp [scans]

theorem scans_label (b : Option Block) (o : List Cbf.Out) : scans (o.filterMap (label b)) = scansC o := by
  induction o with
  | nil => rfl
  | cons x o ih =>
    rw [show x :: o = [x] ++ o from rfl, scansC_append, List.filterMap_append, scans_append, ih]
    congr 1
    cases b <;> cases x with
    | event ev => cases ev <;> rfl
    | _ => rfl

theorem found_scans (l : List Out) : found l = (scans l).filterMap (fun x => if x.2.2 = true then some (x.1, x.2.1) else none) := by
  induction l with
  | nil => rfl
  | cons x l ih =>
    rw [show x :: l = [x] ++ l from rfl, found_append, scans_append, List.filterMap_append, ih]
    congr 1
    cases x with
    | cbf c =>
      cases c with
      | event ev =>
        cases ev with
        | filterProcessed k h v mt c => cases mt <;> rfl
        | _ => rfl
      | _ => rfl
    | _ => rfl

theorem heights_scansC (o : List Cbf.Out) : (scansC o).map (·.1) = Cbf.processedHeights o := by
  induction o with
  | nil => rfl
  | cons x o ih =>
    rw [show x :: o = [x] ++ o from rfl, scansC_append, List.map_append, Cbf.processedHeights_append, ih]
    congr 1
    cases x with
    | event ev => cases ev <;> rfl
    | _ => rfl

/-- The watch list is changed only by the commands to watch and to rescan. -/
theorem step_watch (p : Params) (e : Cbf.Env) (t : Tree) {m m' : Mgr} {op : Op} (h : m.step p e t op = .ok m') (hp : op.plain = true)
    (hw : ∀ s, op ≠ .watch s) : m'.rescan.watch = m.rescan.watch := by
  have quiet : ∀ {a b : Mgr}, Quiet t a b → b.rescan.watch = a.rescan.watch := fun q => by rw [q.rescan]
  cases op with
  | init => exact quiet (Cbf.quiet_idle p e t m m' h)
  | peerNegotiated addr ob hf pers =>
    simp only [Mgr.step] at h
    split at h
    · cases h; rfl
    · split at h
      · cases h; rfl
      · exact (quiet (a := { m with peers := m.peers.insert addr pers }) (Cbf.quiet_sync p e t _ m' h)).trans rfl
  | peerDisconnected addr => cases h; rfl
  | blockProcessed block height =>
    simp only [Mgr.step] at h
    split at h <;> (cases h; rfl)
  | blockDisconnected height => cases h; rfl
  | headersImported reverted =>
    have : reverted = [] := by simpa [Op.plain] using hp
    subst this
    exact quiet (Cbf.quiet_sync p e t m m' h)
  | txConfirmed txid => cases h; rfl
  | txReverted txid scripts => cases h; rfl
  | cfheaders peer msg =>
    obtain ⟨m0, o, h1, h2, h3, _, h5, q⟩ := Cbf.receivedCFHeaders_frame p e t m msg
    have q' : m0.rescan.watch = m.rescan.watch := by rw [q.rescan]
    simp only [Mgr.step] at h
    generalize m.receivedCFHeaders p e t msg = g at h h1 h2
    obtain ⟨g1, g2⟩ := g
    simp only at h1
    cases g2 with
    | ok n => cases h; rw [h1]; exact q'
    | err er =>
      cases er
      · cases h; rw [h1]; exact q'
      · cases h; simp only [Mgr.emit]; rw [h1]; exact q'
      · cases h; simp only [Mgr.emit]; rw [h1]; exact q'
    | panic => cases h
  | getcfheaders peer ft start stop =>
    have hcc := Cbf.receivedGetCFHeaders_frame p t m peer ft start stop
    simp only [Mgr.step] at h
    generalize m.receivedGetCFHeaders p t peer ft start stop = g at h hcc
    obtain ⟨g1, g2⟩ := g
    have hf : g1.rescan.watch = m.rescan.watch := by
      rcases hcc with rfl | ⟨_, _, rfl⟩ <;> rfl
    cases g2 with
    | ok n => cases h; exact hf
    | err er => cases er <;> (cases h; exact hf)
    | panic => cases h
  | cfilter peer ft block f =>
    have hcc := Cbf.receivedCFilter_cases p e t m peer ft block f
    simp only [Mgr.step] at h
    generalize m.receivedCFilter p e t peer ft block f = g at h hcc
    cases hcc with
    | ignored hi => cases h; rfl
    | invalid hh h0 h1 h2 h3 => cases h; rfl
    | unsolicited hh h0 h1 h2 h3 =>
      cases h
      rw [(Cbf.afterFilter_frame _ _).1]; rfl
    | scanned hh c r ms es n h0 h1 h2 h3 h4 h5 =>
      obtain ⟨_, p2, _⟩ := Cbf.process_facts p _ h5
      cases h
      rw [(Cbf.afterFilter_frame _ _).1]
      exact p2
    | panicked m' hh hp => simp at h
  | timer => exact quiet (Cbf.quiet_timerExpired p e t m m' h)
  | watch scripts => exact absurd rfl (hw scripts)
  | watchTransaction txid scripts => cases h; rfl
  | rescan start stop w => simp [Op.plain] at hp
  | getCFilters start stop =>
    have hqq := Cbf.quiet_getCFilters e t m start stop
    simp only [Mgr.step] at h
    generalize m.getCFilters e t start stop = g at h hqq
    obtain ⟨g1, g2⟩ := g
    cases g2 <;> simp at h <;> (subst h; exact quiet hqq)

theorem rescan_watch (p : Params) (e : Cbf.Env) (t : Tree) {m m' : Mgr} {a b : Cbf.Bound} {w : List Nat}
    (h : m.step p e t (.rescan a b w) = .ok m') : m'.rescan.watch = w := by
  have hcc := Cbf.startRescan_cases p e t m a b w
  simp only [Mgr.step] at h
  generalize m.startRescan p e t a b w = g at h hcc
  cases hcc with
  | panicked m' => simp at h
  | nothing st _ => cases h; rfl
  | processed st m1 r ms es n _ q hp =>
    obtain ⟨_, p2, _⟩ := Cbf.process_facts p _ hp
    cases h
    show r.watch = w
    rw [p2, q.rescan]
    rfl

/-! ## Progress of a scan -/

variable {cfg : Cfg} {U : Header → Prop} {fail : Bool} {t0 : Chain.State} {n n' n'' : Fsm} {g : Header} {S : Block → Prop} {A : Nat → Prop} {T : AMap Nat (List Nat) → Prop}

/-- A filter scanned: the block is on the active chain, the filter is the one committed to, and it was matched against the scripts `w` (and the outputs of
transactions as `T` says). -/
def Scanned (cfg : Cfg) (w : List Nat) (T : AMap Nat (List Nat) → Prop) (n : Fsm) (x : Nat × Nat × Bool) : Prop :=
  (view cfg n.tree).byHeight x.1 = some x.2.1 ∧
    ∃ f txs, T txs ∧ Committed cfg.cbf n.cbf.filters.all x.1 f ∧ (x.2.2 = true ↔ Matches cfg.cbf w txs f x.2.1)

/-- From `n` to `n'`, starting at the height `a`, filters are scanned in order. -/
structure Goes (cfg : Cfg) (w : List Nat) (T : AMap Nat (List Nat) → Prop) (a : Nat) (n n' : Fsm) : Prop where
  le : a ≤ n'.cbf.rescan.current
  out : ∃ d, n'.log = n.log ++ d ∧ (scans d).map (·.1) = List.range' a (n'.cbf.rescan.current - a) ∧ ∀ x ∈ scans d, Scanned cfg w T n' x
  watch : n'.cbf.rescan.watch = w
  keep : ∀ h k, (view cfg n.tree).byHeight h = some k → (view cfg n'.tree).byHeight h = some k
  grow : ∃ ext, n'.cbf.filters.all = n.cbf.filters.all ++ ext

theorem Scanned.later {w : List Nat} {x : Nat × Nat × Bool} (s : Scanned cfg w T n x)
    (keep : ∀ h k, (view cfg n.tree).byHeight h = some k → (view cfg n'.tree).byHeight h = some k)
    (grow : ∃ ext, n'.cbf.filters.all = n.cbf.filters.all ++ ext) : Scanned cfg w T n' x := by
  obtain ⟨h1, f, txs, hT, h2, h3⟩ := s
  obtain ⟨ext, hx⟩ := grow
  exact ⟨keep _ _ h1, f, txs, hT, hx ▸ h2.append, h3⟩

theorem Goes.trans {w : List Nat} {a : Nat} (h1 : Goes cfg w T a n n') (h2 : Goes cfg w T n'.cbf.rescan.current n' n'') : Goes cfg w T a n n'' := by
  obtain ⟨d1, x1, x2, x3⟩ := h1.out
  obtain ⟨d2, y1, y2, y3⟩ := h2.out
  have l1 := h1.le
  have l2 := h2.le
  refine ⟨l1.trans l2, ⟨d1 ++ d2, by rw [y1, x1, List.append_assoc], ?_, ?_⟩, h2.watch, fun h k hk => h2.keep h k (h1.keep h k hk), ?_⟩
  · rw [scans_append, List.map_append, x2, y2]
    have : List.range' a (n''.cbf.rescan.current - a) = List.range' a ((n'.cbf.rescan.current - a) + (n''.cbf.rescan.current - n'.cbf.rescan.current)) := by
      congr 1; omega
    rw [this, ← List.range'_append_1]
    congr 2; omega
  · intro x hx
    rw [scans_append] at hx
    rcases List.mem_append.1 hx with hx | hx
    · exact (x3 x hx).later h2.keep h2.grow
    · exact y3 x hx
  · obtain ⟨e1, z1⟩ := h1.grow
    obtain ⟨e2, z2⟩ := h2.grow
    exact ⟨e1 ++ e2, by rw [z2, z1, List.append_assoc]⟩

theorem Goes.nothing {w : List Nat} (hw : n'.cbf.rescan.watch = w) (hc : n'.cbf.rescan.current = n.cbf.rescan.current)
    (ho : ∃ d, n'.log = n.log ++ d ∧ scans d = []) (keep : ∀ h k, (view cfg n.tree).byHeight h = some k → (view cfg n'.tree).byHeight h = some k)
    (grow : ∃ ext, n'.cbf.filters.all = n.cbf.filters.all ++ ext) : Goes cfg w T n.cbf.rescan.current n n' := by
  obtain ⟨d, h1, h2⟩ := ho
  exact ⟨Nat.le_of_eq hc.symm, ⟨d, h1, by rw [h2, hc]; simp, by simp [h2]⟩, hw, keep, grow⟩

theorem Goes.refl {w : List Nat} (hw : n.cbf.rescan.watch = w) : Goes cfg w T n.cbf.rescan.current n n :=
  .nothing hw rfl ⟨[], by simp, rfl⟩ (fun _ _ h => h) ⟨[], by simp⟩

theorem goes_callInv {w : List Nat} {op : Inv.Op} (hw : n.cbf.rescan.watch = w) (e : n.callInv cfg op = .ok n') :
    Goes cfg w T n.cbf.rescan.current n n' := by
  obtain ⟨m, _, rfl⟩ := callInv_ok e
  exact .nothing hw rfl ⟨_, rfl, scans_inv _⟩ (fun _ _ h => h) ⟨[], by simp⟩

theorem goes_callSync {w : List Nat} {op : Sync.Op} (hw : n.cbf.rescan.watch = w) (e : n.callSync cfg op = .ok n')
    (hp : n.tree.chain <+: n'.tree.chain) : Goes cfg w T n.cbf.rescan.current n n' := by
  obtain ⟨m, t, _, rfl⟩ := callSync_ok e
  refine .nothing hw rfl ⟨_, rfl, scans_sync _⟩ ?_ ⟨[], by simp⟩
  have hpre : (view cfg n.tree).hashes <+: (view cfg t).hashes := by
    simp only [view]; exact hp.map _
  intro h k hk
  obtain ⟨ext, hx⟩ := hpre
  simp only [Cbf.Tree.byHeight] at hk ⊢
  rw [← hx, List.getElem?_append_left (List.getElem?_eq_some_iff.1 hk).1]
  exact hk

theorem callInv_cbf {op : Inv.Op} (e : n.callInv cfg op = .ok n') : n'.cbf = n.cbf := by
  obtain ⟨m, _, rfl⟩ := callInv_ok e; rfl

theorem callSync_cbf {op : Sync.Op} (e : n.callSync cfg op = .ok n') : n'.cbf = n.cbf := by
  obtain ⟨m, t, _, rfl⟩ := callSync_ok e; rfl

theorem called_scans {env : Cbf.Env} {b : Option Block} {op : Op} (e : n.callCbf cfg env b op = .ok n') :
    n.cbf.step cfg.cbf env (view cfg n.tree) op = .ok n'.cbf ∧ n'.tree = n.tree ∧
      ∃ d, n'.log = n.log ++ d ∧ scans d = scansC (n'.cbf.out.drop n.cbf.out.length) := by
  obtain ⟨c, hs, hr⟩ := callCbf_ok e
  have a := requestBlocks_asks _ hr
  obtain ⟨l, x1, _, _⟩ := a.log
  refine ⟨by rw [a.cbf]; exact hs, a.tree, (c.out.drop n.cbf.out.length).filterMap (label b) ++ l.map .inv, by rw [x1, List.append_assoc], ?_⟩
  rw [scans_append, scans_inv, scans_label, List.append_nil, a.cbf]

/-- What a call of the filter manager scans. -/
theorem goes_of {env : Cbf.Env} {b : Option Block} {op : Op} {w : List Nat} {a : Nat} (hf : Cbf.Fits cfg.cbf (view cfg n.tree) n.cbf)
    (e : n.callCbf cfg env b op = .ok n') (hr : op.reverts = false) (hw : n'.cbf.rescan.watch = w) (hT : T n'.cbf.rescan.transactions) (hle : a ≤ n'.cbf.rescan.current)
    (ho : Cbf.processedHeights n'.cbf.out = Cbf.processedHeights n.cbf.out ++ List.range' a (n'.cbf.rescan.current - a)) :
    Goes cfg w T a n n' := by
  obtain ⟨hs, ht, d, hd, hsc⟩ := called_scans e
  obtain ⟨o, h1, h2⟩ := (Cbf.step_facts cfg.cbf env _ n.cbf n'.cbf op hs hf.cacheOK).out
  have hdrop : n'.cbf.out.drop n.cbf.out.length = o := by rw [h1]; simp
  rw [hdrop] at hsc
  have hgrow := Cbf.step_grow cfg.cbf env _ n.cbf n'.cbf op hs hr
  refine ⟨hle, ⟨d, hd, ?_, ?_⟩, hw, by rw [ht]; exact fun _ _ h => h, hgrow⟩
  · rw [hsc, heights_scansC]
    rw [h1, Cbf.processedHeights_append] at ho
    exact List.append_cancel_left ho
  · rintro ⟨h, k, mt⟩ hx
    rw [hsc, scansC, List.mem_filterMap] at hx
    obtain ⟨y, hy, he⟩ := hx
    split at he
    · rename_i k' h' v mt' c'
      simp only [Option.some.injEq, Prod.mk.injEq] at he
      obtain ⟨rfl, rfl, rfl⟩ := he
      obtain ⟨f, hsrc, hm⟩ := h2 _ _ _ _ _ (List.mem_filterMap.2 ⟨_, hy, rfl⟩)
      obtain ⟨h3, h4⟩ := hf.source cfg.cbf hsrc
      obtain ⟨ext, hx⟩ := hgrow
      refine ⟨by rw [ht]; exact h3, f, n'.cbf.rescan.transactions, hT, hx ▸ h4.append, ?_⟩
      rw [hm, hw]
    · cases he

theorem goes_callCbf {env : Cbf.Env} {b : Option Block} {op : Op} {w : List Nat} (hf : Cbf.Fits cfg.cbf (view cfg n.tree) n.cbf)
    (e : n.callCbf cfg env b op = .ok n') (hp : op.plain = true) (hn : ∀ s, op ≠ .watch s) (hw : n.cbf.rescan.watch = w)
    (hT : T n'.cbf.rescan.transactions) : Goes cfg w T n.cbf.rescan.current n n' := by
  have hr : op.reverts = false := by
    cases op <;> first | rfl | (simp only [Op.plain] at hp; simp [Op.reverts, hp])
  obtain ⟨hs, _⟩ := called_scans e
  obtain ⟨h1, h2⟩ := Cbf.step_order cfg.cbf env _ n.cbf n'.cbf op hs hp
  exact goes_of hf e hr (by rw [step_watch _ _ _ hs hp hn, hw]) hT h1 h2

theorem goes_rescan {env : Cbf.Env} {a b : Cbf.Bound} {w : List Nat} (hf : Cbf.Fits cfg.cbf (view cfg n.tree) n.cbf)
    (e : n.callCbf cfg env none (.rescan a b w) = .ok n')
    (hT : T n'.cbf.rescan.transactions) : Goes cfg w T (a.first (view cfg n.tree)) n n' := by
  obtain ⟨hs, _⟩ := called_scans e
  obtain ⟨h1, h2⟩ := Cbf.rescan_order cfg.cbf env _ n.cbf n'.cbf a b w hs
  exact goes_of hf e rfl (rescan_watch _ _ _ hs) hT h1 h2

/-- Inputs other than the commands to rescan and to watch. -/
theorem goes_step {h : Hist} {e : Env} {i : Input} {outs : List Out} {w : List Nat} (j : J cfg U fail t0 S A n)
    (l : Legal U fail e i) (hs : n.step cfg e i = .ok n') (p : Calm h n i n' outs) (ho : n'.log = n.log ++ outs)
    (hi : ∀ a b v, i ≠ .rescan a b v) (hi' : ∀ v, i ≠ .watch v) (hw : n.cbf.rescan.watch = w)
    (hT : T n'.cbf.rescan.transactions) : Goes cfg w T n.cbf.rescan.current n n' := by
  have none : ∀ p ∈ ([] : List (Header × Chain.Env)), U p.1 ∧ Chain.EnvOk fail p.2 := by simp
  cases i with
  | init =>
    simp only [Fsm.step] at hs
    rw [Res.bind_eq_ok] at hs
    obtain ⟨n1, h1, h2⟩ := hs
    obtain ⟨⟨d2, x2⟩, t2⟩ := callCbf_log h2
    have hc : n.tree.chain <+: n1.tree.chain := t2 ▸ p.chain
    have j1 : J cfg U fail t0 _ _ n1 := j.callSync' (by exact ⟨l.sync, none⟩) h1 hc fun d hd o hod =>
      p.quiet o (by rw [List.append_cancel_left (ho.symm.trans (x2.trans (by rw [hd, List.append_assoc])))]; exact List.mem_append_left _ hod)
    have g1 := goes_callSync (T := T) hw h1 hc
    exact g1.trans (goes_callCbf j1.fits h2 rfl (by simp) g1.watch hT)
  | negotiated =>
    simp only [Fsm.step] at hs
    rw [Res.bind_eq_ok] at hs
    obtain ⟨n1, h1, h2⟩ := hs
    rw [Res.bind_eq_ok] at h2
    obtain ⟨n2, h2, h3⟩ := h2
    obtain ⟨⟨d1, x1⟩, t1⟩ := callCbf_log h1
    obtain ⟨⟨d2, x2⟩, t2⟩ := callInv_log h2
    have g1 := goes_callCbf (T := T) j.fits h1 rfl (by simp) hw (by rw [← callInv_cbf h2, ← callSync_cbf h3]; exact hT)
    have g2 := g1.trans (goes_callInv g1.watch h2)
    exact g2.trans (goes_callSync g2.watch h3 (by rw [t2, t1]; exact p.chain))
  | disconnected =>
    simp only [Fsm.step] at hs
    rw [Res.bind_eq_ok] at hs
    obtain ⟨n1, h1, h2⟩ := hs
    rw [Res.bind_eq_ok] at h2
    obtain ⟨n2, h2, h3⟩ := h2
    obtain ⟨⟨d1, x1⟩, t1⟩ := callCbf_log h1
    obtain ⟨⟨d2, x2⟩, t2⟩ := callInv_log h2
    have g1 := goes_callCbf (T := T) j.fits h1 rfl (by simp) hw (by rw [← callInv_cbf h2, ← callSync_cbf h3]; exact hT)
    have g2 := g1.trans (goes_callInv g1.watch h2)
    exact g2.trans (goes_callSync g2.watch h3 (by rw [t2, t1]; exact p.chain))
  | headers a hs' => exact goes_callSync hw hs p.chain
  | getheaders => exact goes_callSync hw hs p.chain
  | invs => exact goes_callSync hw hs p.chain
  | block b => exact goes_callInv hw hs
  | getdata => simp only [Fsm.step] at hs; exact goes_callInv hw hs
  | cfheaders => exact goes_callCbf j.fits hs rfl (by simp) hw hT
  | getcfheaders => exact goes_callCbf j.fits hs rfl (by simp) hw hT
  | cfilter => exact goes_callCbf j.fits hs rfl (by simp) hw hT
  | timer =>
    simp only [Fsm.step] at hs
    rw [Res.bind_eq_ok] at hs
    obtain ⟨n1, h1, h2⟩ := hs
    rw [Res.bind_eq_ok] at h2
    obtain ⟨n2, h2, h3⟩ := h2
    obtain ⟨⟨d1, x1⟩, t1⟩ := callInv_log h1
    obtain ⟨⟨d3, x3⟩, t3⟩ := callCbf_log h3
    have hc : n1.tree.chain <+: n2.tree.chain := by rw [t1, ← t3]; exact p.chain
    have j1 := j.callInv (op := .timer _ _ _) l.inv rfl h1
    have j2 : J cfg U fail t0 _ _ n2 := j1.callSync' (by exact ⟨l.sync, none⟩) h2 hc fun d hd o hod => by
      refine p.quiet o ?_
      rw [List.append_cancel_left (ho.symm.trans (show n'.log = n.log ++ (d1 ++ (d ++ d3)) by rw [x3, hd, x1]; simp))]
      exact List.mem_append_right _ (List.mem_append_left _ hod)
    have g1 := goes_callInv (T := T) hw h1
    have g2 := g1.trans (goes_callSync g1.watch h2 hc)
    exact g2.trans (goes_callCbf j2.fits h3 rfl (by simp) g2.watch hT)
  | importHeaders hs' => exact goes_callSync hw hs p.chain
  | requestFilters => exact goes_callCbf j.fits hs rfl (by simp) hw hT
  | requestBlock k => simp only [Fsm.step] at hs; exact goes_callInv hw hs
  | submit t =>
    simp only [Fsm.step] at hs
    rw [Res.bind_eq_ok] at hs
    obtain ⟨n1, h1, h2⟩ := hs
    have g1 := goes_callCbf (T := T) j.fits h1 rfl (by simp) hw (by rw [← callInv_cbf h2]; exact hT)
    exact g1.trans (goes_callInv g1.watch h2)
  | rescan a b v => exact absurd rfl (hi a b v)
  | watch v => exact absurd rfl (hi' v)
  | next =>
    simp only [Fsm.step, Fsm.next] at hs
    split at hs
    · rename_i o q hq
      have ho := j.qSync o (by rw [hq]; exact List.mem_cons_self ..)
      cases o with
      | disconnected => exact absurd trivial ho
      | imported a b c d r =>
        have hr : r = [] := by_contra ho
        subst hr
        simp only [Fsm.deliverSync] at hs
        rw [Res.bind_eq_ok] at hs
        obtain ⟨n1, h1, h2⟩ := hs
        have g1 := goes_callCbf (T := T) (n := { n with qSync := q }) j.fits h1 rfl (by simp) hw (by rw [← callInv_cbf h2]; exact hT)
        have g2 := g1.trans (goes_callInv g1.watch h2)
        exact ⟨g2.le, g2.out, g2.watch, g2.keep, g2.grow⟩
      | _ => cases hs; exact Goes.nothing hw rfl ⟨[], by simp, rfl⟩ (fun _ _ h => h) ⟨[], by simp⟩
    · split at hs
      · rename_i o q hq
        have all : ∀ (b : Option Block) (op : Op), ({ n with qInv := q } : Fsm).callCbf cfg e.cbf b op = .ok n' → op.plain = true →
            (∀ s, op ≠ .watch s) → Goes cfg w T n.cbf.rescan.current n n' := by
          intro b op hx h1 h2
          have g1 := goes_callCbf (T := T) (n := { n with qInv := q }) j.fits hx h1 h2 hw hT
          exact ⟨g1.le, g1.out, g1.watch, g1.keep, g1.grow⟩
        cases o with
        | processed b height fees => exact all _ _ hs rfl (by simp)
        | confirmed => simp only [Fsm.deliverInv] at hs; exact all _ _ hs rfl (by simp)
        | reverted => simp only [Fsm.deliverInv] at hs; exact all _ _ hs rfl (by simp)
        | _ => cases hs; exact Goes.nothing hw rfl ⟨[], by simp, rfl⟩ (fun _ _ h => h) ⟨[], by simp⟩
      · cases hs
        exact Goes.nothing hw rfl ⟨[], by simp, rfl⟩ (fun _ _ h => h) ⟨[], by simp⟩

/-- A scan, from the command on. -/
theorem run_goes (c : Ctx cfg U fail t0 g) {h : Hist} {a b : Cbf.Bound} {w : List Nat} {outs : List Out} : ∀ {later : Hist} {n' : Fsm},
    Run cfg U fail Calm t0 (later ++ (.rescan a b w, outs) :: h) n' →
    (∀ x ∈ later, (∀ a b v, x.1 ≠ .rescan a b v) ∧ ∀ v, x.1 ≠ .watch v) →
    (∀ l1 l2 m, later = l1 ++ l2 → Run cfg U fail Calm t0 (l2 ++ (.rescan a b w, outs) :: h) m → T m.cbf.rescan.transactions) →
    ∃ n, Run cfg U fail Calm t0 h n ∧ Goes cfg w T (a.first (view cfg n.tree)) n n'
  | [], n', r, _, hT => by
    have hT := hT [] [] n' rfl r
    rw [List.nil_append] at r
    rcases r with _ | ⟨e, r, l, hs, ho, p⟩
    exact ⟨_, r, goes_rescan (run_J c r).fits hs hT⟩
  | (i, outs') :: later, n', r, hl, hT => by
    have hT' := hT [] _ n' rfl r
    rw [List.cons_append] at r
    rcases r with _ | ⟨e, r, l, hs, ho, p⟩
    obtain ⟨n, r0, g0⟩ := run_goes c r (fun x hx => hl x (List.mem_cons_of_mem _ hx)) fun l1 l2 m e => hT ((i, outs') :: l1) l2 m (by rw [e]; rfl)
    have hi := hl _ (List.mem_cons_self ..)
    exact ⟨n, r0, g0.trans (goes_step (run_J c r) l hs p ho hi.1 hi.2 g0.watch hT')⟩

end Verif.Node
