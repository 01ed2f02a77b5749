import Verif.Node.Tidy

/-!
# Scans and re-orgs: what a step does
-/

set_option autoImplicit false

namespace Verif.Node
open Verif.Tx (Block Transaction)
open Verif.Chain (Header)
open Verif.Cbf (Committed Matches)
open Verif (AMap)

variable {cfg : Cfg} {U : Header → Prop} {fail : Bool} {t0 : Chain.State} {g : Header} {h : Hist} {n n' : Fsm} {S : Block → Prop} {A : Nat → Prop}
  {T : AMap Nat (List Nat) → Prop} {w : List Nat}

/-! ## A rescan without end -/

/-- A rescan from the height `s` on, without end, is active. -/
def Endless (s : Nat) (m : Cbf.Mgr) : Prop := m.rescan.active = true ∧ m.rescan.start = s ∧ m.rescan.end = none

theorem processLoop_endless (p : Cbf.Params) : ∀ (fuel : Nat) (r : Cbf.Rescan),
    (r.processLoop p fuel).1.active = r.active ∧ (r.processLoop p fuel).1.start = r.start ∧ (r.processLoop p fuel).1.end = r.end
  | 0, r => ⟨rfl, rfl, rfl⟩
  | fuel + 1, r => by
    unfold Cbf.Rescan.processLoop
    split
    · exact ⟨rfl, rfl, rfl⟩
    · simp only
      exact processLoop_endless p fuel _

theorem process_endless (p : Cbf.Params) {r r' : Cbf.Rescan} {ms : List (Nat × Nat)} {es : List Cbf.Ev} {k : Nat} (h : r.process p = (r', ms, es, k)) (he : r.end = none) :
    r'.active = r.active ∧ r'.start = r.start ∧ r'.end = none := by
  have hl := processLoop_endless p r.received.length r
  unfold Cbf.Rescan.process at h
  generalize r.processLoop p r.received.length = g at h hl
  obtain ⟨g1, g2, g3⟩ := g
  simp only at h hl
  rw [he] at hl
  rw [hl.2.2] at h
  simp only [Prod.mk.injEq] at h
  rw [← h.1]
  exact hl

theorem Quiet.endless {t : Cbf.Tree} {m m' : Cbf.Mgr} {s : Nat} (q : Cbf.Quiet t m m') (e : Endless s m) : Endless s m' := by
  unfold Endless
  rw [q.rescan]
  exact e

theorem step_endless (p : Cbf.Params) (e : Cbf.Env) (t : Cbf.Tree) {m m' : Cbf.Mgr} {op : Cbf.Op} {s : Nat} (h : m.step p e t op = .ok m')
    (hn : ∀ a b v, op ≠ .rescan a b v) (he : Endless s m) : Endless s m' := by
  cases op with
  | init => exact Quiet.endless (Cbf.quiet_idle p e t m m' h) he
  | peerNegotiated addr ob hf pers =>
    simp only [Cbf.Mgr.step] at h
    split at h
    · cases h; exact he
    · split at h
      · cases h; exact he
      · exact Quiet.endless (m := { m with peers := m.peers.insert addr pers }) (Cbf.quiet_sync p e t _ m' h) he
  | peerDisconnected addr => cases h; exact he
  | blockProcessed block height =>
    simp only [Cbf.Mgr.step] at h
    split at h <;> (cases h; exact he)
  | blockDisconnected height => cases h; exact he
  | headersImported reverted =>
    obtain ⟨-, -, h1, h2, h3, -⟩ := reverts_rescan p e t h
    exact ⟨h1.trans he.1, h2.trans he.2.1, h3.trans he.2.2⟩
  | txConfirmed txid => cases h; exact he
  | txReverted txid scripts => cases h; exact he
  | cfheaders peer msg =>
    obtain ⟨m0, o, h1, h2, h3, _, h5, q⟩ := Cbf.receivedCFHeaders_frame p e t m msg
    have q' : Endless s m0 := Quiet.endless q he
    simp only [Cbf.Mgr.step] at h
    generalize m.receivedCFHeaders p e t msg = g at h h1 h2
    obtain ⟨g1, g2⟩ := g
    simp only at h1
    have hg : Endless s g1 := by
      unfold Endless
      rw [h1]
      exact q'
    cases g2 with
    | ok n => cases h; exact hg
    | err er => cases er <;> (cases h; exact hg)
    | panic => cases h
  | getcfheaders peer ft start stop =>
    have hcc := Cbf.receivedGetCFHeaders_frame p t m peer ft start stop
    simp only [Cbf.Mgr.step] at h
    generalize m.receivedGetCFHeaders p t peer ft start stop = g at h hcc
    obtain ⟨g1, g2⟩ := g
    have hf : Endless s g1 := by
      rcases hcc with rfl | ⟨_, _, rfl⟩ <;> exact he
    cases g2 with
    | ok n => cases h; exact hf
    | err er => cases er <;> (cases h; exact hf)
    | panic => cases h
  | cfilter peer ft block f =>
    have hcc := Cbf.receivedCFilter_cases p e t m peer ft block f
    simp only [Cbf.Mgr.step] at h
    generalize m.receivedCFilter p e t peer ft block f = g at h hcc
    cases hcc with
    | ignored hi => cases h; exact he
    | invalid hh h0 h1 h2 h3 => cases h; exact he
    | unsolicited hh h0 h1 h2 h3 =>
      cases h
      unfold Endless
      rw [(Cbf.afterFilter_frame _ _).1]; exact he
    | scanned hh c r ms es n h0 h1 h2 h3 h4 h5 =>
      have h6 := process_endless p h5 he.2.2
      cases h
      unfold Endless
      rw [(Cbf.afterFilter_frame _ _).1]
      exact ⟨h6.1.trans he.1, h6.2.1.trans he.2.1, h6.2.2⟩
    | panicked m' hh hp => simp at h
  | timer => exact Quiet.endless (Cbf.quiet_timerExpired p e t m m' h) he
  | watch scripts => cases h; exact he
  | watchTransaction txid scripts => cases h; exact he
  | rescan a b w => exact absurd rfl (hn a b w)
  | getCFilters start stop =>
    have hqq := Cbf.quiet_getCFilters e t m start stop
    simp only [Cbf.Mgr.step] at h
    generalize m.getCFilters e t start stop = g at h hqq
    obtain ⟨g1, g2⟩ := g
    cases g2 <;> simp at h <;> (subst h; exact Quiet.endless hqq he)

theorem rescan_endless (p : Cbf.Params) (e : Cbf.Env) (t : Cbf.Tree) {m m' : Cbf.Mgr} {s : Nat} {v : List Nat} (h : m.step p e t (.rescan (.included s) .unbounded v) = .ok m') :
    Endless s m' := by
  have hcc := Cbf.startRescan_cases p e t m (.included s) .unbounded v
  simp only [Cbf.Mgr.step] at h
  generalize m.startRescan p e t (.included s) .unbounded v = g at h hcc
  cases hcc with
  | panicked m' => simp at h
  | nothing st hst =>
    cases h
    simp only [Cbf.Bound.last, Res.ok.injEq] at hst
    subst hst
    exact ⟨rfl, rfl, rfl⟩
  | processed st m1 r ms es n hst q hp =>
    cases h
    simp only [Cbf.Bound.last, Res.ok.injEq] at hst
    subst hst
    have h6 := Quiet.endless (s := s) q ⟨rfl, rfl, rfl⟩
    have h7 := process_endless p hp h6.2.2
    exact ⟨h7.1.trans h6.1, h7.2.1.trans h6.2.1, h7.2.2⟩

/-! ## Steps -/

theorem headersImported_current (p : Cbf.Params) (e : Cbf.Env) (t : Cbf.Tree) {m m' : Cbf.Mgr} {fork : Nat} {reverted : List Nat} (hf : e.fail = false)
    (hr : reverted.getLast? = some (fork + 1)) (h : m.step p e t (.headersImported reverted) = .ok m') :
    (m'.rescan.current = if fork < m.filters.height ∧ m.rescan.active = true ∧ fork + 1 < m.rescan.current then max (fork + 1) m.rescan.start else m.rescan.current) ∧
      scansC (m'.out.drop m.out.length) = [] := by
  simp only [Cbf.Mgr.step, hr] at h
  rw [Res.bind_eq_ok] at h
  obtain ⟨k, hk, h⟩ := h
  have hkf : k = fork := by
    unfold Cbf.subUsize at hk
    rw [if_pos (by omega)] at hk
    cases hk; omega
  subst hkf
  rw [Res.bind_eq_ok] at h
  obtain ⟨m1, h1, h⟩ := h
  have q := Idle.quiet (Cbf.quiet_sync p e t _ m' h)
  have silent : m1.out = m.out → scansC (m'.out.drop m.out.length) = [] := by
    obtain ⟨o, h2, h3, -⟩ := (Cbf.quiet_sync p e t _ m' h).out
    intro h4
    rw [h2, h4, List.drop_left]
    have := heights_scansC o
    simp only [Cbf.processedHeights, h3, List.filterMap_nil, List.map_eq_nil_iff] at this
    exact this
  rw [q.current]
  rcases Cbf.rollback_cases e m m1 k h1 with ⟨rfl, hle⟩ | ⟨hlt, c, -, hx, hok, -⟩
  · rw [if_neg (by omega)]; exact ⟨rfl, silent rfl⟩
  · obtain ⟨h2, h3, h4, h5⟩ := hok hf
    refine ⟨?_, silent h3⟩
    cases ha : m.rescan.active with
    | true =>
      rw [h4 ha]
      by_cases hc : k + 1 < m.rescan.current
      · rw [if_pos hc, if_pos ⟨hlt, rfl, hc⟩]
      · rw [if_neg hc, if_neg (fun x => hc x.2.2)]
    | false =>
      rw [h5 ha, if_neg (by simp)]

/-- What the delivery of a report does. -/
inductive Fate (n n' : Fsm) : Sync.Out → Prop where
  | nothing {o : Sync.Out} (hc : n'.cbf.rescan.current = n.cbf.rescan.current) (hf : n'.cbf.filters.all = n.cbf.filters.all) (ho : ∀ k, ¬ Hits k o) : Fate n n' o
  | back {b : Bool} {hash height : Nat} {cn rv : List (Nat × Header)} (fork : Nat) (hl : (rv.map (·.1)).getLast? = some (fork + 1))
      (hf : n'.cbf.filters.all = n.cbf.filters.all.take (fork + 1))
      (hc : n'.cbf.rescan.current = if fork < n.cbf.filters.height ∧ n.cbf.rescan.active = true ∧ fork + 1 < n.cbf.rescan.current then max (fork + 1) n.cbf.rescan.start else n.cbf.rescan.current) :
      Fate n n' (.imported b hash height cn rv)

/-- The three kinds of steps. -/
inductive Kind (cfg : Cfg) (w : List Nat) (T : AMap Nat (List Nat) → Prop) (n : Fsm) (i : Input) (n' : Fsm) (outs : List Out) : Prop where
  | calm (a : Nat) (go : Goes cfg w T a n n') (ha : (∀ a b v, i ≠ .rescan a b v) → a = n.cbf.rescan.current)
      (hr : ∀ x y v, i = .rescan x y v → a = x.first (view cfg n.tree)) (before : ∀ o ∈ n.qSync, ¬ (Out.sync o).Reverts)
      (after : ∀ o ∈ n'.qSync, ¬ (Out.sync o).Reverts) (quiet : ∀ o ∈ outs, ¬ o.Reverts)
  | headers (o : List Sync.Out) (before : ∀ o ∈ n.qSync, ¬ (Out.sync o).Reverts) (queue : n'.qSync = n.qSync ++ o) (out : outs = o.map .sync) (same : n'.cbf = n.cbf)
      (keep : ∀ k x, (view cfg n.tree).byHeight k = some x → (view cfg n'.tree).byHeight k = some x ∨ ∃ y ∈ o, Hits k y)
      (hi : ∀ a b v, i ≠ .rescan a b v)
  | deliver (o : Sync.Out) (queue : n.qSync = o :: n'.qSync) (tree : n'.tree = n.tree) (none : scans outs = []) (quiet : ∀ o ∈ outs, ¬ o.Reverts) (fate : Fate n n' o)
      (hi : i = .next)

theorem kind_headers (c : Ctx cfg U fail t0 g) (cf : Chain.CollisionFree cfg.sync.chain U) {i : Input} {outs : List Out} (pp : Parts cfg U fail t0 n)
    (p : TidyStep cfg h n i outs) (hi : i ≠ .next) {op : Sync.Op} (l : op.Legal U fail) (hb : op.batch = i.batch) (e : n.callSync cfg op = .ok n')
    (ho : n'.log = n.log ++ outs) (hr : ∀ a b v, i ≠ .rescan a b v) : Kind cfg w T n i n' outs := by
  have hq := p.taken.resolve_left hi
  have sh := shift_callSync (n := { n with qSync := [] }) c cf ⟨pp.sync, pp.inv, pp.cbf⟩ l hb p.clean (n' := { n' with qSync := n'.qSync.drop n.qSync.length }) (by
    obtain ⟨m, t, hs, rfl⟩ := callSync_ok e
    unfold Fsm.callSync
    simp only [hs]
    simp)
  obtain ⟨m, t, hs, rfl⟩ := callSync_ok e
  simp only [List.drop_left] at sh
  refine .headers m.out hq rfl (List.append_cancel_left ho.symm) rfl (fun k x hx => ?_) hr
  simp only [Cbf.Tree.byHeight, view_hashes] at hx ⊢
  exact sh.each k x hx

theorem tidy_kind (c : Ctx cfg U fail t0 g) (cf : Chain.CollisionFree cfg.sync.chain U) {e : Env} {i : Input} {outs : List Out} (r : Tidy cfg U fail t0 h n)
    (l : Legal U fail e i) (hf : e.cbf.fail = false) (p : TidyStep cfg h n i outs) (hs : n.step cfg e i = .ok n') (ho : n'.log = n.log ++ outs)
    (hT : T n'.cbf.rescan.transactions) : Kind cfg (watching ((i, outs) :: h)) T n i n' outs := by
  have s := tidy_half c cf r
  have s' := tidy_half c cf (.step e r l hf p hs ho)
  have hw : n'.cbf.rescan.watch = watching ((i, outs) :: h) := run_watching (Tidy.step e r l hf p hs ho).run
  have hwn : n.cbf.rescan.watch = watching h := run_watching r.run
  -- calm steps
  have goes : (∀ o ∈ n.qSync, ¬ (Out.sync o).Reverts) → Calm h n i n' outs → Kind cfg (watching ((i, outs) :: h)) T n i n' outs := by
    intro hq calm
    have j := s.full hq
    have j' := j.step c (run_log r.run) l hs ho calm
    by_cases hr : ∃ a b v, i = .rescan a b v
    · obtain ⟨a, b, v, rfl⟩ := hr
      exact .calm _ (goes_rescan j.fits hs hT) (fun hx => absurd rfl (hx a b v)) (fun x y v' hx => by cases hx; rfl) hq j'.qSync calm.quiet
    · by_cases hv : ∃ v, i = .watch v
      · obtain ⟨v, rfl⟩ := hv
        simp only [Fsm.step] at hs
        obtain ⟨h1, h2⟩ := Cbf.step_order cfg.cbf _ _ n.cbf n'.cbf _ (called_scans hs).1 rfl
        exact .calm _ (goes_of j.fits hs rfl hw hT h1 h2) (fun _ => rfl) (by simp) hq j'.qSync calm.quiet
      · have hne : ∀ a b v, i ≠ .rescan a b v := fun a b v hx => hr ⟨a, b, v, hx⟩
        refine .calm _ (goes_step j l hs calm ho hne (fun v hx => hv ⟨v, hx⟩) ?_ hT) (fun _ => rfl) (fun x y v hx => absurd hx (hne x y v)) hq j'.qSync calm.quiet
        rw [hwn]
        cases i <;> first | rfl | exact absurd ⟨_, _, _, rfl⟩ hr | exact absurd ⟨_, rfl⟩ hv
  by_cases hn : i = .next
  · by_cases hq : ∀ o ∈ n.qSync, ¬ (Out.sync o).Reverts
    · exact goes hq (p.calm (still_step s.parts l hs (by rw [hn]; rfl)) ho)
    · subst hn
      have st := still_step s.parts l hs rfl
      have quiet := (p.calm st ho).quiet
      simp only [Fsm.step, Fsm.next] at hs
      split at hs
      · rename_i o q hqq
        have hlined := s.lined
        rw [hqq, List.pairwise_cons] at hlined
        have hb := s.back o (by rw [hqq]; exact List.mem_cons_self ..)
        cases o with
        | disconnected height x =>
          have hn : n' = { n with qSync := q, cbf := { n.cbf with pending := n.cbf.pending.filter (· ≠ height) } } := by
            simp only [Fsm.deliverSync, Fsm.callCbf, Cbf.Mgr.step, List.drop_length, requested, List.filterMap_nil, Fsm.requestBlocks, Res.ok.injEq, List.append_nil] at hs
            exact hs.symm
          subst hn
          have : outs = [] := by simpa using ho
          subst this
          exact .deliver _ hqq rfl rfl quiet (.nothing rfl rfl fun _ => id) rfl
        | imported a b b' cn rv =>
          simp only [Fsm.deliverSync, Res.bind_eq_ok] at hs
          obtain ⟨n1, h4, h5⟩ := hs
          have hq' : ∀ x ∈ q, ¬ (Out.sync x).Reverts := fun x hx => hlined.1 x hx rfl
          have j := s.j.queued hq'
          rcases hb with rfl | ⟨fork, h1, h2, h3⟩
          · exfalso
            refine hq fun x hx => ?_
            rw [hqq] at hx
            rcases List.mem_cons.1 hx with rfl | hx
            · simp [Out.Reverts]
            · exact hq' x hx
          · obtain ⟨hs1, ht1, d, hd, hsc⟩ := called_scans h4
            obtain ⟨o, cc⟩ := called (n := { n with qSync := q }) j.fits.cacheOK h4
            obtain ⟨⟨o', x1, x2, x3, x4⟩, -, -⟩ := headersImported_back _ _ _ hf h1 cc.step
            obtain ⟨hcur, hsil⟩ := headersImported_current _ _ _ hf h1 cc.step
            obtain ⟨hfil, -, -⟩ := Cbf.C31_rewinds cfg.cbf e.cbf _ _ _ fork _ hf h1 j.fits.cacheOK cc.step
            obtain ⟨m, hm, rfl⟩ := callInv_ok h5
            have hst := cc.qSync
            simp only at hst hd hcur hfil
            refine .deliver _ (by simp only [hst]; exact hqq) ht1 ?_ quiet (.back fork h1 hfil hcur) rfl
            simp only at ho
            rw [hd, List.append_assoc] at ho
            rw [← List.append_cancel_left ho, scans_append, scans_inv, hsc, List.append_nil]
            exact hsil
        | _ =>
          cases hs
          have : outs = [] := by simpa using ho
          subst this
          exact .deliver _ hqq rfl rfl quiet (.nothing rfl rfl fun _ => id) rfl
      · rename_i hqq
        exact absurd (by rw [hqq]; simp) hq
  · have calm : i.batch = [] → Kind cfg (watching ((i, outs) :: h)) T n i n' outs := fun hb =>
      goes (p.taken.resolve_left hn) (p.calm (still_step s.parts l hs hb) ho)
    cases i with
    | headers a hs' => exact kind_headers c cf s.parts p hn (op := .headers _ _ _ _) (by exact ⟨l.sync, l.headers⟩) rfl hs ho (by simp)
    | importHeaders hs' => exact kind_headers c cf s.parts p hn (op := .userImport _ _) (by exact ⟨l.sync, l.headers⟩) rfl hs ho (by simp)
    | next => exact absurd rfl hn
    | _ => exact calm rfl

end Verif.Node
