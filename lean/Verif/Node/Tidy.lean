import Verif.Node.Props
import Verif.Node.Owners
import Verif.Sync.Order

/-!
# Scans and re-orgs: the invariant

As `Verif.Node.Runs`, but the active chain may change.
-/

set_option autoImplicit false

namespace Verif.Node
open Verif.Tx (Block Transaction)
open Verif.Chain (Header)

variable {cfg : Cfg} {U : Header → Prop} {fail : Bool} {t0 : Chain.State} {g : Header} {h : Hist} {n n' : Fsm} {S S' : Block → Prop} {A A' : Nat → Prop}

/-! ## Specification -/

/-- The matches found whose blocks were not reported yet. -/
def unreported (l : List Out) : List (Nat × Nat) := (found l).drop (reported l).length

/-- A filter for that height was received, and not scanned yet. -/
def Waits (n : Fsm) (height : Nat) : Prop := (n.cbf.rescan.received.get height).isSome = true

/-- The output says that the block at that height left the active chain. -/
def Leaves (height : Nat) : Out → Prop
  | .sync (.disconnected k _) => k = height
  | .sync (.imported _ _ _ _ rv) => ∃ r ∈ rv, r.1 = height
  | _ => False

/-- The step is tidy: headers are imported without error, the reports of a re-org are taken before anything else happens, the user does not request
blocks, and starts a rescan only when all matches found before were reported and none of the filters in memory matches; and blocks that leave the active chain have
been dealt with: if their filter was received it was scanned, and if it matched the block was reported, and earlier reports of imported headers were taken. -/
structure TidyStep (cfg : Cfg) (h : Hist) (n : Fsm) (i : Input) (outs : List Out) : Prop where
  clean : Clean cfg n i
  taken : i = .next ∨ ∀ o ∈ n.qSync, ¬ (Out.sync o).Reverts
  request : ∀ k, i ≠ .requestBlock k
  rescan : ∀ a b w, i = .rescan a b w → (reported (outputs h)).map (fun p => (p.1, p.2.hash)) = found (outputs h) ∧ found outs = []
  reorg : ∀ o ∈ outs, ∀ k, Leaves k o → (∀ x ∈ unreported (outputs h), x.1 < k) ∧ ∀ height, Waits n height → height < k
  alone : (∃ o ∈ outs, o.Reverts) → ∀ o ∈ n.qSync, o.isImported = false

/-- Histories of such steps.  The filter store does not fail. -/
inductive Tidy (cfg : Cfg) (U : Header → Prop) (fail : Bool) (t0 : Chain.State) : Hist → Fsm → Prop where
  | start (f : Cbf.FilterHeaders) (cacheSize : Nat) : Tidy cfg U fail t0 [] (Fsm.new t0 f cacheSize)
  | step {h : Hist} {n n' : Fsm} {i : Input} {outs : List Out} (e : Env) (r : Tidy cfg U fail t0 h n) (l : Legal U fail e i) (hf : e.cbf.fail = false)
      (p : TidyStep cfg h n i outs) (hs : n.step cfg e i = .ok n') (ho : n'.log = n.log ++ outs) : Tidy cfg U fail t0 ((i, outs) :: h) n'

/-! ## Steps without headers -/

theorem Tidy.run (r : Tidy cfg U fail t0 h n) : Run cfg U fail (fun _ _ _ _ _ => True) t0 h n := by
  induction r with
  | start f cs => exact .start f cs
  | step e r l hf p hs ho ih => exact .step e ih l hs ho trivial

/-- The tree stays as it is, and no re-org is reported. -/
def Still (n n' : Fsm) : Prop := n'.tree = n.tree ∧ ∃ d, n'.log = n.log ++ d ∧ ∀ o ∈ d, ¬ o.Reverts

theorem Still.refl (n : Fsm) : Still n n := ⟨rfl, [], by simp, by simp⟩

theorem Still.trans {n'' : Fsm} (a : Still n n') (b : Still n' n'') : Still n n'' := by
  obtain ⟨a1, d1, a2, a3⟩ := a
  obtain ⟨b1, d2, b2, b3⟩ := b
  refine ⟨b1.trans a1, d1 ++ d2, by rw [b2, a2, List.append_assoc], fun o ho => ?_⟩
  exact (List.mem_append.1 ho).elim (a3 o) (b3 o)

theorem still_callInv {op : Inv.Op} (e : n.callInv cfg op = .ok n') : Still n n' := by
  obtain ⟨m, -, rfl⟩ := callInv_ok e
  refine ⟨rfl, _, rfl, fun o ho => ?_⟩
  obtain ⟨y, -, rfl⟩ := List.mem_map.1 ho
  exact id

theorem still_callCbf {env : Cbf.Env} {b : Option Block} {op : Cbf.Op} (e : n.callCbf cfg env b op = .ok n') : Still n n' := by
  obtain ⟨c, -, hr⟩ := callCbf_ok e
  have a := requestBlocks_asks _ hr
  obtain ⟨l, x1, -, -⟩ := a.log
  refine ⟨a.tree, (c.out.drop n.cbf.out.length).filterMap (label b) ++ l.map .inv, by rw [x1, List.append_assoc], fun o ho => ?_⟩
  rcases List.mem_append.1 ho with ho | ho
  · obtain ⟨y, _, hy⟩ := List.mem_filterMap.1 ho
    exact label_reverts hy
  · obtain ⟨y, _, rfl⟩ := List.mem_map.1 ho
    exact id

theorem still_callSync (p : Parts cfg U fail t0 n) {op : Sync.Op} (l : op.Legal U fail) (hb : op.batch = []) (e : n.callSync cfg op = .ok n') : Still n n' := by
  obtain ⟨m, t, hs, rfl⟩ := callSync_ok e
  obtain ⟨hh, hr⟩ := p.sync
  refine ⟨?_, _, rfl, fun o ho => ?_⟩
  · rcases Sync.step_reported (Sync.run_inv hr) l hs with h1 | ⟨r, h1, -⟩
    · exact h1
    · rw [hb] at h1
      exact (congrArg Prod.fst h1).symm
  · obtain ⟨y, hy, rfl⟩ := List.mem_map.1 ho
    have hfrom := Sync.step_from (Sync.run_inv hr) l hs y hy
    cases y with
    | disconnected k x =>
      obtain ⟨hash, k', rv, cn, ⟨header, hx⟩, -⟩ := hfrom
      rw [hb] at hx
      cases hx
    | imported b hash k cn rv =>
      obtain ⟨⟨header, hx⟩, -⟩ := hfrom
      rw [hb] at hx
      cases hx
    | _ => exact id

theorem still_step (p : Parts cfg U fail t0 n) {e : Env} {i : Input} (l : Legal U fail e i) (hs : n.step cfg e i = .ok n') (hb : i.batch = []) : Still n n' := by
  have none : ∀ p ∈ ([] : List (Header × Chain.Env)), U p.1 ∧ Chain.EnvOk fail p.2 := by simp
  cases i with
  | init =>
    simp only [Fsm.step, Res.bind_eq_ok] at hs
    obtain ⟨n1, h1, h2⟩ := hs
    exact (still_callSync p (by exact ⟨l.sync, none⟩) rfl h1).trans (still_callCbf h2)
  | negotiated =>
    simp only [Fsm.step, Res.bind_eq_ok] at hs
    obtain ⟨n1, h1, n2, h2, h3⟩ := hs
    exact ((still_callCbf h1).trans (still_callInv h2)).trans (still_callSync ((p.callCbf h1).callInv (op := .negotiated _ _ _ _) trivial h2) (by exact ⟨l.sync, none⟩) rfl h3)
  | disconnected =>
    simp only [Fsm.step, Res.bind_eq_ok] at hs
    obtain ⟨n1, h1, n2, h2, h3⟩ := hs
    exact ((still_callCbf h1).trans (still_callInv h2)).trans (still_callSync ((p.callCbf h1).callInv (op := .disconnected _) trivial h2) (by exact ⟨trivial, none⟩) rfl h3)
  | headers a hs' => exact still_callSync p (op := .headers _ _ _ _) (by exact ⟨l.sync, l.headers⟩) hb hs
  | getheaders => exact still_callSync p (by exact ⟨trivial, none⟩) rfl hs
  | invs => exact still_callSync p (by exact ⟨trivial, none⟩) rfl hs
  | block b => exact still_callInv hs
  | getdata => simp only [Fsm.step] at hs; exact still_callInv hs
  | cfheaders => exact still_callCbf hs
  | getcfheaders => exact still_callCbf hs
  | cfilter => exact still_callCbf hs
  | timer =>
    simp only [Fsm.step, Res.bind_eq_ok] at hs
    obtain ⟨n1, h1, n2, h2, h3⟩ := hs
    exact ((still_callInv h1).trans (still_callSync (p.callInv (op := .timer _ _ _) l.inv h1) (by exact ⟨l.sync, none⟩) rfl h2)).trans (still_callCbf h3)
  | importHeaders hs' => exact still_callSync p (op := .userImport _ _) (by exact ⟨l.sync, l.headers⟩) hb hs
  | requestFilters => exact still_callCbf hs
  | requestBlock k => simp only [Fsm.step] at hs; exact still_callInv hs
  | submit t =>
    simp only [Fsm.step, Res.bind_eq_ok] at hs
    obtain ⟨n1, h1, h2⟩ := hs
    exact (still_callCbf h1).trans (still_callInv h2)
  | rescan => exact still_callCbf hs
  | watch => simp only [Fsm.step] at hs; exact still_callCbf hs
  | next =>
    simp only [Fsm.step, Fsm.next] at hs
    split at hs
    · rename_i o q hq
      cases o with
      | disconnected height x => simp only [Fsm.deliverSync] at hs; exact still_callCbf (n := { n with qSync := q }) hs
      | imported a b c d r =>
        simp only [Fsm.deliverSync, Res.bind_eq_ok] at hs
        obtain ⟨n1, h1, h2⟩ := hs
        exact (still_callCbf (n := { n with qSync := q }) h1).trans (still_callInv h2)
      | _ => cases hs; exact Still.refl n
    · split at hs
      · rename_i o q hq
        cases o <;> simp only [Fsm.deliverInv] at hs <;> first | exact still_callCbf (n := { n with qInv := q }) hs | (cases hs; exact Still.refl n)
      · cases hs; exact Still.refl n

/-- Such a step is calm. -/
theorem TidyStep.calm {i : Input} {outs : List Out} (p : TidyStep cfg h n i outs) (s : Still n n') (ho : n'.log = n.log ++ outs) : Calm h n i n' outs := by
  obtain ⟨s1, d, s2, s3⟩ := s
  have : outs = d := List.append_cancel_left (ho.symm.trans s2)
  subst this
  exact ⟨by rw [s1], s3, p.request, p.rescan⟩

/-! ## The invariant -/

/-- What a report that waits says about what is not done yet. -/
def Back (n : Fsm) : Sync.Out → Prop
  | .disconnected k _ => ∀ x ∈ unreported n.log, x.1 < k
  | .imported _ _ _ _ rv => rv = [] ∨ ∃ fork, (rv.map (·.1)).getLast? = some (fork + 1) ∧ (∀ x ∈ unreported n.log, x.1 ≤ fork) ∧
      ∀ height, Waits n height → height ≤ fork
  | _ => True

theorem back_quiet {o : Sync.Out} (hq : ¬ (Out.sync o).Reverts) : Back n o := by
  cases o with
  | disconnected => exact absurd trivial hq
  | imported a b c d r => exact .inl (by_contra hq)
  | _ => trivial

/-- The invariant: the old one, but for the reports that wait. -/
structure Half (cfg : Cfg) (U : Header → Prop) (fail : Bool) (t0 : Chain.State) (S : Block → Prop) (A : Nat → Prop) (n : Fsm) : Prop where
  j : J cfg U fail t0 S A { n with qSync := [] }
  back : ∀ o ∈ n.qSync, Back n o
  lined : n.qSync.Pairwise (fun a b => a.isImported = true → ¬ (Out.sync b).Reverts)

theorem lined_quiet {q : List Sync.Out} (hq : ∀ o ∈ q, ¬ (Out.sync o).Reverts) : q.Pairwise (fun a b => a.isImported = true → ¬ (Out.sync b).Reverts) :=
  List.Pairwise.imp_of_mem (R := fun _ _ => True) (fun _ hb _ _ => hq _ hb) (List.pairwise_of_forall (fun _ _ => trivial))

theorem J.half (j : J cfg U fail t0 S A n) : Half cfg U fail t0 S A n :=
  ⟨⟨⟨j.parts.sync, j.parts.inv, j.parts.cbf⟩, j.fits, j.core, by simp, j.aside, j.queue, j.told, j.await⟩, fun o ho => back_quiet (j.qSync o ho), lined_quiet j.qSync⟩

theorem Half.full (s : Half cfg U fail t0 S A n) (hq : ∀ o ∈ n.qSync, ¬ (Out.sync o).Reverts) : J cfg U fail t0 S A n :=
  ⟨⟨s.j.parts.sync, s.j.parts.inv, s.j.parts.cbf⟩, s.j.fits, s.j.core, hq, s.j.aside, s.j.queue, s.j.told, s.j.await⟩

theorem Half.mono (s : Half cfg U fail t0 S A n) (hS : ∀ b, S b → S' b) (hA : ∀ k, A k → A' k) : Half cfg U fail t0 S' A' n :=
  ⟨s.j.mono hS hA, s.back, s.lined⟩

theorem Half.parts (s : Half cfg U fail t0 S A n) : Parts cfg U fail t0 n := ⟨s.j.parts.sync, s.j.parts.inv, s.j.parts.cbf⟩

/-- What is not reported: processed, requested or put aside. -/
theorem Core.rest {byHeight : Nat → Option Nat} {current : Nat} {pending : List Nat} {rem : Nat → Prop} {put : Nat → Option Block} {F : List (Nat × Nat)}
    {R Q : List (Nat × Block)} {W : List (Nat × Nat)} (c : CoreW byHeight current pending rem put F R Q W) : F.drop R.length = Q.map key ++ W := by
  rw [c.split, List.map_append, List.append_assoc]
  rw [List.drop_left' (by simp)]

/-- The chain and the height reached change, but not for what is not reported. -/
theorem Core.move {byHeight byHeight' : Nat → Option Nat} {current current' : Nat} {pending pending' : List Nat} {rem rem' : Nat → Prop} {put put' : Nat → Option Block} {F : List (Nat × Nat)}
    {R Q : List (Nat × Block)} (c : Core byHeight current pending rem put F R Q) (h1 : ∀ x ∈ F.drop R.length, byHeight x.1 = some x.2 → byHeight' x.1 = some x.2)
    (h2 : ∀ x ∈ F.drop R.length, x.1 < current → x.1 < current') (h3 : ∀ h, (∃ k, (h, k) ∈ F.drop R.length) → (h ∈ pending' ↔ h ∈ pending)) (h3' : ∀ h ∈ pending', h ∈ pending)
    (h4 : ∀ k, rem' k ↔ rem k) (h5 : ∀ h b, put' h = some b ↔ put h = some b) :
    Core byHeight' current' pending' rem' put' F R Q := by
  obtain ⟨W, c⟩ := c
  have h5' : ∀ h, put' h = put h := fun h => Option.ext (h5 h)
  have hr := Core.rest c
  rw [hr] at h1 h2 h3
  refine ⟨W, c.split, c.sorted, fun x hx => h2 x hx (c.below x hx), fun x hx => h1 x hx (c.chain x hx), fun h => ?_, fun k => ?_, fun h b hb => ?_, fun hw => ?_⟩
  · constructor
    · exact fun hh => (c.pend h).1 (h3' h hh)
    · intro hh
      obtain ⟨x, hx, rfl⟩ := List.mem_map.1 hh
      exact (h3 x.1 ⟨x.2, hx⟩).2 ((c.pend x.1).2 hh)
  · rw [h4, c.asked]; simp only [h5']
  · exact c.aside h b (by rw [← h5']; exact hb)
  · obtain ⟨k, hk⟩ := c.more hw; exact ⟨k, (h4 k).2 hk⟩

/-- The queue of reports plays no part. -/
theorem J.queued (j : J cfg U fail t0 S A n) {q : List Sync.Out} (hq : ∀ o ∈ q, ¬ (Out.sync o).Reverts) : J cfg U fail t0 S A { n with qSync := q } :=
  ⟨⟨j.parts.sync, j.parts.inv, j.parts.cbf⟩, j.fits, j.core, hq, j.aside, j.queue, j.told, j.await⟩

/-! ### Headers arrive -/

theorem sync_found {l : List Out} (o : List Sync.Out) : unreported (l ++ o.map .sync) = unreported l := by
  simp only [unreported, found_append, reported_append, found_sync, reported_sync, List.append_nil]

theorem Half.headers (c : Ctx cfg U fail t0 g) (cf : Chain.CollisionFree cfg.sync.chain U) {i : Input} {outs : List Out} (s : Half cfg U fail t0 S A n)
    (hl : n.log = outputs h) (p : TidyStep cfg h n i outs) (hi : i ≠ .next) {op : Sync.Op} (l : op.Legal U fail) (hb : op.batch = i.batch) (e : n.callSync cfg op = .ok n')
    (ho : n'.log = n.log ++ outs) : Half cfg U fail t0 S A n' := by
  have hq := p.taken.resolve_left hi
  have sh := shift_callSync (n := { n with qSync := [] }) c cf ⟨s.parts.sync, s.parts.inv, s.parts.cbf⟩ l hb p.clean (n' := { n' with qSync := n'.qSync.drop n.qSync.length }) (by
    obtain ⟨m, t, hs, rfl⟩ := callSync_ok e
    unfold Fsm.callSync
    simp only [hs]
    simp)
  have hparts := s.parts.callSync l e
  obtain ⟨m, t, hs, rfl⟩ := callSync_ok e
  obtain ⟨hh, hr⟩ := s.parts.sync
  simp only [List.drop_left] at sh
  have hout : outs = m.out.map .sync := List.append_cancel_left ho.symm
  -- what stays
  have keep : ∀ k x, (hashes cfg n.tree)[k]? = some x → (∀ o ∈ outs, ∀ k', Leaves k' o → k < k') → (hashes cfg t)[k]? = some x := by
    intro k x hx hk
    rcases sh.each k x hx with h1 | ⟨o, h1, h2⟩
    · exact h1
    · cases o with
      | imported a b b' cn rv =>
        obtain ⟨r, h3, h4⟩ := h2
        have := hk (.sync (.imported a b b' cn rv)) (by rw [hout]; exact List.mem_map_of_mem h1) r.1 ⟨r, List.mem_of_getLast? h3, rfl⟩
        omega
      | _ => cases h2
  refine ⟨⟨⟨hparts.sync, hparts.inv, hparts.cbf⟩, ?_, ?_, by simp, s.j.aside, s.j.queue, ?_, s.j.await⟩, ?_, ?_⟩
  · refine s.j.fits.retree cfg.cbf fun height hw => ?_
    obtain ⟨⟨f, b, k⟩, hx⟩ := Option.isSome_iff_exists.1 hw
    have h1 := (s.j.fits.queue height f b k hx).1
    have h2 := h1
    simp only [view_hashes] at h1 ⊢
    rw [h1]
    exact keep height b h1 fun o h3 k' h4 => (p.reorg o h3 k' h4).2 height hw
  · simp only [found_append, reported_append, found_sync, reported_sync, List.append_nil]
    refine s.j.core.move (fun x hx h1 => ?_) (fun _ _ h => h) (fun _ _ => Iff.rfl) (fun _ h => h) (fun _ => Iff.rfl) (fun _ _ => Iff.rfl)
    simp only [Cbf.Tree.byHeight, view_hashes] at h1 ⊢
    exact keep x.1 x.2 h1 fun o h3 k' h4 => (p.reorg o h3 k' h4).1 x (by rw [← hl]; exact hx)
  · simp only [reported_append, reported_sync, List.append_nil]; exact s.j.told
  · intro o h1
    rcases List.mem_append.1 h1 with h1 | h1
    · exact back_quiet (hq o h1)
    · have hm : Out.sync o ∈ outs := by rw [hout]; exact List.mem_map_of_mem h1
      cases o with
      | disconnected k x =>
        intro y hy
        simp only [sync_found] at hy
        exact (p.reorg _ hm k rfl).1 y (by rw [← hl]; exact hy)
      | imported a b b' cn rv =>
        by_cases hne : rv = []
        · exact .inl hne
        · right
          have hp : Pos (.imported a b b' cn rv) := (sh.fresh (.imported a b b' cn rv) h1).resolve_left (by simp)
          obtain ⟨r, hlast⟩ : ∃ r, rv.getLast? = some r := ⟨_, List.getLast?_eq_some_getLast hne⟩
          have h0 := hp r hlast
          have h2 := p.reorg _ hm r.1 ⟨r, List.mem_of_getLast? hlast, rfl⟩
          refine ⟨r.1 - 1, ?_, fun y hy => ?_, fun height hw => ?_⟩
          · rw [List.getLast?_map, hlast]
            simp only [Option.map_some, Option.some.injEq]
            omega
          · simp only [sync_found] at hy
            have := h2.1 y (by rw [← hl]; exact hy)
            omega
          · have := h2.2 height hw
            omega
      | _ => trivial
  · simp only
    rw [List.pairwise_append]
    refine ⟨lined_quiet hq, (Sync.step_lined (Sync.run_inv hr) l hs).imp fun {a b} hab ha => ?_, fun a ha b hb hi' hrev => ?_⟩
    · have := hab ha
      cases b with
      | disconnected => cases this
      | imported => cases this
      | _ => exact id
    · have := p.alone ⟨.sync b, by rw [hout]; exact List.mem_map_of_mem hb, hrev⟩ a ha
      rw [hi'] at this
      cases this

/-! ### The reports are delivered -/

theorem headersImported_back (p : Cbf.Params) (e : Cbf.Env) (t : Cbf.Tree) {m m' : Cbf.Mgr} {fork : Nat} {reverted : List Nat} (hf : e.fail = false)
    (hr : reverted.getLast? = some (fork + 1)) (h : m.step p e t (.headersImported reverted) = .ok m') :
    (∃ o, m'.out = m.out ++ o ∧ foundC o = [] ∧ matchedC o = [] ∧ requested o = []) ∧ m'.pending = m.pending ∧
      ∀ x, x ≤ fork → x < m.rescan.current → x < m'.rescan.current := by
  simp only [Cbf.Mgr.step, hr] at h
  rw [Res.bind_eq_ok] at h
  obtain ⟨k, hk, h⟩ := h
  have hkf : k = fork := by
    unfold Cbf.subUsize at hk
    rw [if_pos (by omega)] at hk
    cases hk; omega
  subst hkf
  rw [Res.bind_eq_ok] at h
  obtain ⟨m1, h1, h⟩ := h
  have q := Idle.quiet (Cbf.quiet_sync p e t _ m' h)
  rcases Cbf.rollback_cases e m m1 k h1 with ⟨rfl, -⟩ | ⟨-, c, -, hx, hok, -⟩
  · exact ⟨q.out, q.pending, fun x _ h => by rw [q.current]; exact h⟩
  · obtain ⟨h2, h3, h4, h5⟩ := hok hf
    refine ⟨by rw [← h3]; exact q.out, ?_, fun x hx1 hx2 => ?_⟩
    · rw [q.pending, hx]
    · rw [q.current]
      cases ha : m.rescan.active with
      | true =>
        rw [h4 ha]
        split <;> omega
      | false => rw [h5 ha]; exact hx2

theorem J.callCbf_reorg (j : J cfg U fail t0 S A n) {env : Cbf.Env} {fork : Nat} {reverted : List Nat} (hf : env.fail = false)
    (hr : reverted.getLast? = some (fork + 1)) (hu : ∀ x ∈ unreported n.log, x.1 ≤ fork) (hw : ∀ height, Waits n height → height ≤ fork)
    (e : n.callCbf cfg env none (.headersImported reverted) = .ok n') : J cfg U fail t0 S A n' := by
  have p := j.parts.callCbf e
  obtain ⟨o, c⟩ := called j.fits.cacheOK e
  obtain ⟨⟨o', h1, h2, h3, h4⟩, h5, h6⟩ := headersImported_back _ _ _ hf hr c.step
  have : o = o' := List.append_cancel_left (c.out.symm.trans h1)
  subst this
  have rem' : ∀ k, n'.inv.remaining.contains k = true ↔ n.inv.remaining.contains k = true := by
    intro k; rw [c.rem, h4]; simp
  have told : reported n'.log = reported n.log := by rw [c.reported, reported_label_none, List.append_nil]
  refine ⟨p, ?_, ?_, by rw [c.qSync]; exact j.qSync, by rw [c.received]; exact j.aside, by rw [c.processed]; exact j.queue,
    by rw [told]; exact j.told, fun k hk => j.await k ((rem' k).1 hk)⟩
  · rw [c.tree]; exact j.fits.reorg cfg.cbf env fork reverted hf rfl hr hw c.step
  · rw [c.tree, c.found, told, c.processed, h2, List.append_nil, h5, c.received]
    refine j.core.move (fun _ _ h => h) (fun x hx h => h6 _ (hu x hx) h) (fun _ _ => Iff.rfl) (fun _ h => h) rem' (fun _ _ => Iff.rfl)

theorem Half.next (s : Half cfg U fail t0 S A n) {e : Env} (hf : e.cbf.fail = false) (hs : n.next cfg e = .ok n') : Half cfg U fail t0 S A n' := by
  by_cases hq : ∀ o ∈ n.qSync, ¬ (Out.sync o).Reverts
  · exact ((s.full hq).next hs).half
  · simp only [Fsm.next] at hs
    split at hs
    · rename_i o q hqq
      have hl := s.lined
      rw [hqq, List.pairwise_cons] at hl
      have hb := s.back o (by rw [hqq]; exact List.mem_cons_self ..)
      have hb' : ∀ x ∈ q, Back n x := fun x hx => s.back x (by rw [hqq]; exact List.mem_cons_of_mem _ hx)
      cases o with
      | disconnected height x =>
        have hn : n' = { n with qSync := q, cbf := { n.cbf with pending := n.cbf.pending.filter (· ≠ height) } } := by
          simp only [Fsm.deliverSync, Fsm.callCbf, Cbf.Mgr.step, List.drop_length, requested, List.filterMap_nil, Fsm.requestBlocks, Res.ok.injEq, List.append_nil] at hs
          exact hs.symm
        have hcb := Parts.callCbf (n := { n with qSync := q }) (U := U) (fail := fail) (t0 := t0) (env := e.cbf) (op := .blockDisconnected height) ⟨s.parts.sync, s.parts.inv, s.parts.cbf⟩ hs
        subst hn
        refine ⟨⟨⟨s.j.parts.sync, s.j.parts.inv, ?_⟩, ?_, ?_, by simp, s.j.aside, s.j.queue, s.j.told, s.j.await⟩, hb', hl.2⟩
        · exact hcb.cbf
        · exact ⟨s.j.fits.cacheOK, s.j.fits.cache, s.j.fits.queue⟩
        · refine s.j.core.move (fun _ _ h => h) (fun _ _ h => h) (fun k ⟨x, hx⟩ => ?_) (fun k hk => List.mem_of_mem_filter hk) (fun _ => Iff.rfl) (fun _ _ => Iff.rfl)
          have hlt := hb (k, x) hx
          simp only [List.mem_filter, decide_eq_true_eq, ne_eq]
          constructor
          · exact fun h => h.1
          · exact fun h => ⟨h, by simp only at hlt; omega⟩
      | imported a b b' cn rv =>
        have hq' : ∀ x ∈ q, ¬ (Out.sync x).Reverts := fun x hx => hl.1 x hx rfl
        have j := s.j.queued hq'
        rcases hb with rfl | ⟨fork, h1, h2, h3⟩
        · exact (J.deliverSync (n := { n with qSync := q }) j (by simp [Out.Reverts]) hs).half
        · simp only [Fsm.deliverSync, Res.bind_eq_ok] at hs
          obtain ⟨n1, h4, h5⟩ := hs
          have j1 := J.callCbf_reorg (n := { n with qSync := q }) j hf h1 h2 h3 h4
          exact (j1.callInv (op := .reverted _) trivial rfl h5).half
      | _ =>
        cases hs
        exact ⟨s.j, hb', hl.2⟩
    · rename_i hqq
      exact absurd (by rw [hqq]; simp) hq

/-! ## Histories -/

theorem Half.step (c : Ctx cfg U fail t0 g) (cf : Chain.CollisionFree cfg.sync.chain U) {e : Env} {i : Input} {outs : List Out}
    (s : Half cfg U fail t0 (fun b => Sent b h) (fun k => Awaited k h) n) (hl : n.log = outputs h) (l : Legal U fail e i) (hf : e.cbf.fail = false)
    (p : TidyStep cfg h n i outs) (hs : n.step cfg e i = .ok n') (ho : n'.log = n.log ++ outs) :
    Half cfg U fail t0 (fun b => Sent b ((i, outs) :: h)) (fun k => Awaited k ((i, outs) :: h)) n' := by
  have mS : ∀ b, Sent b h → Sent b ((i, outs) :: h) := fun b ⟨o, hb⟩ => ⟨o, List.mem_cons_of_mem _ hb⟩
  have mA : (∀ b, i ≠ .block b) → ∀ k, Awaited k h → Awaited k ((i, outs) :: h) := fun hb k hk => .inr ⟨hk, fun b he => absurd he (hb b)⟩
  by_cases hn : i = .next
  · subst hn
    exact (s.next hf hs).mono mS (mA (by simp))
  · have calm : i.batch = [] → Half cfg U fail t0 (fun b => Sent b ((i, outs) :: h)) (fun k => Awaited k ((i, outs) :: h)) n' := fun hb =>
      ((s.full (p.taken.resolve_left hn)).step c hl l hs ho (p.calm (still_step s.parts l hs hb) ho)).half
    cases i with
    | headers a hs' => exact (s.headers c cf hl p hn (op := .headers _ _ _ _) (by exact ⟨l.sync, l.headers⟩) rfl hs ho).mono mS (mA (by simp))
    | importHeaders hs' => exact (s.headers c cf hl p hn (op := .userImport _ _) (by exact ⟨l.sync, l.headers⟩) rfl hs ho).mono mS (mA (by simp))
    | next => exact absurd rfl hn
    | _ => exact calm rfl

theorem tidy_half (c : Ctx cfg U fail t0 g) (cf : Chain.CollisionFree cfg.sync.chain U) (r : Tidy cfg U fail t0 h n) :
    Half cfg U fail t0 (fun b => Sent b h) (fun k => Awaited k h) n := by
  induction r with
  | start f cs => exact (run_J c (.start f cs)).half
  | step e r l hf p hs ho ih => exact ih.step c cf (run_log r.run) l hf p hs ho

end Verif.Node
