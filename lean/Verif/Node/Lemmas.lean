import Verif.Node.CbfLemmas
import Verif.Node.Core
import Verif.Inv.Props
import Verif.Sync.Invariant
import Verif.Chain.Props

/-!
# The state machine: its parts and their cooperation
-/

set_option autoImplicit false

namespace Verif.Node
open Verif.Tx (Block Transaction)
open Verif.Chain (Header)

variable {cfg : Cfg} {U : Header → Prop} {fail : Bool} {t0 : Chain.State} {n n' : Fsm}

/-- The states of the managers are reached by histories of their own. -/
structure Parts (cfg : Cfg) (U : Header → Prop) (fail : Bool) (t0 : Chain.State) (n : Fsm) : Prop where
  sync : ∃ h, Sync.Run cfg.sync U fail (fun _ _ => True) t0 h n.sync n.tree
  inv : ∃ h, Inv.Run cfg.cbf.checked h n.inv
  cbf : ∃ l, Cbf.Log cfg.cbf l n.cbf

theorem callSync_ok {op : Sync.Op} (e : n.callSync cfg op = .ok n') : ∃ m t, { n.sync with out := [] }.step cfg.sync n.tree op = .ok (m, t) ∧
    n' = { n with sync := m, tree := t, qSync := n.qSync ++ m.out, log := n.log ++ m.out.map .sync } := by
  unfold Fsm.callSync at e
  split at e
  · rename_i m t hs; cases e; exact ⟨m, t, hs, rfl⟩
  · cases e

theorem callInv_ok {op : Inv.Op} (e : n.callInv cfg op = .ok n') : ∃ m, { n.inv with out := [] }.step cfg.cbf.checked op = .ok m ∧
    n' = { n with inv := m, qInv := n.qInv ++ m.out, log := n.log ++ m.out.map .inv } := by
  unfold Fsm.callInv at e
  split at e
  · rename_i m hs; cases e; exact ⟨m, hs, rfl⟩
  · cases e

theorem callCbf_ok {env : Cbf.Env} {b : Option Block} {op : Cbf.Op} (e : n.callCbf cfg env b op = .ok n') :
    ∃ c, n.cbf.step cfg.cbf env (view cfg n.tree) op = .ok c ∧
      Fsm.requestBlocks cfg (requested (c.out.drop n.cbf.out.length))
        { n with cbf := c, qCbf := n.qCbf ++ (c.out.drop n.cbf.out.length).filterMap (label b),
                 log := n.log ++ (c.out.drop n.cbf.out.length).filterMap (label b) } = .ok n' := by
  unfold Fsm.callCbf at e
  split at e
  · rename_i c hs; exact ⟨c, hs, e⟩
  · cases e

theorem Parts.callSync (h : Parts cfg U fail t0 n) {op : Sync.Op} (l : op.Legal U fail) (e : n.callSync cfg op = .ok n') : Parts cfg U fail t0 n' := by
  obtain ⟨m, t, hs, rfl⟩ := callSync_ok e
  obtain ⟨hh, hr⟩ := h.sync
  exact ⟨⟨_, .step hr l trivial hs⟩, h.inv, h.cbf⟩

theorem Parts.callInv (h : Parts cfg U fail t0 n) {op : Inv.Op} (l : op.Legal) (e : n.callInv cfg op = .ok n') : Parts cfg U fail t0 n' := by
  obtain ⟨m, hs, rfl⟩ := callInv_ok e
  obtain ⟨hh, hr⟩ := h.inv
  exact ⟨h.sync, ⟨_, .step hr l hs⟩, h.cbf⟩

theorem Parts.requestBlocks (ks : List Nat) (h : Parts cfg U fail t0 n) (e : Fsm.requestBlocks cfg ks n = .ok n') : Parts cfg U fail t0 n' := by
  induction ks generalizing n with
  | nil => cases e; exact h
  | cons k ks ih =>
    simp only [Fsm.requestBlocks] at e
    rw [Res.bind_eq_ok] at e
    obtain ⟨n1, h1, h2⟩ := e
    exact ih (h.callInv (op := .getBlock k) trivial h1) h2

theorem Parts.callCbf (h : Parts cfg U fail t0 n) {env : Cbf.Env} {b : Option Block} {op : Cbf.Op} (e : n.callCbf cfg env b op = .ok n') :
    Parts cfg U fail t0 n' := by
  obtain ⟨c, hs, hr⟩ := callCbf_ok e
  obtain ⟨l, hl⟩ := h.cbf
  refine Parts.requestBlocks _ ?_ hr
  exact ⟨h.sync, h.inv, ⟨_, .step env _ op hl hs⟩⟩

/-- Requesting blocks. -/
structure Asks (cfg : Cfg) (ks : List Nat) (n n' : Fsm) : Prop where
  tree : n'.tree = n.tree
  sync : n'.sync = n.sync
  cbf : n'.cbf = n.cbf
  qSync : n'.qSync = n.qSync
  qCbf : n'.qCbf = n.qCbf
  rem : ∀ k, n'.inv.remaining.contains k = true ↔ n.inv.remaining.contains k = true ∨ k ∈ ks
  received : n'.inv.received = n.inv.received
  log : ∃ l : List Inv.Out, n'.log = n.log ++ l.map .inv ∧ Inv.processed l = [] ∧ n'.qInv = n.qInv ++ l

theorem found_inv (l : List Inv.Out) : found (l.map .inv) = [] := by
  induction l with
  | nil => rfl
  | cons a l _ => simp [found]

theorem reported_inv (l : List Inv.Out) : reported (l.map .inv) = [] := by
  induction l with
  | nil => rfl
  | cons a l _ => simp [reported]

theorem found_sync (l : List Sync.Out) : found (l.map .sync) = [] := by
  induction l with
  | nil => rfl
  | cons a l _ => simp [found]

theorem reported_sync (l : List Sync.Out) : reported (l.map .sync) = [] := by
  induction l with
  | nil => rfl
  | cons a l _ => simp [reported]

theorem processed_append' (a b : List Inv.Out) : Inv.processed (a ++ b) = Inv.processed a ++ Inv.processed b := by simp [Inv.processed]

theorem getBlock_asks {k : Nat} (e : n.callInv cfg (.getBlock k) = .ok n') : Asks cfg [k] n n' := by
  obtain ⟨m, hs, rfl⟩ := callInv_ok e
  cases hs
  refine ⟨rfl, rfl, rfl, rfl, rfl, ?_, ?_, ⟨_, rfl, ?_, rfl⟩⟩
  · intro x
    simp only [Inv.Mgr.getBlock, Inv.Mgr.scheduleTick, List.mem_singleton]
    split
    · rename_i hc
      constructor
      · exact fun h => .inl h
      · rintro (h | rfl)
        · exact h
        · exact hc
    · simp only [AMap.contains, AMap.get_insert]
      by_cases hk : k = x
      · subst hk; simp
      · simp [hk, Ne.symm hk]
  · simp only [Inv.Mgr.getBlock, Inv.Mgr.scheduleTick]
    split <;> rfl
  · simp only [Inv.Mgr.getBlock, Inv.Mgr.scheduleTick]
    split <;> rfl

theorem requestBlocks_asks (ks : List Nat) (e : Fsm.requestBlocks cfg ks n = .ok n') : Asks cfg ks n n' := by
  induction ks generalizing n with
  | nil => cases e; exact ⟨rfl, rfl, rfl, rfl, rfl, by simp, rfl, ⟨[], by simp, rfl, by simp⟩⟩
  | cons k ks ih =>
    simp only [Fsm.requestBlocks] at e
    rw [Res.bind_eq_ok] at e
    obtain ⟨n1, h1, h2⟩ := e
    have a := getBlock_asks h1
    have b := ih h2
    obtain ⟨l1, x1, x2, x3⟩ := a.log
    obtain ⟨l2, y1, y2, y3⟩ := b.log
    refine ⟨b.tree.trans a.tree, b.sync.trans a.sync, b.cbf.trans a.cbf, b.qSync.trans a.qSync, b.qCbf.trans a.qCbf, ?_, b.received.trans a.received,
      ⟨l1 ++ l2, by rw [y1, x1]; simp, by rw [processed_append', x2, y2]; rfl, by rw [y3, x3]; simp⟩⟩
    intro x
    rw [b.rem, a.rem]
    simp only [List.mem_cons, List.not_mem_nil]
    tauto

/-- A call of the filter manager. -/
structure Called (cfg : Cfg) (env : Cbf.Env) (b : Option Block) (op : Cbf.Op) (o : List Cbf.Out) (n n' : Fsm) : Prop where
  step : n.cbf.step cfg.cbf env (view cfg n.tree) op = .ok n'.cbf
  out : n'.cbf.out = n.cbf.out ++ o
  tree : n'.tree = n.tree
  sync : n'.sync = n.sync
  qSync : n'.qSync = n.qSync
  rem : ∀ k, n'.inv.remaining.contains k = true ↔ n.inv.remaining.contains k = true ∨ k ∈ requested o
  received : n'.inv.received = n.inv.received
  found : found n'.log = found n.log ++ foundC o
  reported : reported n'.log = reported n.log ++ reported (o.filterMap (label b))
  processed : Inv.processed n'.qInv = Inv.processed n.qInv
  log : ∃ d, n'.log = n.log ++ d ∧ Node.found d = foundC o ∧ ∀ x ∈ d, ¬ x.Reverts

theorem label_reverts {b : Option Block} {x : Cbf.Out} {y : Out} (h : label b x = some y) : ¬ y.Reverts := by
  cases b <;> cases x with
  | event ev => cases ev <;> (simp only [label, Option.some.injEq] at h; subst h; exact id)
  | getBlock k => simp [label] at h
  | _ => simp only [label, Option.some.injEq] at h; subst h; exact id

theorem called {env : Cbf.Env} {b : Option Block} {op : Cbf.Op} (hc : Cbf.CacheOK List.length n.cbf.rescan.cache)
    (e : n.callCbf cfg env b op = .ok n') : ∃ o, Called cfg env b op o n n' := by
  obtain ⟨c, hs, hr⟩ := callCbf_ok e
  obtain ⟨o, ho, _⟩ := (Cbf.step_facts cfg.cbf env _ n.cbf c op hs hc).out
  have hd : c.out.drop n.cbf.out.length = o := by rw [ho]; simp
  rw [hd] at hr
  have a := requestBlocks_asks _ hr
  obtain ⟨l, x1, x2, x3⟩ := a.log
  refine ⟨o, by rw [a.cbf]; exact hs, by rw [a.cbf]; exact ho, a.tree, a.sync, a.qSync, a.rem, a.received, ?_, ?_, ?_, ?_⟩
  · rw [x1, found_append, found_inv, List.append_nil, found_append, found_label]
  · rw [x1, reported_append, reported_inv, List.append_nil, reported_append]
  · rw [x3, processed_append', x2, List.append_nil]
  · refine ⟨o.filterMap (label b) ++ l.map .inv, by rw [x1, List.append_assoc], by rw [found_append, found_inv, found_label, List.append_nil], ?_⟩
    intro x hx
    rcases List.mem_append.1 hx with hx | hx
    · obtain ⟨y, _, hy⟩ := List.mem_filterMap.1 hx
      exact label_reverts hy
    · obtain ⟨y, _, rfl⟩ := List.mem_map.1 hx
      exact id

/-! ## The invariant -/

/-- `S`: blocks that were sent to us; `A`: blocks awaited. -/
structure J (cfg : Cfg) (U : Header → Prop) (fail : Bool) (t0 : Chain.State) (S : Block → Prop) (A : Nat → Prop) (n : Fsm) : Prop where
  parts : Parts cfg U fail t0 n
  fits : Cbf.Fits cfg.cbf (view cfg n.tree) n.cbf
  core : Core (view cfg n.tree).byHeight n.cbf.rescan.current n.cbf.pending (fun k => n.inv.remaining.contains k = true) n.inv.received.get
    (found n.log) (reported n.log) (Inv.processed n.qInv)
  qSync : ∀ o ∈ n.qSync, ¬ (Out.sync o).Reverts
  aside : ∀ h b, n.inv.received.get h = some b → S b
  queue : ∀ x ∈ Inv.processed n.qInv, S x.2
  told : ∀ x ∈ reported n.log, S x.2
  await : ∀ k, n.inv.remaining.contains k = true → A k

variable {S S' : Block → Prop} {A A' : Nat → Prop}

theorem J.mono (j : J cfg U fail t0 S A n) (hS : ∀ b, S b → S' b) (hA : ∀ k, A k → A' k) : J cfg U fail t0 S' A' n :=
  ⟨j.parts, j.fits, j.core, j.qSync, fun h b hb => hS _ (j.aside h b hb), fun x hx => hS _ (j.queue x hx), fun x hx => hS _ (j.told x hx),
    fun k hk => hA _ (j.await k hk)⟩

/-- What is assumed of headers and of the tree we start with. -/
structure Ctx (cfg : Cfg) (U : Header → Prop) (fail : Bool) (t0 : Chain.State) (g : Header) : Prop where
  acyclic : Chain.Acyclic cfg.sync.chain U
  genesis : cfg.sync.chain.genesisHash = cfg.sync.chain.hash g
  start : Chain.Reach cfg.sync.chain U g fail t0

variable {g : Header}

theorem Ctx.view (c : Ctx cfg U fail t0 g) (p : Parts cfg U fail t0 n) : Chain.ConsistentView cfg.sync.chain g n.tree := by
  obtain ⟨h, hr⟩ := p.sync
  exact Chain.C01_consistent_view c.acyclic c.genesis (Sync.run_reach c.start hr)

theorem byHeight_view (t : Chain.State) (h : Nat) : (view cfg t).byHeight h = (t.getByHeight h).map cfg.sync.chain.hash := by
  simp only [view, Cbf.Tree.byHeight, List.getElem?_map, Chain.State.getByHeight, Option.map_map]
  rfl

theorem Ctx.inj (c : Ctx cfg U fail t0 g) (p : Parts cfg U fail t0 n) :
    ∀ h h' k, (Node.view cfg n.tree).byHeight h = some k → (Node.view cfg n.tree).byHeight h' = some k → h = h' := by
  intro h h' k h1 h2
  have v := c.view p
  rw [byHeight_view, Option.map_eq_some_iff] at h1 h2
  obtain ⟨x, hx, hk⟩ := h1
  obtain ⟨y, hy, hk'⟩ := h2
  have e1 := (v.byHash k h x).2 ⟨hx, hk⟩
  have e2 := (v.byHash k h' y).2 ⟨hy, hk'⟩
  rw [e1] at e2
  simp only [Option.some.injEq, Prod.mk.injEq] at e2
  exact e2.1

theorem Ctx.getBlock (c : Ctx cfg U fail t0 g) (p : Parts cfg U fail t0 n) (h k : Nat) :
    (n.tree.getBlock k).map (·.1) = some h ↔ (Node.view cfg n.tree).byHeight h = some k := by
  have v := c.view p
  rw [byHeight_view]
  constructor
  · intro h1
    rw [Option.map_eq_some_iff] at h1
    obtain ⟨⟨m, x⟩, hx, rfl⟩ := h1
    obtain ⟨h2, h3⟩ := (v.byHash k m x).1 hx
    simp only [h2, Option.map_some, h3]
  · intro h1
    rw [Option.map_eq_some_iff] at h1
    obtain ⟨x, hx, hk⟩ := h1
    rw [(v.byHash k h x).2 ⟨hx, hk⟩]
    rfl

/-! ### Sync manager -/

theorem J.callSync (j : J cfg U fail t0 S A n) {op : Sync.Op} (l : op.Legal U fail) (e : n.callSync cfg op = .ok n')
    (hp : n.tree.chain <+: n'.tree.chain) (hq : ∀ o ∈ n'.qSync, ¬ (Out.sync o).Reverts) : J cfg U fail t0 S A n' := by
  have p := j.parts.callSync l e
  obtain ⟨m, t, hs, rfl⟩ := callSync_ok e
  have hpre : (view cfg n.tree).hashes <+: (view cfg t).hashes := by
    simp only [view]; exact hp.map _
  have keep : ∀ h k, (view cfg n.tree).byHeight h = some k → (view cfg t).byHeight h = some k := by
    intro h k hk
    obtain ⟨ext, hx⟩ := hpre
    simp only [Cbf.Tree.byHeight] at hk ⊢
    rw [← hx, List.getElem?_append_left (List.getElem?_eq_some_iff.1 hk).1]
    exact hk
  refine ⟨p, j.fits.retree cfg.cbf ?_, ?_, hq, j.aside, j.queue, ?_, j.await⟩
  · intro h hh
    obtain ⟨⟨f, b, c⟩, hx⟩ := Option.isSome_iff_exists.1 hh
    have h1 := (j.fits.queue h f b c hx).1
    rw [h1]
    exact keep h b h1
  · simp only [found_append, reported_append, found_sync, reported_sync, List.append_nil]
    exact j.core.congr keep (fun _ => Iff.rfl) (fun _ => Iff.rfl) (fun _ _ => Iff.rfl)
  · simp only [reported_append, reported_sync, List.append_nil]
    exact j.told

/-! ### Inventory manager -/

/-- Operations of the inventory manager that do not touch blocks. -/
def plainInv : Inv.Op → Bool
  | .block _ _ | .getBlock _ => false
  | _ => true

theorem inv_plain {c : Bool} {h : Inv.Hist} {m m' : Inv.Mgr} {op : Inv.Op} (r : Inv.Run c h m) (l : op.Legal)
    (e : { m with out := [] }.step c op = .ok m') (hp : plainInv op = true) : Inv.processed m'.out = [] ∧
      (∀ k, m'.remaining.contains k = true ↔ m.remaining.contains k = true) ∧ ∀ n b, m'.received.get n = some b ↔ m.received.get n = some b := by
  have ho : Inv.processed m'.out = [] := by
    refine Inv.processed_nil fun o ho b n f he => ?_
    subst he
    obtain ⟨_, _, hx⟩ : Inv.Out.From _ _ := Inv.out_from r l e ho
    subst hx
    cases hp
  have s := Inv.run_sync r
  have s' := Inv.run_sync (Inv.Run.step r l e)
  refine ⟨ho, fun k => ?_, fun n b => ?_⟩
  · rw [s'.outstanding, s.outstanding]
    cases op <;> first | rfl | cases hp
  · rw [s'.received, s.received]
    cases op <;> first | exact ⟨fun h => h.2, fun h => ⟨ho, h⟩⟩ | cases hp

theorem J.callInv (j : J cfg U fail t0 S A n) {op : Inv.Op} (l : op.Legal) (hp : plainInv op = true) (e : n.callInv cfg op = .ok n') :
    J cfg U fail t0 S A n' := by
  have p := j.parts.callInv l e
  obtain ⟨m, hs, rfl⟩ := callInv_ok e
  obtain ⟨h, r⟩ := j.parts.inv
  obtain ⟨h1, h2, h3⟩ := inv_plain r l hs hp
  have hq : Inv.processed (n.qInv ++ m.out) = Inv.processed n.qInv := by rw [processed_append', h1, List.append_nil]
  refine ⟨p, j.fits, ?_, j.qSync, fun h b hb => j.aside h b ((h3 h b).1 hb), ?_, ?_, fun k hk => j.await k ((h2 k).1 hk)⟩
  · simp only [found_append, reported_append, found_inv, reported_inv, List.append_nil, hq]
    exact j.core.congr (fun _ _ h => h) (fun _ => Iff.rfl) h2 h3
  · simp only [hq]; exact j.queue
  · simp only [reported_append, reported_inv, List.append_nil]; exact j.told

theorem J.callInv_block (c : Ctx cfg U fail t0 g) (j : J cfg U fail t0 S A n) {b : Block} (hb : S b)
    (e : n.callInv cfg (.block b ((n.tree.getBlock b.hash).map (·.1))) = .ok n') : J cfg U fail t0 S (fun k => A k ∧ k ≠ b.hash) n' := by
  have p := j.parts.callInv (op := .block _ _) trivial e
  have inj := c.inj j.parts
  have gb := fun h => c.getBlock j.parts h b.hash
  obtain ⟨m, hs, rfl⟩ := callInv_ok e
  obtain ⟨h, r⟩ := j.parts.inv
  have s := Inv.run_sync r
  generalize (n.tree.getBlock b.hash).map (·.1) = k at hs gb
  rcases Inv.block_cases s hs with ⟨ho, s', hn⟩ | ⟨hout, hall, h0, rfl, ks, hsort, hmem, P, hpr, hrec⟩
  · -- nothing is processed
    have hq : Inv.processed (n.qInv ++ m.out) = Inv.processed n.qInv := by rw [ho, List.append_nil]
    have rem' : ∀ x, m.remaining.contains x = true ↔ x ≠ b.hash ∧ n.inv.remaining.contains x = true := by
      intro x
      rw [s'.outstanding, s.outstanding]
      exact ⟨fun h => ⟨Ne.symm h.1, h.2⟩, fun h => ⟨Ne.symm h.1, h.2⟩⟩
    have core : Core (view cfg n.tree).byHeight n.cbf.rescan.current n.cbf.pending (fun k => m.remaining.contains k = true) m.received.get
        (found n.log) (reported n.log) (Inv.processed n.qInv) ∧ ∀ h' d, m.received.get h' = some d → d = b ∨ n.inv.received.get h' = some d := by
      by_cases hr : n.inv.remaining.contains b.hash = true
      · obtain ⟨h0, hh0⟩ := j.core.rem_chain hr
        have hk : k = some h0 := (gb h0).2 hh0
        subst hk
        have rec' : ∀ h' d, m.received.get h' = some d ↔ (h' = h0 ∧ d = b) ∨ (h' ≠ h0 ∧ n.inv.received.get h' = some d) := by
          intro h' d
          rw [s'.received, s.received, Inv.Waiting]
          have hO : Inv.Outstanding b.hash h := (s.outstanding _).1 hr
          simp only [ho, Inv.processed, List.filterMap_nil, hO, and_true, true_and, eq_comm (a := h0)]
        refine ⟨j.core.keep inj hr hh0 rem' rec' ?_, fun h' d hd => ?_⟩
        · by_contra hc
          apply hn
          refine ⟨(s.outstanding _).1 hr, ⟨h0, rfl⟩, fun x hx => ?_⟩
          by_contra hne
          exact hc ⟨x, (rem' x).2 ⟨hne, (s.outstanding x).2 hx⟩⟩
        · rcases (rec' h' d).1 hd with h1 | h1
          · exact .inl h1.2
          · exact .inr h1.2
      · have hO : ¬ Inv.Outstanding b.hash h := fun hx => hr ((s.outstanding _).2 hx)
        have rec' : ∀ h' d, m.received.get h' = some d ↔ n.inv.received.get h' = some d := by
          intro h' d
          rw [s'.received, s.received]
          cases k with
          | none => exact ⟨fun h => h.2, fun h => ⟨by rw [ho]; rfl, h⟩⟩
          | some k => simp [Inv.Waiting, hO, ho, Inv.processed]
        refine ⟨j.core.congr (fun _ _ h => h) (fun _ => Iff.rfl) (fun x => ?_) rec', fun h' d hd => .inr ((rec' h' d).1 hd)⟩
        rw [rem']
        constructor
        · exact fun h => h.2
        · intro hx
          exact ⟨fun he => hr (he ▸ hx), hx⟩
    refine ⟨p, j.fits, ?_, j.qSync, ?_, ?_, ?_, fun x hx => ⟨j.await x ((rem' x).1 hx).2, ((rem' x).1 hx).1⟩⟩
    · simp only [found_append, reported_append, found_inv, reported_inv, List.append_nil, hq]
      exact core.1
    · intro h' d hd
      rcases core.2 h' d hd with rfl | h1
      · exact hb
      · exact j.aside h' d h1
    · simp only [hq]; exact j.queue
    · simp only [reported_append, reported_inv, List.append_nil]; exact j.told
  · -- all blocks put aside are processed
    have s' := Inv.run_sync (Inv.Run.step r (op := .block b (some h0)) trivial hs)
    have hr : n.inv.remaining.contains b.hash = true := (s.outstanding _).2 hout
    have hh0 : (view cfg n.tree).byHeight h0 = some b.hash := (gb h0).1 rfl
    have rem' : ∀ x, ¬ m.remaining.contains x = true := by
      intro x hx
      obtain ⟨h1, h2⟩ := (s'.outstanding x).1 hx
      exact h1 (hall x h2).symm
    have memD : ∀ h' d, (h', d) ∈ Inv.processed m.out ↔ (h' = h0 ∧ d = b) ∨ (h' ≠ h0 ∧ n.inv.received.get h' = some d) := by
      intro h' d
      rw [hpr, List.mem_filterMap]
      simp only [hmem, Option.map_eq_some_iff, Prod.mk.injEq]
      rw [show (∃ a, a ∈ (n.inv.received.insert h0 b).keys ∧ ∃ x, (n.inv.received.insert h0 b).get a = some x ∧ a = h' ∧ x = d) ↔
        (n.inv.received.insert h0 b).get h' = some d from ⟨by rintro ⟨a, _, x, hx, rfl, rfl⟩; exact hx, fun hx =>
          ⟨h', (AMap.contains_iff _ _).1 (by simp [AMap.contains, hx]), d, hx, rfl, rfl⟩⟩, AMap.get_insert]
      by_cases he : h0 = h'
      · subst he; simp [eq_comm]
      · simp [he, Ne.symm he]
    have sortD : (Inv.processed m.out).Pairwise (fun x y => x.1 < y.1) := by
      rw [hpr]
      refine List.Pairwise.filterMap _ ?_ hsort
      rintro a a' haa x hx y hy
      simp only [Option.map_eq_some_iff] at hx hy
      obtain ⟨_, _, rfl⟩ := hx
      obtain ⟨_, _, rfl⟩ := hy
      exact haa
    have core := j.core.flush inj hr hh0 (fun x hx => hall x ((s.outstanding x).1 hx)) rem' hrec sortD memD
    refine ⟨p, j.fits, ?_, j.qSync, ?_, ?_, ?_, fun x hx => absurd hx (rem' x)⟩
    · simp only [found_append, reported_append, found_inv, reported_inv, List.append_nil, processed_append']
      exact core
    · intro h' d hd
      rw [hrec] at hd
      cases hd
    · simp only [processed_append', List.mem_append]
      rintro ⟨h', d⟩ (hx | hx)
      · exact j.queue _ hx
      · rcases (memD h' d).1 hx with ⟨_, rfl⟩ | ⟨_, h1⟩
        · exact hb
        · exact j.aside _ _ h1
    · simp only [reported_append, reported_inv, List.append_nil]; exact j.told

/-! ### Filter manager -/

theorem J.callCbf_idle (j : J cfg U fail t0 S A n) {env : Cbf.Env} {op : Cbf.Op} (hb : busy op = false)
    (e : n.callCbf cfg env none op = .ok n') : J cfg U fail t0 S A n' := by
  have p := j.parts.callCbf e
  obtain ⟨o, c⟩ := called j.fits.cacheOK e
  have hr : op.reverts = false := by cases op <;> first | rfl | exact hb
  have i := step_idle _ _ _ c.step hb
  obtain ⟨o', h1, h2, h3, h4⟩ := i.out
  have : o = o' := List.append_cancel_left (c.out.symm.trans h1)
  subst this
  have rem' : ∀ k, n'.inv.remaining.contains k = true ↔ n.inv.remaining.contains k = true := by
    intro k; rw [c.rem, h4]; simp
  have told : reported n'.log = reported n.log := by rw [c.reported, reported_label_none, List.append_nil]
  refine ⟨p, ?_, ?_, by rw [c.qSync]; exact j.qSync, by rw [c.received]; exact j.aside, by rw [c.processed]; exact j.queue,
    by rw [told]; exact j.told, fun k hk => j.await k ((rem' k).1 hk)⟩
  · rw [c.tree]; exact j.fits.step cfg.cbf env op c.step hr
  · rw [c.tree, c.found, told, c.processed, h2, List.append_nil, i.pending, i.current, c.received]
    exact j.core.congr (fun _ _ h => h) (fun _ => Iff.rfl) rem' (fun _ _ => Iff.rfl)

theorem J.callCbf_cfilter (j : J cfg U fail t0 S A n) {env : Cbf.Env} {peer ft block : Nat} {f : Cbf.Filter}
    (e : n.callCbf cfg env none (.cfilter peer ft block f) = .ok n') :
    ∃ d, n'.log = n.log ++ d ∧ J cfg U fail t0 S (fun k => A k ∨ ∃ height, (height, k) ∈ found d) n' := by
  have p := j.parts.callCbf e
  obtain ⟨o, c⟩ := called j.fits.cacheOK e
  obtain ⟨d, hd, hfd, _⟩ := c.log
  obtain ⟨ms, i⟩ := step_cfilter _ _ _ c.step j.core.pending_lt
  obtain ⟨o', h1, h2, h3, h4⟩ := i.out
  have : o = o' := List.append_cancel_left (c.out.symm.trans h1)
  subst this
  have told : reported n'.log = reported n.log := by rw [c.reported, reported_label_none, List.append_nil]
  have chain : ∀ x ∈ ms, (view cfg n.tree).byHeight x.1 = some x.2 := by
    rintro ⟨h, k⟩ hx
    rw [← h2, foundC, List.mem_filterMap] at hx
    obtain ⟨y, hy, he⟩ := hx
    split at he
    · rename_i k' h' v c'
      simp only [Option.some.injEq, Prod.mk.injEq] at he
      obtain ⟨rfl, rfl⟩ := he
      obtain ⟨o2, hx1, hx2⟩ := (Cbf.step_facts cfg.cbf env _ n.cbf n'.cbf _ c.step j.fits.cacheOK).out
      have : o = o2 := List.append_cancel_left (c.out.symm.trans hx1)
      subst this
      obtain ⟨_, hsrc, _⟩ := hx2 _ _ _ _ _ (List.mem_filterMap.2 ⟨_, hy, rfl⟩)
      exact (j.fits.source cfg.cbf hsrc).1
    · cases he
  refine ⟨d, hd, p, ?_, ?_, by rw [c.qSync]; exact j.qSync, by rw [c.received]; exact j.aside, by rw [c.processed]; exact j.queue,
    by rw [told]; exact j.told, ?_⟩
  · rw [c.tree]; exact j.fits.step cfg.cbf env _ c.step rfl
  · rw [c.tree, c.found, told, c.processed, h2, c.received]
    exact j.core.find i.current i.range i.sorted chain i.pending (fun k => by rw [c.rem, h4]) (fun _ _ => Iff.rfl)
  · intro k hk
    rcases (c.rem k).1 hk with h5 | h5
    · exact .inl (j.await k h5)
    · rw [h4] at h5
      obtain ⟨x, hx, rfl⟩ := List.mem_map.1 h5
      exact .inr ⟨x.1, by rw [hfd, h2]; exact hx⟩

theorem J.callCbf_rescan (j : J cfg U fail t0 S A n) {env : Cbf.Env} {a b : Cbf.Bound} {w : List Nat}
    (e : n.callCbf cfg env none (.rescan a b w) = .ok n') (hr : (reported n.log).map key = found n.log)
    (hf : ∀ d, n'.log = n.log ++ d → found d = []) : J cfg U fail t0 S A n' := by
  have p := j.parts.callCbf e
  obtain ⟨o, c⟩ := called j.fits.cacheOK e
  obtain ⟨d, hd, hfd, _⟩ := c.log
  obtain ⟨o', ms, h1, h2, h3, h4, h5⟩ := step_rescan _ _ _ c.step
  have : o = o' := List.append_cancel_left (c.out.symm.trans h1)
  subst this
  have hms : ms = [] := by rw [← h2, ← hfd]; exact hf d hd
  subst hms
  have rem' : ∀ k, n'.inv.remaining.contains k = true ↔ n.inv.remaining.contains k = true := by
    intro k; rw [c.rem, h4]; simp
  have told : reported n'.log = reported n.log := by rw [c.reported, reported_label_none, List.append_nil]
  refine ⟨p, ?_, ?_, by rw [c.qSync]; exact j.qSync, by rw [c.received]; exact j.aside, by rw [c.processed]; exact j.queue,
    by rw [told]; exact j.told, fun k hk => j.await k ((rem' k).1 hk)⟩
  · rw [c.tree]; exact j.fits.step cfg.cbf env _ c.step rfl
  · rw [c.tree, c.found, told, c.processed, h2, List.append_nil, h5, c.received]
    exact (j.core.congr (fun _ _ h => h) (fun _ => Iff.rfl) rem' (fun _ _ => Iff.rfl)).restart hr

theorem J.callCbf_processed {b : Block} {height : Nat} {fees : Option Fees.Estimate} {q : List Inv.Out} (j : J cfg U fail t0 S A n)
    (hq : n.qInv = .processed b height fees :: q) {env : Cbf.Env}
    (e : ({ n with qInv := q } : Fsm).callCbf cfg env (some b) (.blockProcessed b.hash height) = .ok n') : J cfg U fail t0 S A n' := by
  have p : Parts cfg U fail t0 n' := Parts.callCbf (n := { n with qInv := q }) ⟨j.parts.sync, j.parts.inv, j.parts.cbf⟩ e
  obtain ⟨o, c⟩ := called (n := { n with qInv := q }) j.fits.cacheOK e
  have hpq : Inv.processed n.qInv = (height, b) :: Inv.processed q := by rw [hq]; rfl
  have core := j.core
  rw [hpq] at core
  have queue := j.queue
  rw [hpq] at queue
  have hpend := core.pending_head
  rcases step_processed _ _ _ c.step with ⟨_, ⟨o', h1, h2, h3, h4⟩, h5, h6⟩ | ⟨hn, _⟩
  swap
  · exact absurd hpend hn
  have : o = o' := List.append_cancel_left (c.out.symm.trans h1)
  subst this
  have rem' : ∀ k, n'.inv.remaining.contains k = true ↔ n.inv.remaining.contains k = true := by
    intro k; rw [c.rem, h4]; simp
  have told : reported n'.log = reported n.log ++ [(height, b)] := by rw [c.reported, reported_label, h3]; rfl
  have hproc : Inv.processed n'.qInv = Inv.processed q := c.processed
  refine ⟨p, ?_, ?_, by rw [c.qSync]; exact j.qSync, by rw [c.received]; exact j.aside, ?_, ?_, fun k hk => j.await k ((rem' k).1 hk)⟩
  · rw [c.tree]; exact j.fits.step cfg.cbf env _ c.step rfl
  · rw [c.tree, c.found, told, hproc, h2, List.append_nil, h6, c.received]
    exact ((core.congr (fun _ _ h => h) (fun _ => Iff.rfl) rem' (fun _ _ => Iff.rfl)).report h5)
  · rw [hproc]
    exact fun x hx => queue x (List.mem_cons_of_mem _ hx)
  · rw [told]
    intro x hx
    rcases List.mem_append.1 hx with hx | hx
    · exact j.told x hx
    · rw [List.mem_singleton] at hx
      subst hx
      exact queue _ (List.mem_cons_self ..)

end Verif.Node
