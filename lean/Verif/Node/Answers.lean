import Verif.Node.Owners
import Verif.Node.Queues
import Verif.Sync.Props
import Verif.Sync.PropsTip

/-!
# Commands that only read: what the client answers about the chain and about submitted transactions
-/

set_option autoImplicit false

namespace Verif.Node
open Verif.Tx (Block Transaction)
open Verif.Chain (Header)

variable {cfg : Cfg} {U : Header → Prop} {fail : Bool} {t0 : Chain.State} {g : Header} {h : Hist} {n n' : Fsm}
variable {P : Hist → Fsm → Input → Fsm → List Out → Prop}

/-! ## Model -/

/-- The command `GetTip` (fsm.rs:696-702): height and header of the tip, and the work of the chain. -/
def Fsm.getTip (cfg : Cfg) (n : Fsm) : Nat × Header × Nat := (n.tree.height, (n.tree.tip cfg.sync.chain).2, n.tree.chainWork)

/-- The command `GetBlockByHash` (fsm.rs:643-647). -/
def Fsm.getBlockByHash (n : Fsm) (hash : Nat) : Option (Nat × Header) := n.tree.getBlock hash

/-- The command `GetBlockByHeight` (fsm.rs:648-652). -/
def Fsm.getBlockByHeight (n : Fsm) (height : Nat) : Option Header := n.tree.getByHeight height

/-- The command `GetSubmittedTransaction` (fsm.rs:738-741). -/
def Fsm.getSubmitted (n : Fsm) (txid : Nat) : Option Transaction := n.inv.getSubmitted txid

/-! ## Specification -/

/-- What the sync manager put out. -/
def syncOuts (l : List Out) : List Sync.Out := l.filterMap (fun o => match o with | .sync o => some o | _ => none)

/-- What an output says about the pending transactions, by witness id: those of a processed block are confirmed, those of a reverted
block are pending again. -/
def settles (f : Nat → Option Transaction) : Out → Nat → Option Transaction
  | .inv o => Inv.settle f o
  | _ => f

/-- The transactions that were submitted, or were in a block that was reverted, and that were in no block processed since; by witness id. -/
def pendingTx : Hist → Nat → Option Transaction
  | [] => fun _ => none
  | (.submit t, outs) :: h => outs.foldl settles (fun w => if w = t.wtxid then some t else pendingTx h w)
  | (_, outs) :: h => outs.foldl settles (pendingTx h)

/-- The client goes on. -/
inductive Later (cfg : Cfg) (U : Header → Prop) (fail : Bool) : Fsm → Fsm → Prop where
  | now (n : Fsm) : Later cfg U fail n n
  | step {n n' n'' : Fsm} {i : Input} (e : Env) (l : Later cfg U fail n n') (hl : Legal U fail e i) (hs : n'.step cfg e i = .ok n'') :
      Later cfg U fail n n''

/-! ## The part of the sync manager -/

/-- Tree and sync manager are left alone. -/
structure Same (n n' : Fsm) : Prop where
  tree : n'.tree = n.tree
  sync : n'.sync = n.sync
  log : syncOuts n'.log = syncOuts n.log

theorem Same.refl (n : Fsm) : Same n n := ⟨rfl, rfl, rfl⟩

theorem Same.trans {n1 n2 n3 : Fsm} (a : Same n1 n2) (b : Same n2 n3) : Same n1 n3 :=
  ⟨b.tree.trans a.tree, b.sync.trans a.sync, b.log.trans a.log⟩

theorem syncOuts_append (a b : List Out) : syncOuts (a ++ b) = syncOuts a ++ syncOuts b := by simp [syncOuts]

theorem syncOuts_sync (l : List Sync.Out) : syncOuts (l.map .sync) = l := by
  induction l with
  | nil => rfl
  | cons x l ih => simp only [List.map_cons, syncOuts, List.filterMap_cons]; rw [← syncOuts, ih]

theorem syncOuts_none {l : List Out} (hl : ∀ o ∈ l, ∀ x, o ≠ .sync x) : syncOuts l = [] := by
  rw [syncOuts, List.filterMap_eq_nil_iff]
  intro o ho
  cases o with
  | sync x => exact absurd rfl (hl _ ho x)
  | _ => rfl

theorem same_callInv {op : Inv.Op} (e : n.callInv cfg op = .ok n') : Same n n' := by
  obtain ⟨m, -, rfl⟩ := callInv_ok e
  refine ⟨rfl, rfl, ?_⟩
  simp only [syncOuts_append]
  rw [syncOuts_none (l := m.out.map .inv), List.append_nil]
  intro o ho x hx
  subst hx
  obtain ⟨y, -, hy⟩ := List.mem_map.1 ho
  cases hy

theorem same_requestBlocks : ∀ (l : List Nat) {n n' : Fsm}, Fsm.requestBlocks cfg l n = .ok n' → Same n n'
  | [], n, n', e => by cases e; exact .refl n
  | k :: l, n, n', e => by
    simp only [Fsm.requestBlocks, Res.bind_eq_ok] at e
    obtain ⟨n1, h1, h2⟩ := e
    exact (same_callInv h1).trans (same_requestBlocks l h2)

theorem same_callCbf {env : Cbf.Env} {b : Option Block} {op : Cbf.Op} (e : n.callCbf cfg env b op = .ok n') : Same n n' := by
  obtain ⟨c, -, hr⟩ := callCbf_ok e
  refine Same.trans ?_ (same_requestBlocks _ hr)
  refine ⟨rfl, rfl, ?_⟩
  simp only [syncOuts_append]
  rw [syncOuts_none (l := (c.out.drop n.cbf.out.length).filterMap (label b)), List.append_nil]
  intro o ho x
  obtain ⟨y, -, hy⟩ := List.mem_filterMap.1 ho
  exact (label_waits hy).1 x

/-- The sync manager does one operation, with the headers `b`. -/
def Turn (cfg : Cfg) (U : Header → Prop) (fail : Bool) (b : List (Header × Chain.Env)) (n n' : Fsm) : Prop :=
  ∃ op m t, op.Legal U fail ∧ op.batch = b ∧ { n.sync with out := [] }.step cfg.sync n.tree op = .ok (m, t) ∧ n'.sync = m ∧ n'.tree = t ∧
    syncOuts n'.log = syncOuts n.log ++ m.out

theorem turn_callSync {op : Sync.Op} (l : op.Legal U fail) (e : n.callSync cfg op = .ok n') : Turn cfg U fail op.batch n n' := by
  obtain ⟨m, t, hs, rfl⟩ := callSync_ok e
  exact ⟨op, m, t, l, rfl, hs, rfl, rfl, by simp only [syncOuts_append, syncOuts_sync]⟩

theorem Same.turn {b : List (Header × Chain.Env)} {n1 n2 n3 : Fsm} (s : Same n1 n2) (t : Turn cfg U fail b n2 n3) : Turn cfg U fail b n1 n3 := by
  obtain ⟨op, m, t, h1, h2, h3, h4, h5, h6⟩ := t
  exact ⟨op, m, t, h1, h2, by rw [← s.sync, ← s.tree]; exact h3, h4, h5, by rw [h6, s.log]⟩

theorem Turn.same {b : List (Header × Chain.Env)} {n1 n2 n3 : Fsm} (t : Turn cfg U fail b n1 n2) (s : Same n2 n3) : Turn cfg U fail b n1 n3 := by
  obtain ⟨op, m, t, h1, h2, h3, h4, h5, h6⟩ := t
  exact ⟨op, m, t, h1, h2, h3, s.sync.trans h4, s.tree.trans h5, s.log.trans h6⟩

theorem same_deliverSync {e : Env} {o : Sync.Out} (hs : n.deliverSync cfg e o = .ok n') : Same n n' := by
  cases o with
  | disconnected height hd => simp only [Fsm.deliverSync] at hs; exact same_callCbf hs
  | imported a b c d r =>
    simp only [Fsm.deliverSync, Res.bind_eq_ok] at hs
    obtain ⟨n1, h1, h2⟩ := hs
    exact (same_callCbf h1).trans (same_callInv h2)
  | _ => cases hs; exact .refl n

theorem same_deliverInv {e : Env} {o : Inv.Out} (hs : n.deliverInv cfg e o = .ok n') : Same n n' := by
  cases o with
  | processed b height fees => simp only [Fsm.deliverInv] at hs; exact same_callCbf hs
  | confirmed => simp only [Fsm.deliverInv] at hs; exact same_callCbf hs
  | reverted => simp only [Fsm.deliverInv] at hs; exact same_callCbf hs
  | _ => cases hs; exact .refl n

/-- What a step is for the sync manager. -/
theorem step_turn {e : Env} {i : Input} (l : Legal U fail e i) (hs : n.step cfg e i = .ok n') : Same n n' ∨ Turn cfg U fail i.batch n n' := by
  have none : ∀ p ∈ ([] : List (Header × Chain.Env)), U p.1 ∧ Chain.EnvOk fail p.2 := by simp
  cases i with
  | init =>
    simp only [Fsm.step, Res.bind_eq_ok] at hs
    obtain ⟨n1, h1, h2⟩ := hs
    exact .inr ((turn_callSync (op := .init e.sync e.now) (by exact ⟨l.sync, none⟩) h1).same (same_callCbf h2))
  | negotiated a height outbound network filters relay wtxidrelay persistent =>
    simp only [Fsm.step, Res.bind_eq_ok] at hs
    obtain ⟨n1, h1, n2, h2, h3⟩ := hs
    exact .inr (((same_callCbf h1).trans (same_callInv h2)).turn (turn_callSync (op := .negotiated _ _ _ _ _ _ _) (by exact ⟨l.sync, none⟩) h3))
  | disconnected a =>
    simp only [Fsm.step, Res.bind_eq_ok] at hs
    obtain ⟨n1, h1, n2, h2, h3⟩ := hs
    exact .inr (((same_callCbf h1).trans (same_callInv h2)).turn (turn_callSync (op := .gone _) (by exact ⟨trivial, none⟩) h3))
  | headers a hs' => simp only [Fsm.step] at hs; exact .inr (turn_callSync (op := .headers _ _ _ _) (by exact ⟨l.sync, l.headers⟩) hs)
  | getheaders a lo => simp only [Fsm.step] at hs; exact .inr (turn_callSync (op := .getheaders _ _) (by exact ⟨trivial, none⟩) hs)
  | invs a is => simp only [Fsm.step] at hs; exact .inr (turn_callSync (op := .inv _ _ _) (by exact ⟨trivial, none⟩) hs)
  | block b => simp only [Fsm.step] at hs; exact .inl (same_callInv hs)
  | getdata => simp only [Fsm.step] at hs; exact .inl (same_callInv hs)
  | cfheaders => simp only [Fsm.step] at hs; exact .inl (same_callCbf hs)
  | getcfheaders => simp only [Fsm.step] at hs; exact .inl (same_callCbf hs)
  | cfilter => simp only [Fsm.step] at hs; exact .inl (same_callCbf hs)
  | timer =>
    simp only [Fsm.step, Res.bind_eq_ok] at hs
    obtain ⟨n1, h1, n2, h2, h3⟩ := hs
    exact .inr (((same_callInv h1).turn (turn_callSync (op := .timer _ _) (by exact ⟨l.sync, none⟩) h2)).same (same_callCbf h3))
  | importHeaders hs' => simp only [Fsm.step] at hs; exact .inr (turn_callSync (op := .userImport _ _) (by exact ⟨l.sync, l.headers⟩) hs)
  | requestFilters => simp only [Fsm.step] at hs; exact .inl (same_callCbf hs)
  | requestBlock => simp only [Fsm.step] at hs; exact .inl (same_callInv hs)
  | submit t =>
    simp only [Fsm.step, Res.bind_eq_ok] at hs
    obtain ⟨n1, h1, h2⟩ := hs
    exact .inl ((same_callCbf h1).trans (same_callInv h2))
  | rescan => simp only [Fsm.step] at hs; exact .inl (same_callCbf hs)
  | watch => simp only [Fsm.step] at hs; exact .inl (same_callCbf hs)
  | next =>
    simp only [Fsm.step, Fsm.next] at hs
    split at hs
    · rename_i q _
      exact .inl (Same.trans (n2 := { n with qSync := q }) ⟨rfl, rfl, rfl⟩ (same_deliverSync hs))
    · split at hs
      · rename_i q _
        exact .inl (Same.trans (n2 := { n with qInv := q }) ⟨rfl, rfl, rfl⟩ (same_deliverInv hs))
      · cases hs; exact .inl ⟨rfl, rfl, rfl⟩

/-- A history of the state machine is one of the sync manager, with the same outputs. -/
theorem run_syncPart {Q : Chain.State → Sync.Op → Prop} (r : Run cfg U fail P t0 h n)
    (hQ : ∀ h n i n' outs op, P h n i n' outs → op.batch = i.batch → Q n.tree op) :
    ∃ hs, Sync.Run cfg.sync U fail Q t0 hs n.sync n.tree ∧ Sync.outputs hs = syncOuts n.log := by
  induction r with
  | start f c => exact ⟨_, .start, rfl⟩
  | step e r l hs ho p ih =>
    obtain ⟨hh, k1, k2⟩ := ih
    rcases step_turn l hs with s | ⟨op, m, t, a1, a2, a3, a4, a5, a6⟩
    · exact ⟨hh, by rw [s.sync, s.tree]; exact k1, by rw [s.log, k2]⟩
    · subst a4 a5
      refine ⟨_, .step k1 a1 (hQ _ _ _ _ _ op p a2) a3, ?_⟩
      rw [a6, ← k2]
      simp [Sync.outputs]

/-! ## The queue of the sync manager -/

/-- Outputs of the sync manager wait in the order in which they were put out. -/
theorem queue_suffix (r : Run cfg U fail P t0 h n) : n.qSync <:+ syncOuts n.log := by
  have inv : ∀ {op : Inv.Op} {n n' : Fsm}, n.callInv cfg op = .ok n' → n'.qSync = n.qSync := by
    intro op n n' e
    obtain ⟨m, -, rfl⟩ := callInv_ok e
    rfl
  have blocks : ∀ (l : List Nat) {n n' : Fsm}, Fsm.requestBlocks cfg l n = .ok n' → n'.qSync = n.qSync := by
    intro l
    induction l with
    | nil => intro n n' e; cases e; rfl
    | cons k l ih =>
      intro n n' e
      simp only [Fsm.requestBlocks, Res.bind_eq_ok] at e
      obtain ⟨n1, h1, h2⟩ := e
      rw [ih h2, inv h1]
  have cbf : ∀ {env : Cbf.Env} {b : Option Block} {op : Cbf.Op} {n n' : Fsm}, n.callCbf cfg env b op = .ok n' → n'.qSync = n.qSync := by
    intro env b op n n' e
    obtain ⟨c, -, hr⟩ := callCbf_ok e
    exact (blocks _ hr :)
  have kinv : ∀ {op : Inv.Op} {n n' : Fsm}, n.qSync <:+ syncOuts n.log → n.callInv cfg op = .ok n' → n'.qSync <:+ syncOuts n'.log := by
    intro op n n' k e
    rw [inv e, (same_callInv e).log]; exact k
  have kcbf : ∀ {env : Cbf.Env} {b : Option Block} {op : Cbf.Op} {n n' : Fsm}, n.qSync <:+ syncOuts n.log → n.callCbf cfg env b op = .ok n' →
      n'.qSync <:+ syncOuts n'.log := by
    intro env b op n n' k e
    rw [cbf e, (same_callCbf e).log]; exact k
  have ksync : ∀ {op : Sync.Op} {n n' : Fsm}, n.qSync <:+ syncOuts n.log → n.callSync cfg op = .ok n' → n'.qSync <:+ syncOuts n'.log := by
    intro op n n' k e
    obtain ⟨m, t, -, rfl⟩ := callSync_ok e
    obtain ⟨p, hp⟩ := k
    exact ⟨p, by simp only [syncOuts_append, syncOuts_sync, ← hp, List.append_assoc]⟩
  induction r with
  | start f c => exact List.suffix_refl []
  | @step h n n' i outs e r l hs ho p ih =>
    clear ho p
    cases i with
    | init =>
      simp only [Fsm.step, Res.bind_eq_ok] at hs
      obtain ⟨n1, h1, h2⟩ := hs
      exact kcbf (ksync ih h1) h2
    | negotiated =>
      simp only [Fsm.step, Res.bind_eq_ok] at hs
      obtain ⟨n1, h1, n2, h2, h3⟩ := hs
      exact ksync (kinv (kcbf ih h1) h2) h3
    | disconnected =>
      simp only [Fsm.step, Res.bind_eq_ok] at hs
      obtain ⟨n1, h1, n2, h2, h3⟩ := hs
      exact ksync (kinv (kcbf ih h1) h2) h3
    | headers => simp only [Fsm.step] at hs; exact ksync ih hs
    | getheaders => simp only [Fsm.step] at hs; exact ksync ih hs
    | invs => simp only [Fsm.step] at hs; exact ksync ih hs
    | block => simp only [Fsm.step] at hs; exact kinv ih hs
    | getdata => simp only [Fsm.step] at hs; exact kinv ih hs
    | cfheaders => simp only [Fsm.step] at hs; exact kcbf ih hs
    | getcfheaders => simp only [Fsm.step] at hs; exact kcbf ih hs
    | cfilter => simp only [Fsm.step] at hs; exact kcbf ih hs
    | timer =>
      simp only [Fsm.step, Res.bind_eq_ok] at hs
      obtain ⟨n1, h1, n2, h2, h3⟩ := hs
      exact kcbf (ksync (kinv ih h1) h2) h3
    | importHeaders => simp only [Fsm.step] at hs; exact ksync ih hs
    | requestFilters => simp only [Fsm.step] at hs; exact kcbf ih hs
    | requestBlock => simp only [Fsm.step] at hs; exact kinv ih hs
    | submit =>
      simp only [Fsm.step, Res.bind_eq_ok] at hs
      obtain ⟨n1, h1, h2⟩ := hs
      exact kinv (kcbf ih h1) h2
    | rescan => simp only [Fsm.step] at hs; exact kcbf ih hs
    | watch => simp only [Fsm.step] at hs; exact kcbf ih hs
    | next =>
      simp only [Fsm.step, Fsm.next] at hs
      split at hs
      · rename_i o q hq
        have ih' : ({ n with qSync := q } : Fsm).qSync <:+ syncOuts n.log := (List.suffix_cons o q).trans (hq ▸ ih)
        cases o with
        | disconnected height hd => simp only [Fsm.deliverSync] at hs; exact kcbf (n := { n with qSync := q }) ih' hs
        | imported a b c d r =>
          simp only [Fsm.deliverSync, Res.bind_eq_ok] at hs
          obtain ⟨n1, h1, h2⟩ := hs
          exact kinv (kcbf (n := { n with qSync := q }) ih' h1) h2
        | _ => cases hs; exact ih'
      · split at hs
        · rename_i o q hq
          have ih' : ({ n with qInv := q } : Fsm).qSync <:+ syncOuts n.log := ih
          cases o with
          | processed b height fees => simp only [Fsm.deliverInv] at hs; exact kcbf (n := { n with qInv := q }) ih' hs
          | confirmed => simp only [Fsm.deliverInv] at hs; exact kcbf (n := { n with qInv := q }) ih' hs
          | reverted => simp only [Fsm.deliverInv] at hs; exact kcbf (n := { n with qInv := q }) ih' hs
          | _ => cases hs; exact ih'
        · cases hs; exact ih

/-! ## The part of the inventory manager -/

/-- The inventory manager, if it is told of no new transactions, keeps the pending ones as its outputs say. -/
theorem inv_pool {c : Bool} {hi : Inv.Hist} {m m' : Inv.Mgr} {op : Inv.Op} (r : Inv.Run c hi m) (l : op.Legal) (e : { m with out := [] }.step c op = .ok m')
    (hn : ∀ t, op ≠ .announce t) : m'.pool.get = m'.out.foldl Inv.settle m.pool.get := by
  have h1 := (Inv.run_sync r).pool
  have h2 := (Inv.run_sync (.step r l e)).pool
  rw [h2, h1]
  cases op with
  | announce t => exact absurd rfl (hn t)
  | _ => rfl

theorem inv_announce {c : Bool} {hi : Inv.Hist} {m m' : Inv.Mgr} {t : Transaction} (r : Inv.Run c hi m)
    (e : { m with out := [] }.step c (.announce t) = .ok m') :
    m'.pool.get = m'.out.foldl Inv.settle (fun w => if w = t.wtxid then some t else m.pool.get w) := by
  have h1 := (Inv.run_sync r).pool
  have h2 := (Inv.run_sync (.step r (op := .announce t) trivial e)).pool
  rw [h2, h1]
  rfl

theorem settles_inv (l : List Inv.Out) (f : Nat → Option Transaction) : (l.map Out.inv).foldl settles f = l.foldl Inv.settle f := by
  induction l generalizing f with
  | nil => rfl
  | cons x l ih => exact ih _

theorem settles_other {l : List Out} (hl : ∀ o ∈ l, ∀ x, o ≠ .inv x) (f : Nat → Option Transaction) : l.foldl settles f = f := by
  induction l generalizing f with
  | nil => rfl
  | cons x l ih =>
    rw [List.foldl_cons, ih (fun o ho => hl o (List.mem_cons_of_mem _ ho))]
    cases x with
    | inv o => exact absurd rfl (hl _ List.mem_cons_self o)
    | _ => rfl

/-- The pending transactions change as the new outputs say. -/
def Accounts (n n' : Fsm) : Prop := ∃ d, n'.log = n.log ++ d ∧ n'.inv.pool.get = d.foldl settles n.inv.pool.get

theorem Accounts.trans {n1 n2 n3 : Fsm} (a : Accounts n1 n2) (b : Accounts n2 n3) : Accounts n1 n3 := by
  obtain ⟨d1, e1, k1⟩ := a
  obtain ⟨d2, e2, k2⟩ := b
  exact ⟨d1 ++ d2, by rw [e2, e1, List.append_assoc], by rw [k2, k1, List.foldl_append]⟩

theorem Accounts.refl (n : Fsm) : Accounts n n := ⟨[], by simp, rfl⟩

theorem accounts_callInv (p : Parts cfg U fail t0 n) {op : Inv.Op} (l : op.Legal) (hn : ∀ t, op ≠ .announce t) (e : n.callInv cfg op = .ok n') :
    Accounts n n' := by
  obtain ⟨hi, ri⟩ := p.inv
  obtain ⟨m, hs, rfl⟩ := callInv_ok e
  exact ⟨_, rfl, by rw [settles_inv]; exact inv_pool ri l hs hn⟩

theorem accounts_callSync {op : Sync.Op} (e : n.callSync cfg op = .ok n') : Accounts n n' := by
  obtain ⟨m, t, hs, rfl⟩ := callSync_ok e
  refine ⟨_, rfl, ?_⟩
  rw [settles_other]
  intro o ho x hx
  subst hx
  obtain ⟨y, -, hy⟩ := List.mem_map.1 ho
  cases hy

theorem accounts_requestBlocks : ∀ (l : List Nat) {n n' : Fsm}, Parts cfg U fail t0 n → Fsm.requestBlocks cfg l n = .ok n' → Accounts n n'
  | [], n, n', _, e => by cases e; exact .refl n
  | k :: l, n, n', p, e => by
    simp only [Fsm.requestBlocks, Res.bind_eq_ok] at e
    obtain ⟨n1, h1, h2⟩ := e
    exact (accounts_callInv p (op := .getBlock k) trivial (by simp) h1).trans (accounts_requestBlocks l (p.callInv (op := .getBlock k) trivial h1) h2)

theorem accounts_callCbf (p : Parts cfg U fail t0 n) {env : Cbf.Env} {b : Option Block} {op : Cbf.Op} (e : n.callCbf cfg env b op = .ok n') : Accounts n n' := by
  obtain ⟨c, hc, hr⟩ := callCbf_ok e
  obtain ⟨lc, hlc⟩ := p.cbf
  refine Accounts.trans ?_ (accounts_requestBlocks (U := U) (fail := fail) (t0 := t0) _ ?_ hr)
  rotate_left
  · exact ⟨p.sync, p.inv, ⟨_, .step env _ op hlc hc⟩⟩
  refine ⟨_, rfl, ?_⟩
  rw [settles_other]
  intro o ho x
  obtain ⟨y, -, hy⟩ := List.mem_filterMap.1 ho
  exact (label_waits hy).2 x

theorem accounts_deliverSync (p : Parts cfg U fail t0 n) {e : Env} {o : Sync.Out} (hs : n.deliverSync cfg e o = .ok n') : Accounts n n' := by
  cases o with
  | disconnected height hd => simp only [Fsm.deliverSync] at hs; exact accounts_callCbf p hs
  | imported a b c d r =>
    simp only [Fsm.deliverSync, Res.bind_eq_ok] at hs
    obtain ⟨n1, h1, h2⟩ := hs
    exact (accounts_callCbf p h1).trans (accounts_callInv (p.callCbf h1) (op := .reverted _) trivial (by simp) h2)
  | _ => cases hs; exact .refl n

theorem accounts_deliverInv (p : Parts cfg U fail t0 n) {e : Env} {o : Inv.Out} (hs : n.deliverInv cfg e o = .ok n') : Accounts n n' := by
  cases o with
  | processed b height fees => simp only [Fsm.deliverInv] at hs; exact accounts_callCbf p hs
  | confirmed => simp only [Fsm.deliverInv] at hs; exact accounts_callCbf p hs
  | reverted => simp only [Fsm.deliverInv] at hs; exact accounts_callCbf p hs
  | _ => cases hs; exact .refl n

theorem accounts_step (p : Parts cfg U fail t0 n) {e : Env} {i : Input} (l : Legal U fail e i) (hn : ∀ t, i ≠ .submit t) (hs : n.step cfg e i = .ok n') :
    Accounts n n' := by
  have none : ∀ p ∈ ([] : List (Header × Chain.Env)), U p.1 ∧ Chain.EnvOk fail p.2 := by simp
  cases i with
  | init =>
    simp only [Fsm.step, Res.bind_eq_ok] at hs
    obtain ⟨n1, h1, h2⟩ := hs
    exact (accounts_callSync h1).trans (accounts_callCbf (p.callSync (by exact ⟨l.sync, none⟩) h1) h2)
  | negotiated =>
    simp only [Fsm.step, Res.bind_eq_ok] at hs
    obtain ⟨n1, h1, n2, h2, h3⟩ := hs
    exact ((accounts_callCbf p h1).trans (accounts_callInv (p.callCbf h1) (op := .negotiated _ _ _ _) trivial (by simp) h2)).trans (accounts_callSync h3)
  | disconnected =>
    simp only [Fsm.step, Res.bind_eq_ok] at hs
    obtain ⟨n1, h1, n2, h2, h3⟩ := hs
    exact ((accounts_callCbf p h1).trans (accounts_callInv (p.callCbf h1) (op := .disconnected _) trivial (by simp) h2)).trans (accounts_callSync h3)
  | headers => simp only [Fsm.step] at hs; exact accounts_callSync hs
  | getheaders => simp only [Fsm.step] at hs; exact accounts_callSync hs
  | invs => simp only [Fsm.step] at hs; exact accounts_callSync hs
  | block b => simp only [Fsm.step] at hs; exact accounts_callInv p (op := .block _ _) trivial (by simp) hs
  | getdata => simp only [Fsm.step] at hs; exact accounts_callInv p (op := .getdata _ _) trivial (by simp) hs
  | cfheaders => simp only [Fsm.step] at hs; exact accounts_callCbf p hs
  | getcfheaders => simp only [Fsm.step] at hs; exact accounts_callCbf p hs
  | cfilter => simp only [Fsm.step] at hs; exact accounts_callCbf p hs
  | timer =>
    simp only [Fsm.step, Res.bind_eq_ok] at hs
    obtain ⟨n1, h1, n2, h2, h3⟩ := hs
    exact ((accounts_callInv p (op := .timer _ _ _) l.inv (by simp) h1).trans (accounts_callSync h2)).trans
      (accounts_callCbf ((p.callInv (op := .timer _ _ _) l.inv h1).callSync (by exact ⟨l.sync, none⟩) h2) h3)
  | importHeaders => simp only [Fsm.step] at hs; exact accounts_callSync hs
  | requestFilters => simp only [Fsm.step] at hs; exact accounts_callCbf p hs
  | requestBlock => simp only [Fsm.step] at hs; exact accounts_callInv p (op := .getBlock _) trivial (by simp) hs
  | submit t => exact absurd rfl (hn t)
  | rescan => simp only [Fsm.step] at hs; exact accounts_callCbf p hs
  | watch => simp only [Fsm.step] at hs; exact accounts_callCbf p hs
  | next =>
    simp only [Fsm.step, Fsm.next] at hs
    split at hs
    · rename_i q _
      exact Accounts.trans (n2 := { n with qSync := q }) ⟨[], by simp, rfl⟩ (accounts_deliverSync (n := { n with qSync := q }) ⟨p.sync, p.inv, p.cbf⟩ hs)
    · split at hs
      · rename_i q _
        exact Accounts.trans (n2 := { n with qInv := q }) ⟨[], by simp, rfl⟩ (accounts_deliverInv (n := { n with qInv := q }) ⟨p.sync, p.inv, p.cbf⟩ hs)
      · cases hs; exact ⟨[], by simp, rfl⟩

/-- The inventory manager keeps the transactions that are pending according to the history. -/
theorem run_pending (r : Run cfg U fail P t0 h n) : n.inv.pool.get = pendingTx h := by
  induction r with
  | start f c => funext w; rfl
  | @step h n n' i outs e r l hs ho p ih =>
    have parts := run_parts r
    by_cases hn : ∀ t, i ≠ .submit t
    · obtain ⟨d, h1, h2⟩ := accounts_step parts l hn hs
      rw [ho] at h1
      rw [List.append_cancel_left h1, h2, ih]
      cases i with
      | submit t => exact absurd rfl (hn t)
      | _ => rfl
    · have hx : ∃ t, i = .submit t := by
        by_contra hc
        exact hn fun t ht => hc ⟨t, ht⟩
      obtain ⟨t, rfl⟩ := hx
      simp only [Fsm.step, Res.bind_eq_ok] at hs
      obtain ⟨n1, h1, h2⟩ := hs
      obtain ⟨c, hc, hr⟩ := callCbf_ok h1
      have e1 : c.out = n.cbf.out := by
        simp only [Cbf.Mgr.step, Res.ok.injEq] at hc
        rw [← hc]
      simp only [e1, List.drop_length, List.filterMap_nil, List.append_nil, requested, Fsm.requestBlocks, Res.ok.injEq] at hr
      subst hr
      obtain ⟨m, k1, k2⟩ := callInv_ok h2
      obtain ⟨hi, ri⟩ := parts.inv
      have k3 := inv_announce ri k1
      subst k2
      have e2 : outs = m.out.map .inv := (List.append_cancel_left ho).symm
      simp only [e2, pendingTx]
      rw [settles_inv, ← ih]
      exact k3

end Verif.Node
