import Verif.Node.NoCrash
import Verif.Sync.Reports
import Verif.Chain.PropsBatch

/-!
# Which blocks the filter headers belong to
-/

set_option autoImplicit false

namespace Verif.Node
open Verif.Tx (Block Transaction)
open Verif.Chain (Header)

variable {cfg : Cfg} {U : Header → Prop} {fail : Bool} {t0 : Chain.State} {g : Header} {h : Hist} {n n' : Fsm}

/-! ## Specification -/

/-- The headers an input presents are imported without an error, and none of the active chain is activated again after it left the chain; or they leave the
active chain as it is. -/
def Clean (cfg : Cfg) (n : Fsm) (i : Input) : Prop :=
  ((∃ r, (Chain.importBlocks cfg.sync.chain n.tree i.batch).2 = .ok r) ∧ Chain.NeverReconnects cfg.sync.chain n.tree n.tree i.batch) ∨
  ((∃ e, (Chain.importBlocks cfg.sync.chain n.tree i.batch).2 = .err e) ∧ (Chain.importBlocks cfg.sync.chain n.tree i.batch).1.iter = n.tree.iter)

/-- The hashes of the active chain, genesis first. -/
def hashes (cfg : Cfg) (t : Chain.State) : List Nat := t.headers.map cfg.sync.chain.hash

/-- How a step changes the list that says, for each filter header, which block was active at its height when the filter header was accepted: entries of
headers that are dropped are dropped, new ones get the blocks of the active chain. -/
def owners (cfg : Cfg) (ow : List Nat) (n n' : Fsm) : List Nat :=
  if n'.cbf.filters.height ≤ n.cbf.filters.height then ow.take (n'.cbf.filters.height + 1)
  else ow ++ ((hashes cfg n'.tree).drop ow.length).take (n'.cbf.filters.height - n.cbf.filters.height)

/-- Histories with such a list.  The filter store does not fail, and imports are clean; the filter headers at the start are taken to belong to the chain
at the start. -/
inductive Track (cfg : Cfg) (U : Header → Prop) (fail : Bool) (t0 : Chain.State) : Hist → Fsm → List Nat → Prop where
  | start (f : Cbf.FilterHeaders) (cacheSize : Nat) (hs : f.store = f.all) (hh : f.height ≤ t0.height) :
      Track cfg U fail t0 [] (Fsm.new t0 f cacheSize) ((hashes cfg t0).take (f.height + 1))
  | step {h : Hist} {n n' : Fsm} {ow : List Nat} {i : Input} {outs : List Out} (e : Env) (r : Track cfg U fail t0 h n ow) (l : Legal U fail e i)
      (hf : e.cbf.fail = false) (hc : Clean cfg n i) (hs : n.step cfg e i = .ok n') (ho : n'.log = n.log ++ outs) :
      Track cfg U fail t0 ((i, outs) :: h) n' (owners cfg ow n n')

/-! ## The invariant -/

variable {ow : List Nat}

theorem view_hashes (t : Chain.State) : (view cfg t).hashes = hashes cfg t := by
  simp [view, hashes, Chain.State.headers]

/-- The event reports that the block at height `k` was reverted. -/
def Hits (k : Nat) : Sync.Out → Prop
  | .imported _ _ _ _ rv => ∃ r, rv.getLast? = some r ∧ r.1 ≤ k
  | _ => False

/-- The first block is never reported as reverted. -/
def Pos : Sync.Out → Prop
  | .imported _ _ _ _ rv => ∀ r, rv.getLast? = some r → 0 < r.1
  | _ => True

/-- Each entry is that of the active chain, or a report that it no longer is has not been delivered yet. -/
structure Own (cfg : Cfg) (ow : List Nat) (n : Fsm) : Prop where
  len : ow.length = n.cbf.filters.height + 1
  store : n.cbf.filters.store = n.cbf.filters.all
  each : ∀ k x, ow[k]? = some x → (hashes cfg n.tree)[k]? = some x ∨ ∃ o ∈ n.qSync, Hits k o
  pos : ∀ o ∈ n.qSync, Pos o

/-- Filter headers are left alone; blocks that leave the chain are reported. -/
structure Shift (cfg : Cfg) (n n' : Fsm) : Prop where
  filters : n'.cbf.filters = n.cbf.filters
  each : ∀ k x, (hashes cfg n.tree)[k]? = some x → (hashes cfg n'.tree)[k]? = some x ∨ ∃ o ∈ n'.qSync, Hits k o
  queue : ∀ o ∈ n.qSync, o ∈ n'.qSync
  fresh : ∀ o ∈ n'.qSync, o ∈ n.qSync ∨ Pos o

theorem Shift.refl (n : Fsm) : Shift cfg n n := ⟨rfl, fun _ _ h => .inl h, fun _ h => h, fun _ h => .inl h⟩

theorem Shift.trans {n1 n2 n3 : Fsm} (a : Shift cfg n1 n2) (b : Shift cfg n2 n3) : Shift cfg n1 n3 := by
  refine ⟨b.filters.trans a.filters, fun k x hx => ?_, fun o ho => b.queue o (a.queue o ho), fun o ho => ?_⟩
  rcases a.each k x hx with h1 | ⟨o, h1, h2⟩
  · exact b.each k x h1
  · exact .inr ⟨o, b.queue o h1, h2⟩
  · rcases b.fresh o ho with h1 | h1
    · exact a.fresh o h1
    · exact .inr h1

theorem Own.shift (j : Own cfg ow n) (s : Shift cfg n n') : Own cfg ow n' := by
  refine ⟨by rw [s.filters]; exact j.len, by rw [s.filters]; exact j.store, fun k x hx => ?_, fun o ho => (s.fresh o ho).elim (j.pos o) id⟩
  rcases j.each k x hx with h1 | ⟨o, h1, h2⟩
  · exact s.each k x h1
  · exact .inr ⟨o, s.queue o h1, h2⟩

theorem Own.owners_shift (j : Own cfg ow n) (s : Shift cfg n n') : Own cfg (owners cfg ow n n') n' := by
  have : owners cfg ow n n' = ow := by
    unfold owners
    rw [s.filters, if_pos (Nat.le_refl _), List.take_of_length_le (by rw [j.len])]
  rw [this]
  exact j.shift s

theorem shift_callInv {op : Inv.Op} (e : n.callInv cfg op = .ok n') : Shift cfg n n' := by
  obtain ⟨m, -, rfl⟩ := callInv_ok e
  exact ⟨rfl, fun _ _ h => .inl h, fun _ h => h, fun _ h => .inl h⟩

theorem callCbf_step {env : Cbf.Env} {b : Option Block} {op : Cbf.Op} (e : n.callCbf cfg env b op = .ok n') :
    n.cbf.step cfg.cbf env (view cfg n.tree) op = .ok n'.cbf ∧ n'.tree = n.tree ∧ n'.qSync = n.qSync := by
  obtain ⟨c, hs, hr⟩ := callCbf_ok e
  have a := requestBlocks_asks _ hr
  exact ⟨by rw [a.cbf]; exact hs, a.tree, a.qSync⟩

theorem shift_callCbf {env : Cbf.Env} {b : Option Block} {op : Cbf.Op} (h1 : op.reverts = false) (h2 : op.imports = false)
    (e : n.callCbf cfg env b op = .ok n') : Shift cfg n n' := by
  obtain ⟨hs, ht, hq⟩ := callCbf_step e
  have hc := Cbf.step_filters cfg.cbf env _ _ _ op hs
  rw [h1, h2] at hc
  refine ⟨?_, fun k x hx => .inl (by rw [ht]; exact hx), fun o ho => by rw [hq]; exact ho, fun o ho => .inl (by rw [← hq]; exact ho)⟩
  generalize n'.cbf.filters = f' at hc ⊢
  generalize n.cbf.filters = f at hc ⊢
  cases hc with
  | same => rfl
  | imported _ h => cases h
  | rolledBack _ h => cases h

theorem hashes_iter {t t' : Chain.State} {a b : Nat} (h : t'.iter.take a = t.iter.take b) : (hashes cfg t').take a = (hashes cfg t).take b := by
  have : ∀ s : Chain.State, hashes cfg s = s.iter.map (fun p => cfg.sync.chain.hash p.2) := by
    intro s
    have h1 : s.iter.map (fun p => cfg.sync.chain.hash p.2) = (s.chain.zipIdx.map Prod.fst).map (fun b => cfg.sync.chain.hash b.header) := by
      rw [List.map_map, Chain.State.iter, List.map_map]; rfl
    rw [h1, List.zipIdx_map_fst]
    simp [hashes, Chain.State.headers, Function.comp_def]
  rw [this, this, ← List.map_take, ← List.map_take, h]

theorem shift_callSync (c : Ctx cfg U fail t0 g) (cf : Chain.CollisionFree cfg.sync.chain U) (p : Parts cfg U fail t0 n) {op : Sync.Op} (l : op.Legal U fail)
    {i : Input} (hb : op.batch = i.batch) (hc : Clean cfg n i) (e : n.callSync cfg op = .ok n') : Shift cfg n n' := by
  obtain ⟨m, t, hs, rfl⟩ := callSync_ok e
  obtain ⟨hh, hr⟩ := p.sync
  have hreach := Sync.run_reach c.start hr
  have hpos : ∀ o ∈ m.out, Pos o := by
    intro o ho
    cases o with
    | imported b hash height cn rv =>
      obtain ⟨⟨header, hx⟩, -⟩ := Sync.step_from (Sync.run_inv hr) l hs _ ho
      rw [hb] at hx
      rcases hc with ⟨-, hn⟩ | ⟨⟨er, h4⟩, -⟩
      · obtain ⟨⟨a, -, -, -, a4, -⟩, -⟩ := Chain.C06_batch_report c.acyclic cf c.genesis hreach (fun q hq => l.2 q (by rw [hb]; exact hq)) hn hx
        intro r hlast
        rw [a4, List.getLast?_reverse, List.head?_drop, (Chain.C01_consistent_view c.acyclic c.genesis hreach).iter, Option.map_eq_some_iff] at hlast
        obtain ⟨z, -, rfl⟩ := hlast
        exact Nat.succ_pos a
      · rw [hx] at h4; cases h4
    | _ => trivial
  refine ⟨rfl, fun k x hx => ?_, fun o ho => List.mem_append_left _ ho, fun o ho => (List.mem_append.1 ho).imp_right (hpos o)⟩
  simp only
  rcases Sync.step_reported (Sync.run_inv hr) l hs with rfl | ⟨r, h1, h2, h3⟩
  · exact .inl hx
  · rw [hb] at h1
    unfold Clean at hc
    rw [h1] at hc
    rcases hc with ⟨⟨ir, h4⟩, hn⟩ | ⟨⟨er, h4⟩, h5⟩
    · simp only at h4
      subst h4
      have hrep := Chain.C06_batch_report c.acyclic cf c.genesis hreach (fun q hq => l.2 q (by rw [hb]; exact hq)) hn h1
      have v := Chain.C01_consistent_view c.acyclic c.genesis hreach
      cases ir with
      | tipUnchanged =>
        left
        have := hashes_iter (cfg := cfg) (t := n.tree) (t' := t) (a := k + 1) (b := k + 1) (by rw [show t.iter = n.tree.iter from hrep])
        have h6 := congrArg (·[k]?) this
        simp only [List.getElem?_take_of_lt (Nat.lt_succ_self k)] at h6
        rw [h6]; exact hx
      | tipChanged header hash height rv cn =>
        obtain ⟨⟨a, a1, a2, a3, a4, a5⟩, -⟩ := hrep
        by_cases hk : k ≤ a
        · left
          have h6 := congrArg (·[k]?) (hashes_iter (cfg := cfg) a3)
          simp only [List.getElem?_take_of_lt (show k < a + 1 by omega)] at h6
          rw [h6]; exact hx
        · right
          have hmem : Sync.Out.imported (!rv.isEmpty) hash height cn rv ∈ m.out := h3
          refine ⟨_, List.mem_append_right _ hmem, ?_⟩
          have hlen : k < n.tree.iter.length := by
            have := (List.getElem?_eq_some_iff.1 hx).1
            simpa [hashes, Chain.State.headers, Chain.State.iter] using this
          have hy : ∃ y, n.tree.iter[a + 1]? = some y := ⟨_, List.getElem?_eq_getElem (by omega)⟩
          obtain ⟨y, hy⟩ := hy
          refine ⟨y, ?_, ?_⟩
          · rw [a4, List.getLast?_reverse, List.head?_drop, hy]
          · rw [v.iter, Option.map_eq_some_iff] at hy
            obtain ⟨z, -, rfl⟩ := hy
            show a + 1 ≤ k
            omega
    · simp only at h4 h5
      left
      have h6 := congrArg (·[k]?) (hashes_iter (cfg := cfg) (t := n.tree) (t' := t) (a := k + 1) (b := k + 1) (by rw [h5]))
      simp only [List.getElem?_take_of_lt (Nat.lt_succ_self k)] at h6
      rw [h6]; exact hx

theorem clean_empty (n : Fsm) {i : Input} (hb : i.batch = []) : Clean cfg n i := by
  left
  rw [hb]
  exact ⟨⟨_, rfl⟩, trivial⟩

theorem shift_deliverInv {e : Env} {o : Inv.Out} (hs : n.deliverInv cfg e o = .ok n') : Shift cfg n n' := by
  cases o <;> simp only [Fsm.deliverInv] at hs <;> first | exact shift_callCbf rfl rfl hs | (cases hs; exact Shift.refl n)

/-- The delivery of an event of the sync manager. -/
theorem own_deliverSync (j : Own cfg ow n) {q : List Sync.Out} {o : Sync.Out} (hq : n.qSync = o :: q) {e : Env} (hf : e.cbf.fail = false)
    (hs : { n with qSync := q }.deliverSync cfg e o = .ok n') : Own cfg (owners cfg ow n n') n' := by
  have skip : (∀ k, ¬ Hits k o) → Own cfg ow { n with qSync := q } := by
    intro hno
    refine ⟨j.len, j.store, fun k x hx => ?_, fun o ho => j.pos o (by rw [hq]; exact List.mem_cons_of_mem _ ho)⟩
    rcases j.each k x hx with h1 | ⟨o', h1, h2⟩
    · exact .inl h1
    · rw [hq] at h1
      rcases List.mem_cons.1 h1 with rfl | h1
      · exact absurd h2 (hno k)
      · exact .inr ⟨o', h1, h2⟩
  have same : owners cfg ow n n' = owners cfg ow { n with qSync := q } n' := rfl
  rw [same]
  cases o with
  | disconnected height x =>
    exact (skip (fun _ h => h)).owners_shift (shift_callCbf rfl rfl (by simpa only [Fsm.deliverSync] using hs))
  | imported b hash height cn rv =>
    simp only [Fsm.deliverSync, Res.bind_eq_ok] at hs
    obtain ⟨n1, h1, h2⟩ := hs
    have s2 := shift_callInv h2
    cases hl : rv.getLast? with
    | none =>
      have : rv = [] := by simpa using hl
      subst this
      exact (skip (by rintro k ⟨r, hr, -⟩; simp at hr)).owners_shift ((shift_callCbf rfl rfl h1).trans s2)
    | some r =>
      have hr : 0 < r.1 := j.pos (.imported b hash height cn rv) (by rw [hq]; simp) r hl
      obtain ⟨hst, ht, hqs⟩ := callCbf_step h1
      simp only at hst ht hqs
      have hlm : (rv.map (·.1)).getLast? = some r.1 := by rw [List.getLast?_map, hl]; rfl
      simp only [Cbf.Mgr.step, hlm, Cbf.subUsize, if_pos (show 1 ≤ r.1 from hr), Res.ok_bind, Res.bind_eq_ok] at hst
      obtain ⟨m1, hm1, hm2⟩ := hst
      have hsf := (Cbf.quiet_sync cfg.cbf e.cbf _ _ _ hm2).filters
      have hfil : n'.cbf.filters = m1.filters := by rw [s2.filters, hsf]
      have hqe : n'.qSync = q := by obtain ⟨m, -, rfl⟩ := callInv_ok h2; exact hqs
      have hte : n'.tree = n.tree := by obtain ⟨m, -, rfl⟩ := callInv_ok h2; exact ht
      have hpq : ∀ o ∈ n'.qSync, Pos o := fun o ho => j.pos o (by rw [hq]; rw [hqe] at ho; exact List.mem_cons_of_mem _ ho)
      have key : ∀ k x, k < r.1 → ow[k]? = some x → (hashes cfg n'.tree)[k]? = some x ∨ ∃ o ∈ n'.qSync, Hits k o := by
        intro k x hk hx
        rw [hte, hqe]
        rcases j.each k x hx with h3 | ⟨o', h3, h4⟩
        · exact .inl h3
        · rw [hq] at h3
          rcases List.mem_cons.1 h3 with rfl | h3
          · obtain ⟨r', h5, h6⟩ := h4
            rw [hl] at h5
            cases h5
            omega
          · exact .inr ⟨o', h3, h4⟩
      rcases Cbf.rollback_cases e.cbf n.cbf m1 (r.1 - 1) hm1 with ⟨rfl, hle⟩ | ⟨hlt, cch, -, -, hok, -⟩
      · have : owners cfg ow { n with qSync := q } n' = ow := by
          unfold owners
          rw [hfil]
          simp only [Nat.le_refl, if_true]
          rw [List.take_of_length_le (by rw [j.len])]
        rw [this]
        refine ⟨by rw [hfil]; exact j.len, by rw [hfil]; exact j.store, fun k x hx => key k x ?_ hx, hpq⟩
        have := (List.getElem?_eq_some_iff.1 hx).1
        have := j.len
        omega
      · have hfl := (hok hf).1
        simp only [Cbf.rollbackHeaders, Bool.false_eq_true, if_false] at hfl
        have hh : n'.cbf.filters.height = r.1 - 1 := by
          rw [hfil, hfl]
          simp only [Cbf.FilterHeaders.height, List.length_take] at hlt ⊢
          omega
        have : owners cfg ow { n with qSync := q } n' = ow.take (r.1 - 1 + 1) := by
          unfold owners
          rw [if_pos (by rw [hh]; exact Nat.le_of_lt hlt), hh]
        rw [this]
        refine ⟨?_, ?_, fun k x hx => ?_, hpq⟩
        · rw [List.length_take, j.len, hh]; omega
        · rw [hfil, hfl]
          simp only [Cbf.FilterHeaders.all, j.store, List.take_succ_cons]
        · rw [List.getElem?_take] at hx
          split at hx
          · exact key k x (by omega) hx
          · cases hx
  | _ =>
    simp only [Fsm.deliverSync] at hs
    cases hs
    exact (skip (fun _ h => h)).owners_shift (Shift.refl _)

/-- Filter headers accepted belong to the active chain. -/
theorem cfheaders_heights {p : Cbf.Params} {env : Cbf.Env} {t : Cbf.Tree} {m m' : Cbf.Mgr} {a : Nat} {msg : Cbf.CFHeadersMsg} (hf : env.fail = false)
    (hst : m.filters.store = m.filters.all) (e : m.step p env t (.cfheaders a msg) = .ok m') :
    m'.filters = m.filters ∨ (m.filters.height < m'.filters.height ∧ m'.filters.height < t.hashes.length ∧ m'.filters.store = m'.filters.all) := by
  have hc : (m.receivedCFHeaders p env t msg).1.filters = m.filters ∨
      (m.filters.height < (m.receivedCFHeaders p env t msg).1.filters.height ∧ (m.receivedCFHeaders p env t msg).1.filters.height < t.hashes.length ∧
        (m.receivedCFHeaders p env t msg).1.filters.store = (m.receivedCFHeaders p env t msg).1.filters.all) := by
    unfold Cbf.Mgr.receivedCFHeaders
    split
    · exact .inl rfl
    · simp only
      split
      · exact .inl rfl
      · split
        · exact .inl rfl
        · rename_i stop hstop
          split
          · exact .inl rfl
          · split
            · exact .inl rfl
            · split
              · exact .inl rfl
              · split
                · exact .inl rfl
                · split
                  · exact .inl rfl
                  · split
                    · exact .inl rfl
                    · rename_i hlt _ _ _ hne hcount
                      right
                      have hlen : ∀ (l : List Nat) (x : Nat), (Cbf.chainHeaders p x l).length = l.length := by
                        intro l
                        induction l with
                        | nil => intro _; rfl
                        | cons y l ih => intro x; simp [Cbf.chainHeaders, ih]
                      have hstop' : stop < t.hashes.length := by
                        unfold Cbf.Tree.heightOf at hstop
                        have h1 := List.idxOf?_eq_some_iff.1 hstop
                        exact h1.1
                      have hcount' : stop - m.filters.height = msg.hashes.length := by simpa using hcount
                      simp only [Cbf.importHeaders, hf, Bool.false_eq_true, if_false]
                      have fin : ∀ m1 : Cbf.Mgr, m1.filters = { m.filters with tail := m.filters.tail ++ Cbf.chainHeaders p msg.prev msg.hashes, store := m.filters.store ++ Cbf.chainHeaders p msg.prev msg.hashes } →
                          m.filters.height < m1.filters.height ∧ m1.filters.height < t.hashes.length ∧ m1.filters.store = m1.filters.all := by
                        intro m1 h1
                        rw [h1]
                        simp only [Cbf.FilterHeaders.height, List.length_append, hlen, Cbf.FilterHeaders.all, hst, List.cons_append, and_true] at hcount' hlt ⊢
                        omega
                      have hq := Cbf.quiet_headersImported env t { m with inflight := m.inflight.erase msg.stop, filters := { m.filters with tail := m.filters.tail ++ Cbf.chainHeaders p msg.prev msg.hashes, store := m.filters.store ++ Cbf.chainHeaders p msg.prev msg.hashes } } m.filters.height ((m.filters.store ++ Cbf.chainHeaders p msg.prev msg.hashes).length - 1)
                      generalize hk : Cbf.Mgr.headersImported env t { m with inflight := m.inflight.erase msg.stop, filters := { m.filters with tail := m.filters.tail ++ Cbf.chainHeaders p msg.prev msg.hashes, store := m.filters.store ++ Cbf.chainHeaders p msg.prev msg.hashes } } m.filters.height ((m.filters.store ++ Cbf.chainHeaders p msg.prev msg.hashes).length - 1) = k at hq ⊢
                      obtain ⟨k1, k2⟩ := k
                      have hkf := hq.filters
                      simp only at hkf
                      cases k2 with
                      | ok u =>
                        simp only
                        split
                        · split
                          · exact fin _ hkf
                          · cases hsy : k1.sync p env t with
                            | ok m2 => simp only; exact fin _ ((Cbf.quiet_sync p env t k1 m2 hsy).filters.trans hkf)
                            | err x => simp only; exact fin _ hkf
                            | panic => simp only; exact fin _ hkf
                        · exact fin _ hkf
                      | err x => exact fin _ hkf
                      | panic => exact fin _ hkf
  simp only [Cbf.Mgr.step] at e
  generalize m.receivedCFHeaders p env t msg = k at hc e
  obtain ⟨k1, k2⟩ := k
  cases k2 with
  | ok x => cases e; exact hc
  | err x => cases x <;> (cases e; exact hc)
  | panic => cases e

theorem own_step (c : Ctx cfg U fail t0 g) (cf : Chain.CollisionFree cfg.sync.chain U) (p : Parts cfg U fail t0 n) (j : Own cfg ow n) {e : Env} {i : Input}
    (l : Legal U fail e i) (hf : e.cbf.fail = false) (hc : Clean cfg n i) (hs : n.step cfg e i = .ok n') : Own cfg (owners cfg ow n n') n' := by
  have none : ∀ p ∈ ([] : List (Header × Chain.Env)), U p.1 ∧ Chain.EnvOk fail p.2 := by simp
  have quiet : ∀ {n1 n2 : Fsm}, Parts cfg U fail t0 n1 → ∀ op : Sync.Op, op.Legal U fail → op.batch = [] → n1.callSync cfg op = .ok n2 → Shift cfg n1 n2 :=
    fun p1 op lo ho h1 => shift_callSync c cf p1 lo (i := .init) ho (clean_empty _ rfl) h1
  cases i with
  | init =>
    simp only [Fsm.step, Res.bind_eq_ok] at hs
    obtain ⟨n1, h1, h2⟩ := hs
    exact j.owners_shift ((quiet p (.init e.sync e.now) ⟨l.sync, none⟩ rfl h1).trans (shift_callCbf rfl rfl h2))
  | negotiated a height outbound network filters relay wtxidrelay persistent =>
    simp only [Fsm.step, Res.bind_eq_ok] at hs
    obtain ⟨n1, h1, n2, h2, h3⟩ := hs
    exact j.owners_shift (((shift_callCbf rfl rfl h1).trans (shift_callInv h2)).trans
      (quiet ((p.callCbf h1).callInv (op := .negotiated _ _ _ _) trivial h2) (.negotiated e.sync e.now a height network filters outbound) ⟨l.sync, none⟩ rfl h3))
  | disconnected a =>
    simp only [Fsm.step, Res.bind_eq_ok] at hs
    obtain ⟨n1, h1, n2, h2, h3⟩ := hs
    exact j.owners_shift (((shift_callCbf rfl rfl h1).trans (shift_callInv h2)).trans
      (quiet ((p.callCbf h1).callInv (op := .disconnected _) trivial h2) (.gone a) ⟨trivial, none⟩ rfl h3))
  | headers a hs' => exact j.owners_shift (shift_callSync c cf p (op := .headers e.sync e.now a hs') ⟨l.sync, l.headers⟩ rfl hc hs)
  | getheaders a loc => exact j.owners_shift (quiet p (.getheaders a loc) ⟨trivial, none⟩ rfl hs)
  | invs a items => exact j.owners_shift (quiet p (.inv e.now a items) ⟨trivial, none⟩ rfl hs)
  | block b => exact j.owners_shift (shift_callInv hs)
  | getdata => exact j.owners_shift (shift_callInv (op := .getdata _ _) hs)
  | cfheaders a msg =>
    simp only [Fsm.step] at hs
    obtain ⟨h1, h2, h3⟩ := callCbf_step hs
    rcases cfheaders_heights hf j.store h1 with h4 | ⟨h4, h5, h6⟩
    · exact j.owners_shift ⟨h4, fun k x hx => .inl (by rw [h2]; exact hx), fun o ho => by rw [h3]; exact ho, fun o ho => .inl (by rw [← h3]; exact ho)⟩
    · rw [view_hashes] at h5
      have hlen := j.len
      refine ⟨?_, h6, fun k x hx => ?_, fun o ho => j.pos o (by rw [← h3]; exact ho)⟩
      · unfold owners
        rw [if_neg (by omega), List.length_append, List.length_take, List.length_drop, h2]
        omega
      · unfold owners at hx
        rw [if_neg (by omega), h2] at hx
        rw [h2, h3]
        by_cases hk : k < ow.length
        · rw [List.getElem?_append_left hk] at hx
          exact j.each k x hx
        · rw [List.getElem?_append_right (by omega), List.getElem?_take] at hx
          split at hx
          · rw [List.getElem?_drop, show ow.length + (k - ow.length) = k by omega] at hx
            exact .inl hx
          · cases hx
  | getcfheaders => exact j.owners_shift (shift_callCbf rfl rfl hs)
  | cfilter => exact j.owners_shift (shift_callCbf rfl rfl hs)
  | timer =>
    simp only [Fsm.step, Res.bind_eq_ok] at hs
    obtain ⟨n1, h1, n2, h2, h3⟩ := hs
    exact j.owners_shift (((shift_callInv h1).trans (quiet (p.callInv (op := .timer _ _ _) l.inv h1) (.timer e.sync e.now) ⟨l.sync, none⟩ rfl h2)).trans (shift_callCbf rfl rfl h3))
  | importHeaders hs' => exact j.owners_shift (shift_callSync c cf p (op := .userImport e.sync hs') ⟨l.sync, l.headers⟩ rfl hc hs)
  | requestFilters => exact j.owners_shift (shift_callCbf rfl rfl hs)
  | requestBlock => exact j.owners_shift (shift_callInv (op := .getBlock _) hs)
  | submit t =>
    simp only [Fsm.step, Res.bind_eq_ok] at hs
    obtain ⟨n1, h1, h2⟩ := hs
    exact j.owners_shift ((shift_callCbf rfl rfl h1).trans (shift_callInv h2))
  | rescan => exact j.owners_shift (shift_callCbf rfl rfl hs)
  | watch => simp only [Fsm.step] at hs; exact j.owners_shift (shift_callCbf rfl rfl hs)
  | next =>
    simp only [Fsm.step, Fsm.next] at hs
    split at hs
    · rename_i o q hq
      exact own_deliverSync j hq hf hs
    · split at hs
      · rename_i o q hq
        have s : Shift cfg n { n with qInv := q } := ⟨rfl, fun _ _ h => .inl h, fun _ h => h, fun _ h => .inl h⟩
        exact j.owners_shift (s.trans (shift_deliverInv hs))
      · cases hs
        exact j.owners_shift ⟨rfl, fun _ _ h => .inl h, fun _ h => h, fun _ h => .inl h⟩

theorem Track.run (r : Track cfg U fail t0 h n ow) : Run cfg U fail (fun _ _ _ _ _ => True) t0 h n := by
  induction r with
  | start f cs hs hh => exact .start f cs
  | step e r l hf hc hs ho ih => exact .step e ih l hs ho trivial

theorem track_own (c : Ctx cfg U fail t0 g) (cf : Chain.CollisionFree cfg.sync.chain U) (r : Track cfg U fail t0 h n ow) : Own cfg ow n := by
  induction r with
  | start f cs hs hh =>
    have hl : t0.headers.length = t0.height + 1 := by
      have := chain_length (n := Fsm.new t0 f cs) c (.start)
      simpa [Chain.State.headers, Fsm.new] using this
    refine ⟨?_, hs, fun k x hx => ?_, by simp [Fsm.new]⟩
    · rw [List.length_take]
      simp only [hashes, List.length_map, hl, Fsm.new, Cbf.Mgr.new]
      omega
    · rw [List.getElem?_take] at hx
      split at hx
      · exact .inl hx
      · cases hx
  | step e r l hf hc hs ho ih => exact own_step c cf (run_parts r.run) ih l hf hc hs

end Verif.Node
