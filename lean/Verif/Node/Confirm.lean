import Verif.Inv.Props
import Verif.Node.Keep
import Verif.Node.Queues
import Verif.Node.Tidy

/-!
# What becomes of a submitted transaction

A pooled transaction stays in the pool until a block with it is processed, and then it is reported as confirmed.  Blocks are
reported as matching only when they were processed.
-/

set_option autoImplicit false

namespace Verif.Node
open Verif.Tx (Block Transaction)
open Verif.Chain (Header)

variable {cfg : Cfg} {U : Header → Prop} {fail : Bool} {t0 : Chain.State} {g : Header} {h : Hist} {n n' : Fsm}
variable {P : Hist → Fsm → Input → Fsm → List Out → Prop} {w id : Nat} {T T' : Transaction → Prop} {Q Q' : Block → Prop}

/-- A transaction with these ids is pooled. -/
def Pooled (w id : Nat) (n : Fsm) : Prop := ∃ t, n.inv.pool.get w = some t ∧ t.txid = id

/-- What happens to a pooled transaction, and which blocks are reported.  `T`: transactions submitted meanwhile; `Q`: blocks that
may be reported. -/
def Retains (w id : Nat) (T : Transaction → Prop) (Q : Block → Prop) (n n' : Fsm) : Prop :=
  ∃ d, n'.log = n.log ++ d ∧
    (Pooled w id n → (∀ t, T t ∨ Out.inv (.reverted t) ∈ d → t.wtxid = w → t.txid = id) →
      (∃ block height, Out.inv (.confirmed id block height) ∈ d) ∨
      (Pooled w id n' ∧ ∀ b height fees, Out.inv (.processed b height fees) ∈ d → b.has w = false)) ∧
    (∀ o ∈ n'.qInv, o ∈ n.qInv ∨ Out.inv o ∈ d) ∧ ∀ x ∈ reported d, Q x.2

theorem Retains.same {n n' : Fsm} (h1 : n'.log = n.log) (h2 : n'.inv = n.inv) (h3 : ∀ o ∈ n'.qInv, o ∈ n.qInv) : Retains w id T Q n n' :=
  ⟨[], by simp [h1], fun p _ => .inr ⟨by rw [Pooled, h2]; exact p, by simp⟩, fun o ho => .inl (h3 o ho), by simp [reported]⟩

theorem Retains.refl (n : Fsm) : Retains w id T Q n n := .same rfl rfl fun _ h => h

theorem Retains.trans {n1 n2 n3 : Fsm} (a : Retains w id T Q n1 n2) (b : Retains w id T' Q n2 n3) : Retains w id (fun t => T t ∨ T' t) Q n1 n3 := by
  obtain ⟨d1, a1, a2, a3, a4⟩ := a
  obtain ⟨d2, b1, b2, b3, b4⟩ := b
  refine ⟨d1 ++ d2, by rw [b1, a1, List.append_assoc], fun p hT => ?_, fun o ho => ?_, fun x hx => ?_⟩
  · simp only [List.mem_append] at hT ⊢
    rcases a2 p (fun t ht => hT t (by tauto)) with ⟨b, k, h1⟩ | ⟨p2, h1⟩
    · exact .inl ⟨b, k, .inl h1⟩
    · rcases b2 p2 (fun t ht => hT t (by tauto)) with ⟨b, k, h2⟩ | ⟨p3, h2⟩
      · exact .inl ⟨b, k, .inr h2⟩
      · exact .inr ⟨p3, fun b k f hm => hm.elim (h1 b k f) (h2 b k f)⟩
  · rw [List.mem_append]
    rcases b3 o ho with h | h
    · rcases a3 o h with h | h <;> tauto
    · tauto
  · rw [reported_append, List.mem_append] at hx
    exact hx.elim (a4 x) (b4 x)

theorem Retains.mono (a : Retains w id T Q n n') (hT : ∀ t, T t → T' t) (hQ : ∀ b, Q b → Q' b) : Retains w id T' Q' n n' := by
  obtain ⟨d, a1, a2, a3, a4⟩ := a
  exact ⟨d, a1, fun p h => a2 p fun t ht => h t (ht.imp_left (hT t)), a3, fun x hx => hQ _ (a4 x hx)⟩

/-- Transactions that are not in a processed block stay pending. -/
theorem settle_stay {l : List Inv.Out} (hl : ∀ b k f, Inv.Out.processed b k f ∈ l → b.has w = false)
    (hr : ∀ t, Inv.Out.reverted t ∈ l → t.wtxid = w → t.txid = id) {f : Nat → Option Transaction} (hf : ∃ t, f w = some t ∧ t.txid = id) :
    ∃ t, (l.foldl Inv.settle f) w = some t ∧ t.txid = id := by
  induction l generalizing f with
  | nil => exact hf
  | cons o l ih =>
    refine ih (fun b k f hm => hl b k f (List.mem_cons_of_mem _ hm)) (fun t hm => hr t (List.mem_cons_of_mem _ hm)) ?_
    cases o with
    | processed b k fees =>
      have := hl b k fees (List.mem_cons_self ..)
      simp only [Inv.settle, this]
      exact hf
    | reverted t =>
      by_cases hw : w = t.wtxid
      · exact ⟨t, by simp [Inv.settle, hw], hr t (List.mem_cons_self ..) hw.symm⟩
      · simpa [Inv.settle, hw] using hf
    | _ => exact hf

/-- The transaction an operation submits. -/
def announced : Inv.Op → Transaction → Prop
  | .announce t => fun t' => t' = t
  | _ => fun _ => False

theorem retains_callInv (p : Parts cfg U fail t0 n) {op : Inv.Op} (l : op.Legal) (e : n.callInv cfg op = .ok n') : Retains w id (announced op) Q n n' := by
  obtain ⟨hi, ri⟩ := p.inv
  obtain ⟨m, hs, rfl⟩ := callInv_ok e
  have sy := Inv.run_sync ri
  have sy' := Inv.run_sync (Inv.Run.step ri l hs)
  have mem : ∀ {o : Inv.Out}, Out.inv o ∈ m.out.map Out.inv ↔ o ∈ m.out := by
    intro o
    rw [List.mem_map]
    exact ⟨fun ⟨x, hx, e⟩ => by cases e; exact hx, fun h => ⟨o, h, rfl⟩⟩
  refine ⟨_, rfl, fun hp hT => ?_, fun o ho => ?_, by simp [reported_inv]⟩
  · obtain ⟨t, ht, hid⟩ := hp
    simp only [mem] at hT ⊢
    by_cases hall : ∀ b k f, Inv.Out.processed b k f ∈ m.out → b.has w = false
    · refine .inr ⟨?_, hall⟩
      have : ∃ t, Inv.pending ((op, m.out) :: hi) w = some t ∧ t.txid = id := by
        refine settle_stay hall (fun t ht => hT t (.inr ht)) ?_
        have base : ∃ t, Inv.pending hi w = some t ∧ t.txid = id := ⟨t, by rw [← sy.pool]; exact ht, hid⟩
        cases op with
        | announce t2 =>
          by_cases hw : w = t2.wtxid
          · exact ⟨t2, by simp [hw], hT t2 (.inl rfl) hw.symm⟩
          · simpa [hw] using base
        | _ => exact base
      obtain ⟨t2, h1, h2⟩ := this
      exact ⟨t2, by rw [← h1, ← sy'.pool], h2⟩
    · push Not at hall
      obtain ⟨b, k, f, hm, hb⟩ := hall
      have hw := sy.good.keys w t ht
      have hsome : (Inv.firstWith w m.out).isSome = true := by
        rw [Inv.firstWith, List.find?_isSome]
        exact ⟨(k, b), List.mem_filterMap.2 ⟨_, hm, rfl⟩, by simpa using hb⟩
      obtain ⟨⟨k', b'⟩, hx⟩ := Option.isSome_iff_exists.1 hsome
      exact .inl ⟨b'.hash, k', (Inv.C47_confirmed ri l hs id b'.hash k').2 ⟨b', t, by rw [hw]; exact hx, rfl, by rw [hw, ← sy.pool]; exact ht, hid⟩⟩
  · rcases List.mem_append.1 ho with h | h
    · exact .inl h
    · exact .inr (mem.2 h)

theorem retains_callSync {op : Sync.Op} (e : n.callSync cfg op = .ok n') : Retains w id T Q n n' := by
  obtain ⟨m, t, hs, rfl⟩ := callSync_ok e
  refine ⟨_, rfl, fun p _ => .inr ⟨p, fun b k f hm => ?_⟩, fun o ho => .inl ho, by simp [reported_sync]⟩
  obtain ⟨y, -, hy⟩ := List.mem_map.1 hm
  cases hy

theorem retains_requestBlocks : ∀ (l : List Nat) {n n' : Fsm}, Parts cfg U fail t0 n → Fsm.requestBlocks cfg l n = .ok n' → Retains w id (fun _ => False) Q n n'
  | [], n, n', _, e => by cases e; exact .refl n
  | k :: l, n, n', p, e => by
    simp only [Fsm.requestBlocks, Res.bind_eq_ok] at e
    obtain ⟨n1, h1, h2⟩ := e
    exact ((retains_callInv p (op := .getBlock k) trivial h1).trans (retains_requestBlocks l (p.callInv (op := .getBlock k) trivial h1) h2)).mono
      (fun t ht => ht.elim (fun h => h) fun h => h) fun _ h => h

theorem retains_callCbf (p : Parts cfg U fail t0 n) {env : Cbf.Env} {b : Option Block} {op : Cbf.Op} (e : n.callCbf cfg env b op = .ok n')
    (hb : ∀ x, b = some x → Q x) : Retains w id (fun _ => False) Q n n' := by
  obtain ⟨c, hc, hr⟩ := callCbf_ok e
  obtain ⟨lc, hlc⟩ := p.cbf
  generalize c.out.drop n.cbf.out.length = o at hr
  have p' : Parts cfg U fail t0 { n with cbf := c, qCbf := n.qCbf ++ o.filterMap (label b), log := n.log ++ o.filterMap (label b) } :=
    ⟨p.sync, p.inv, ⟨_, .step env _ op hlc hc⟩⟩
  have a : Retains w id (fun _ => False) Q n { n with cbf := c, qCbf := n.qCbf ++ o.filterMap (label b), log := n.log ++ o.filterMap (label b) } := by
    refine ⟨_, rfl, fun p _ => .inr ⟨p, fun b' k f hm => ?_⟩, fun o ho => .inl ho, fun x hx => ?_⟩
    · obtain ⟨x, -, hx⟩ := List.mem_filterMap.1 hm
      exact absurd rfl ((label_waits hx).2 _)
    · cases b with
      | none => rw [reported_label_none] at hx; cases hx
      | some b =>
        rw [reported_label] at hx
        obtain ⟨y, -, rfl⟩ := List.mem_map.1 hx
        exact hb b rfl
  exact (a.trans (retains_requestBlocks _ p' hr)).mono (fun t ht => ht.elim (fun h => h) fun h => h) fun _ h => h

/-- The blocks whose processing waits to be passed on. -/
def Passing (n : Fsm) (b : Block) : Prop := ∃ height fees, Inv.Out.processed b height fees ∈ n.qInv

/-- What an input does to a pooled transaction. -/
theorem retains_step (p : Parts cfg U fail t0 n) {e : Env} {i : Input} (l : Legal U fail e i) (hs : n.step cfg e i = .ok n') :
    Retains w id (fun t => i = .submit t) (Passing n) n n' := by
  have none : ∀ p ∈ ([] : List (Header × Chain.Env)), U p.1 ∧ Chain.EnvOk fail p.2 := by simp
  have no : ∀ {x : Block}, (Option.none : Option Block) = some x → Passing n x := fun h => by cases h
  have ok : ∀ {i' : Input}, Retains w id (fun _ => False) (Passing n) n n' → Retains w id (fun t => i' = .submit t) (Passing n) n n' :=
    fun h => h.mono (fun _ h => h.elim) fun _ h => h
  have two : ∀ {a b c : Fsm}, Retains w id (fun _ => False) (Passing n) a b → Retains w id (fun _ => False) (Passing n) b c → Retains w id (fun _ => False) (Passing n) a c :=
    fun h1 h2 => (h1.trans h2).mono (fun _ h => h.elim (fun h => h) fun h => h) fun _ h => h
  cases i with
  | init =>
    simp only [Fsm.step, Res.bind_eq_ok] at hs
    obtain ⟨n1, h1, h2⟩ := hs
    exact ok (two (retains_callSync h1) (retains_callCbf (p.callSync (by exact ⟨l.sync, none⟩) h1) h2 fun _ => no))
  | negotiated =>
    simp only [Fsm.step, Res.bind_eq_ok] at hs
    obtain ⟨n1, h1, n2, h2, h3⟩ := hs
    exact ok (two (two (retains_callCbf p h1 fun _ => no) (retains_callInv (p.callCbf h1) (op := .negotiated _ _ _ _) trivial h2)) (retains_callSync h3))
  | disconnected =>
    simp only [Fsm.step, Res.bind_eq_ok] at hs
    obtain ⟨n1, h1, n2, h2, h3⟩ := hs
    exact ok (two (two (retains_callCbf p h1 fun _ => no) (retains_callInv (p.callCbf h1) (op := .disconnected _) trivial h2)) (retains_callSync h3))
  | headers => simp only [Fsm.step] at hs; exact retains_callSync hs
  | getheaders => simp only [Fsm.step] at hs; exact retains_callSync hs
  | invs => simp only [Fsm.step] at hs; exact retains_callSync hs
  | block b => simp only [Fsm.step] at hs; exact ok (retains_callInv p (op := .block _ _) trivial hs)
  | getdata => simp only [Fsm.step] at hs; exact ok (retains_callInv p (op := .getdata _ _) trivial hs)
  | cfheaders => simp only [Fsm.step] at hs; exact ok (retains_callCbf p hs fun _ => no)
  | getcfheaders => simp only [Fsm.step] at hs; exact ok (retains_callCbf p hs fun _ => no)
  | cfilter => simp only [Fsm.step] at hs; exact ok (retains_callCbf p hs fun _ => no)
  | timer =>
    simp only [Fsm.step, Res.bind_eq_ok] at hs
    obtain ⟨n1, h1, n2, h2, h3⟩ := hs
    exact ok (two (two (retains_callInv p (op := .timer _ _ _) l.inv h1) (retains_callSync h2))
      (retains_callCbf ((p.callInv (op := .timer _ _ _) l.inv h1).callSync (by exact ⟨l.sync, none⟩) h2) h3 fun _ => no))
  | importHeaders => simp only [Fsm.step] at hs; exact retains_callSync hs
  | requestFilters => simp only [Fsm.step] at hs; exact ok (retains_callCbf p hs fun _ => no)
  | requestBlock => simp only [Fsm.step] at hs; exact ok (retains_callInv p (op := .getBlock _) trivial hs)
  | submit t =>
    simp only [Fsm.step, Res.bind_eq_ok] at hs
    obtain ⟨n1, h1, h2⟩ := hs
    exact ((retains_callCbf p h1 fun _ => no).trans (retains_callInv (p.callCbf h1) (op := .announce t) trivial h2)).mono
      (fun t' h => h.elim (fun h => h.elim) fun h => by rw [show t' = t from h]) fun _ h => h
  | rescan => simp only [Fsm.step] at hs; exact ok (retains_callCbf p hs fun _ => no)
  | watch => simp only [Fsm.step] at hs; exact ok (retains_callCbf p hs fun _ => no)
  | next =>
    simp only [Fsm.step, Fsm.next] at hs
    split at hs
    · rename_i o q _
      have a : Retains w id (fun _ => False) (Passing n) n { n with qSync := q } := .same rfl rfl fun _ h => h
      have p' : Parts cfg U fail t0 { n with qSync := q } := ⟨p.sync, p.inv, p.cbf⟩
      refine ok (two a ?_)
      cases o with
      | disconnected height hd => simp only [Fsm.deliverSync] at hs; exact retains_callCbf p' hs fun _ => no
      | imported a b c d r =>
        simp only [Fsm.deliverSync, Res.bind_eq_ok] at hs
        obtain ⟨n1, h1, h2⟩ := hs
        exact two (retains_callCbf p' h1 fun _ => no) (retains_callInv (p'.callCbf h1) (op := .reverted _) trivial h2)
      | _ => cases hs; exact .refl _
    · split at hs
      · rename_i o q hq
        have a : Retains w id (fun _ => False) (Passing n) n { n with qInv := q } := .same rfl rfl fun _ h => by rw [hq]; exact List.mem_cons_of_mem _ h
        have p' : Parts cfg U fail t0 { n with qInv := q } := ⟨p.sync, p.inv, p.cbf⟩
        refine ok (two a ?_)
        cases o with
        | processed b height fees =>
          simp only [Fsm.deliverInv] at hs
          refine retains_callCbf p' hs fun x hx => ?_
          cases hx
          exact ⟨height, fees, by rw [hq]; exact List.mem_cons_self ..⟩
        | confirmed => simp only [Fsm.deliverInv] at hs; exact retains_callCbf p' hs fun _ => no
        | reverted => simp only [Fsm.deliverInv] at hs; exact retains_callCbf p' hs fun _ => no
        | _ => cases hs; exact .refl _
      · cases hs; exact .same rfl rfl fun _ h => h

/-- A transaction that is submitted is pooled. -/
theorem pooled_submit (p : Parts cfg U fail t0 n) {e : Env} {t : Transaction} (hs : n.step cfg e (.submit t) = .ok n') : Pooled t.wtxid t.txid n' := by
  simp only [Fsm.step, Res.bind_eq_ok] at hs
  obtain ⟨n1, h1, h2⟩ := hs
  obtain ⟨hi, ri⟩ := (p.callCbf h1).inv
  obtain ⟨m, hs, rfl⟩ := callInv_ok h2
  have sy' := Inv.run_sync (Inv.Run.step (op := .announce t) ri trivial hs)
  have hno : ∀ o ∈ m.out, o.From (.announce t) := fun o ho => Inv.out_from (op := .announce t) ri trivial hs ho
  have : ∃ t', Inv.pending ((.announce t, m.out) :: hi) t.wtxid = some t' ∧ t'.txid = t.txid := by
    refine settle_stay (fun b k f hm => ?_) (fun t' hm _ => ?_) ⟨t, by simp, rfl⟩
    · obtain ⟨_, _, h⟩ := hno _ hm; cases h
    · obtain ⟨_, h⟩ := hno _ hm; cases h
  obtain ⟨t2, h1, h2⟩ := this
  exact ⟨t2, by rw [← h1, ← sy'.pool], h2⟩

/-- Since it was submitted, a transaction was confirmed, or it is pooled and in no block processed. -/
theorem run_pooled {later : Hist} {t : Transaction} {outs : List Out} (r : Run cfg U fail P t0 (later ++ (.submit t, outs) :: h) n)
    (hid : ∀ t', (∃ o, (Input.submit t', o) ∈ later) ∨ Out.inv (.reverted t') ∈ outputs later → t'.wtxid = t.wtxid → t'.txid = t.txid) :
    (∃ block height, Out.inv (.confirmed t.txid block height) ∈ outputs later) ∨
    (Pooled t.wtxid t.txid n ∧ ∀ b height fees, Out.inv (.processed b height fees) ∈ outputs later → b.has t.wtxid = false) := by
  induction later generalizing n with
  | nil =>
    rcases r with _ | @⟨_, n0, _, _, _, e, r, l, hs, ho, ps⟩
    exact .inr ⟨pooled_submit (run_parts r) hs, by simp [outputs]⟩
  | cons x later ih =>
    rcases r with _ | @⟨_, n0, _, i, o, e, r, l, hs, ho, ps⟩
    obtain ⟨d, a1, a2, -, -⟩ := retains_step (w := t.wtxid) (id := t.txid) (run_parts r) l hs
    rw [ho] at a1
    have hd := List.append_cancel_left a1
    subst hd
    rw [outputs_cons] at hid ⊢
    simp only [List.mem_append, List.mem_cons] at hid ⊢
    rcases ih r (fun t' h => hid t' (h.imp (fun ⟨o, h⟩ => ⟨o, .inr h⟩) .inl)) with ⟨b, k, h1⟩ | ⟨p, h1⟩
    · exact .inl ⟨b, k, .inl h1⟩
    · rcases a2 p (fun t' h => hid t' (h.imp (fun h => ⟨o, .inl (by rw [h])⟩) .inr)) with ⟨b, k, h2⟩ | ⟨p', h2⟩
      · exact .inl ⟨b, k, .inr h2⟩
      · exact .inr ⟨p', fun b k f hm => hm.elim (h1 b k f) (h2 b k f)⟩

/-- Blocks are reported only when they were processed: if none waited to be passed on, since then. -/
theorem tidy_passing {later : Hist} (hq : ∀ n0, Tidy cfg U fail t0 h n0 → ∀ b, ¬ Passing n0 b) (r : Tidy cfg U fail t0 (later ++ h) n) :
    (∀ b, Passing n b → ∃ height fees, Out.inv (.processed b height fees) ∈ outputs later) ∧
    ∀ x ∈ reported (outputs later), ∃ height fees, Out.inv (.processed x.2 height fees) ∈ outputs later := by
  induction later generalizing n with
  | nil => exact ⟨fun b hb => absurd hb (hq n r b), by simp [outputs, reported]⟩
  | cons x later ih =>
    rcases r with _ | @⟨_, n0, _, i, o, e, r, l, hf, ps, hs, ho⟩
    obtain ⟨i1, i2⟩ := ih r
    obtain ⟨d, a1, -, a3, a4⟩ := retains_step (w := 0) (id := 0) (run_parts r.run) l hs
    rw [ho] at a1
    have hd := List.append_cancel_left a1
    subst hd
    simp only [outputs_cons, reported_append, List.mem_append]
    refine ⟨fun b ⟨k, f, hm⟩ => ?_, fun x hx => ?_⟩
    · rcases a3 _ hm with h | h
      · obtain ⟨k, f, h⟩ := i1 b ⟨k, f, h⟩
        exact ⟨k, f, .inl h⟩
      · exact ⟨k, f, .inr h⟩
    · rcases hx with hx | hx
      · obtain ⟨k, f, h⟩ := i2 x hx
        exact ⟨k, f, .inl h⟩
      · obtain ⟨k, f, h⟩ := i1 _ (a4 x hx)
        exact ⟨k, f, .inl h⟩

/-- When all blocks found are reported, none waits to be passed on. -/
theorem not_passing (c : Ctx cfg U fail t0 g) (cf : Chain.CollisionFree cfg.sync.chain U) (r : Tidy cfg U fail t0 h n)
    (hr : (reported (outputs h)).map (fun p => (p.1, p.2.hash)) = found (outputs h)) (b : Block) : ¬ Passing n b := by
  rintro ⟨k, f, hm⟩
  obtain ⟨W, cw⟩ := (tidy_half c cf r).j.core
  have hs := cw.split
  simp only [run_log r.run] at hs
  rw [← hr] at hs
  have hl := congrArg List.length hs
  simp only [List.length_append, List.length_map] at hl
  have : (Inv.processed n.qInv).length = 0 := by omega
  have hn := List.eq_nil_of_length_eq_zero this
  have : (k, b) ∈ Inv.processed n.qInv := List.mem_filterMap.2 ⟨_, hm, rfl⟩
  rw [hn] at this
  cases this

end Verif.Node
