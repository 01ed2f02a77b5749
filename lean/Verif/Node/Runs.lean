import Verif.Node.Lemmas

/-!
# The state machine: histories
-/

set_option autoImplicit false

namespace Verif.Node
open Verif.Tx (Block Transaction)
open Verif.Chain (Header)

variable {cfg : Cfg} {U : Header → Prop} {fail : Bool} {t0 : Chain.State} {n n' : Fsm} {g : Header}

/-! ## Parts -/

theorem Parts.deliverSync (h : Parts cfg U fail t0 n) {e : Env} {o : Sync.Out} (hs : n.deliverSync cfg e o = .ok n') : Parts cfg U fail t0 n' := by
  cases o with
  | disconnected height hd => simp only [Fsm.deliverSync] at hs; exact h.callCbf hs
  | imported a b c d r =>
    simp only [Fsm.deliverSync] at hs
    rw [Res.bind_eq_ok] at hs
    obtain ⟨n1, h1, h2⟩ := hs
    exact (h.callCbf h1).callInv (op := .reverted _) trivial h2
  | _ => cases hs; exact h

theorem Parts.deliverInv (h : Parts cfg U fail t0 n) {e : Env} {o : Inv.Out} (hs : n.deliverInv cfg e o = .ok n') : Parts cfg U fail t0 n' := by
  cases o with
  | processed b height fees => simp only [Fsm.deliverInv] at hs; exact h.callCbf hs
  | confirmed => simp only [Fsm.deliverInv] at hs; exact h.callCbf hs
  | reverted => simp only [Fsm.deliverInv] at hs; exact h.callCbf hs
  | _ => cases hs; exact h

theorem Parts.step (h : Parts cfg U fail t0 n) {e : Env} {i : Input} (l : Legal U fail e i) (hs : n.step cfg e i = .ok n') :
    Parts cfg U fail t0 n' := by
  have none : ∀ p ∈ ([] : List (Header × Chain.Env)), U p.1 ∧ Chain.EnvOk fail p.2 := by simp
  cases i with
  | init =>
    simp only [Fsm.step] at hs
    rw [Res.bind_eq_ok] at hs
    obtain ⟨n1, h1, h2⟩ := hs
    exact (h.callSync (by exact ⟨l.sync, none⟩) h1).callCbf h2
  | negotiated =>
    simp only [Fsm.step] at hs
    rw [Res.bind_eq_ok] at hs
    obtain ⟨n1, h1, h2⟩ := hs
    rw [Res.bind_eq_ok] at h2
    obtain ⟨n2, h2, h3⟩ := h2
    exact ((h.callCbf h1).callInv (op := .negotiated _ _ _ _) trivial h2).callSync (by exact ⟨l.sync, none⟩) h3
  | disconnected =>
    simp only [Fsm.step] at hs
    rw [Res.bind_eq_ok] at hs
    obtain ⟨n1, h1, h2⟩ := hs
    rw [Res.bind_eq_ok] at h2
    obtain ⟨n2, h2, h3⟩ := h2
    exact ((h.callCbf h1).callInv (op := .disconnected _) trivial h2).callSync (by exact ⟨trivial, none⟩) h3
  | headers a hs' => exact h.callSync (by exact ⟨l.sync, l.headers⟩) hs
  | getheaders => exact h.callSync (by exact ⟨trivial, none⟩) hs
  | invs => exact h.callSync (by exact ⟨trivial, none⟩) hs
  | block b => exact h.callInv (op := .block _ _) trivial hs
  | getdata => exact h.callInv (op := .getdata _ _) trivial hs
  | cfheaders => exact h.callCbf hs
  | getcfheaders => exact h.callCbf hs
  | cfilter => exact h.callCbf hs
  | timer =>
    simp only [Fsm.step] at hs
    rw [Res.bind_eq_ok] at hs
    obtain ⟨n1, h1, h2⟩ := hs
    rw [Res.bind_eq_ok] at h2
    obtain ⟨n2, h2, h3⟩ := h2
    exact ((h.callInv (op := .timer _ _ _) l.inv h1).callSync (by exact ⟨l.sync, none⟩) h2).callCbf h3
  | importHeaders hs' => exact h.callSync (by exact ⟨l.sync, l.headers⟩) hs
  | requestFilters => exact h.callCbf hs
  | requestBlock => exact h.callInv (op := .getBlock _) trivial hs
  | submit t =>
    simp only [Fsm.step] at hs
    rw [Res.bind_eq_ok] at hs
    obtain ⟨n1, h1, h2⟩ := hs
    exact (h.callCbf h1).callInv (op := .announce _) trivial h2
  | rescan => exact h.callCbf hs
  | watch => simp only [Fsm.step] at hs; exact h.callCbf hs
  | next =>
    simp only [Fsm.step, Fsm.next] at hs
    split at hs
    · rename_i q _
      exact Parts.deliverSync (n := { n with qSync := q }) ⟨h.sync, h.inv, h.cbf⟩ hs
    · split at hs
      · rename_i q _
        exact Parts.deliverInv (n := { n with qInv := q }) ⟨h.sync, h.inv, h.cbf⟩ hs
      · cases hs; exact ⟨h.sync, h.inv, h.cbf⟩

variable {P : Hist → Fsm → Input → Fsm → List Out → Prop}

/-- Every manager of a reachable state machine is in a state that it reaches by a history of its own. -/
theorem run_parts {h : Hist} (r : Run cfg U fail P t0 h n) : Parts cfg U fail t0 n := by
  induction r with
  | start f c => exact ⟨⟨_, .start⟩, ⟨_, .start⟩, ⟨_, .init f c⟩⟩
  | step e r l hs ho p ih => exact ih.step l hs

theorem outputs_cons (i : Input) (o : List Out) (h : Hist) : outputs ((i, o) :: h) = outputs h ++ o := by simp [outputs]

theorem run_log {h : Hist} (r : Run cfg U fail P t0 h n) : n.log = outputs h := by
  induction r with
  | start f c => rfl
  | step e r l hs ho p ih => rw [outputs_cons, ho, ih]

/-! ## Cooperation -/

variable {S : Block → Prop} {A : Nat → Prop}

/-- What a call adds to the log. -/
theorem callSync_log {op : Sync.Op} (e : n.callSync cfg op = .ok n') : ∃ d, n'.log = n.log ++ d ∧ ∀ o ∈ n'.qSync, o ∈ n.qSync ∨ Out.sync o ∈ d := by
  obtain ⟨m, t, _, rfl⟩ := callSync_ok e
  refine ⟨_, rfl, fun o ho => ?_⟩
  rcases List.mem_append.1 ho with h | h
  · exact .inl h
  · exact .inr (List.mem_map_of_mem h)

theorem callInv_log {op : Inv.Op} (e : n.callInv cfg op = .ok n') : (∃ d, n'.log = n.log ++ d) ∧ n'.tree = n.tree := by
  obtain ⟨m, _, rfl⟩ := callInv_ok e
  exact ⟨⟨_, rfl⟩, rfl⟩

theorem callCbf_log {env : Cbf.Env} {b : Option Block} {op : Cbf.Op} (e : n.callCbf cfg env b op = .ok n') :
    (∃ d, n'.log = n.log ++ d) ∧ n'.tree = n.tree := by
  obtain ⟨c, _, hr⟩ := callCbf_ok e
  have a := requestBlocks_asks _ hr
  obtain ⟨l, x, _, _⟩ := a.log
  exact ⟨⟨_, by rw [x]; exact List.append_assoc ..⟩, a.tree⟩

theorem J.callSync' (j : J cfg U fail t0 S A n) {op : Sync.Op} (l : op.Legal U fail) (e : n.callSync cfg op = .ok n')
    (hp : n.tree.chain <+: n'.tree.chain) (hq : ∀ d, n'.log = n.log ++ d → ∀ o ∈ d, ¬ o.Reverts) : J cfg U fail t0 S A n' := by
  obtain ⟨d, hd, hm⟩ := callSync_log e
  refine j.callSync l e hp fun o ho => ?_
  rcases hm o ho with h | h
  · exact j.qSync o h
  · exact hq d hd _ h

theorem J.deliverSync {o : Sync.Out} (j : J cfg U fail t0 S A n) (ho : ¬ (Out.sync o).Reverts) {e : Env}
    (hs : n.deliverSync cfg e o = .ok n') : J cfg U fail t0 S A n' := by
  cases o with
  | disconnected => exact absurd trivial ho
  | imported a b c d r =>
    have hr : r = [] := by_contra ho
    subst hr
    simp only [Fsm.deliverSync] at hs
    rw [Res.bind_eq_ok] at hs
    obtain ⟨n1, h1, h2⟩ := hs
    exact (j.callCbf_idle rfl h1).callInv (op := .reverted _) trivial rfl h2
  | _ => cases hs; exact j

theorem J.drop (j : J cfg U fail t0 S A n) {o : Inv.Out} {q : List Inv.Out} (hq : n.qInv = o :: q)
    (ho : Inv.processed [o] = []) : J cfg U fail t0 S A { n with qInv := q } := by
  have h : Inv.processed n.qInv = Inv.processed q := by
    rw [hq, show o :: q = [o] ++ q from rfl, processed_append', ho, List.nil_append]
  refine ⟨⟨j.parts.sync, j.parts.inv, j.parts.cbf⟩, j.fits, ?_, j.qSync, j.aside, ?_, j.told, j.await⟩
  · have := j.core
    rw [h] at this
    exact this
  · have := j.queue
    rw [h] at this
    exact this

theorem J.next (j : J cfg U fail t0 S A n) {e : Env} (hs : n.next cfg e = .ok n') : J cfg U fail t0 S A n' := by
  simp only [Fsm.next] at hs
  split at hs
  · rename_i o q hq
    have ho := j.qSync o (by rw [hq]; exact List.mem_cons_self ..)
    refine J.deliverSync (n := { n with qSync := q }) ?_ ho hs
    exact ⟨⟨j.parts.sync, j.parts.inv, j.parts.cbf⟩, j.fits, j.core, fun o' h' => j.qSync o' (by rw [hq]; exact List.mem_cons_of_mem _ h'), j.aside, j.queue,
      j.told, j.await⟩
  · split at hs
    · rename_i o q hq
      cases o with
      | processed b height fees => exact j.callCbf_processed hq hs
      | confirmed => simp only [Fsm.deliverInv] at hs; exact (j.drop hq rfl).callCbf_idle rfl hs
      | reverted => simp only [Fsm.deliverInv] at hs; exact (j.drop hq rfl).callCbf_idle rfl hs
      | _ => cases hs; exact j.drop hq rfl
    · cases hs
      exact ⟨⟨j.parts.sync, j.parts.inv, j.parts.cbf⟩, j.fits, j.core, j.qSync, j.aside, j.queue, j.told, j.await⟩

/-- The invariant along a calm history. -/
theorem J.step (c : Ctx cfg U fail t0 g) {h : Hist} {e : Env} {i : Input} {outs : List Out}
    (j : J cfg U fail t0 (fun b => Sent b h) (fun k => Awaited k h) n) (hl : n.log = outputs h)
    (l : Legal U fail e i) (hs : n.step cfg e i = .ok n') (ho : n'.log = n.log ++ outs) (p : Calm h n i n' outs) :
    J cfg U fail t0 (fun b => Sent b ((i, outs) :: h)) (fun k => Awaited k ((i, outs) :: h)) n' := by
  have none : ∀ p ∈ ([] : List (Header × Chain.Env)), U p.1 ∧ Chain.EnvOk fail p.2 := by simp
  have mS : ∀ b, Sent b h → Sent b ((i, outs) :: h) := fun b ⟨o, hb⟩ => ⟨o, List.mem_cons_of_mem _ hb⟩
  have mA : (∀ b, i ≠ .block b) → ∀ k, Awaited k h → Awaited k ((i, outs) :: h) := fun hb k hk => .inr ⟨hk, fun b he => absurd he (hb b)⟩
  -- the outputs of a part of the step
  have quiet : ∀ d, (∃ d', outs = d ++ d') → ∀ o ∈ d, ¬ o.Reverts := by
    rintro d ⟨d', rfl⟩ o hd
    exact p.quiet o (List.mem_append_left _ hd)
  have quiet' : ∀ d d', outs = d' ++ d → ∀ o ∈ d, ¬ o.Reverts := by
    rintro d d' rfl o hd
    exact p.quiet o (List.mem_append_right _ hd)
  have cut : ∀ d, n'.log = n.log ++ d → outs = d := fun d hd => List.append_cancel_left (ho.symm.trans hd)
  have lone : ∀ op : Sync.Op, op.Legal U fail → n.callSync cfg op = .ok n' → (∀ b, i ≠ .block b) →
      J cfg U fail t0 (fun b => Sent b ((i, outs) :: h)) (fun k => Awaited k ((i, outs) :: h)) n' := by
    intro op lo hx hb
    refine (j.callSync' lo hx p.chain fun d hd => ?_).mono mS (mA hb)
    exact quiet d ⟨[], by rw [cut d hd, List.append_nil]⟩
  cases i with
  | init =>
    simp only [Fsm.step] at hs
    rw [Res.bind_eq_ok] at hs
    obtain ⟨n1, h1, h2⟩ := hs
    obtain ⟨⟨d2, x2⟩, t2⟩ := callCbf_log h2
    have j1 : J cfg U fail t0 _ _ n1 := j.callSync' (by exact ⟨l.sync, none⟩) h1 (t2 ▸ p.chain) fun d hd =>
      quiet d ⟨d2, cut _ (by rw [x2, hd, List.append_assoc])⟩
    exact (j1.callCbf_idle rfl h2).mono mS (mA (by simp))
  | negotiated =>
    simp only [Fsm.step] at hs
    rw [Res.bind_eq_ok] at hs
    obtain ⟨n1, h1, h2⟩ := hs
    rw [Res.bind_eq_ok] at h2
    obtain ⟨n2, h2, h3⟩ := h2
    obtain ⟨⟨d1, x1⟩, t1⟩ := callCbf_log h1
    obtain ⟨⟨d2, x2⟩, t2⟩ := callInv_log h2
    refine (((j.callCbf_idle rfl h1).callInv (op := .negotiated _ _ _ _) trivial rfl h2).callSync' (by exact ⟨l.sync, none⟩) h3 ?_ fun d hd => ?_).mono mS (mA (by simp))
    · rw [t2, t1]; exact p.chain
    · exact quiet' d (d1 ++ d2) (cut _ (by rw [hd, x2, x1]; simp))
  | disconnected =>
    simp only [Fsm.step] at hs
    rw [Res.bind_eq_ok] at hs
    obtain ⟨n1, h1, h2⟩ := hs
    rw [Res.bind_eq_ok] at h2
    obtain ⟨n2, h2, h3⟩ := h2
    obtain ⟨⟨d1, x1⟩, t1⟩ := callCbf_log h1
    obtain ⟨⟨d2, x2⟩, t2⟩ := callInv_log h2
    refine (((j.callCbf_idle rfl h1).callInv (op := .disconnected _) trivial rfl h2).callSync' (by exact ⟨trivial, none⟩) h3 ?_ fun d hd => ?_).mono mS (mA (by simp))
    · rw [t2, t1]; exact p.chain
    · exact quiet' d (d1 ++ d2) (cut _ (by rw [hd, x2, x1]; simp))
  | headers a hs' => exact lone _ (by exact ⟨l.sync, l.headers⟩) hs (by simp)
  | getheaders => exact lone _ (by exact ⟨trivial, none⟩) hs (by simp)
  | invs => exact lone _ (by exact ⟨trivial, none⟩) hs (by simp)
  | block b =>
    have j' := (j.mono (A' := fun k => Awaited k h) mS fun _ hk => hk).callInv_block c (b := b) ⟨outs, List.mem_cons_self ..⟩ hs
    refine j'.mono (fun _ hb => hb) fun k hk => .inr ⟨hk.1, fun b' he => ?_⟩
    cases he
    exact fun hk' => hk.2 hk'.symm
  | getdata => exact (j.callInv (op := .getdata _ _) trivial rfl hs).mono mS (mA (by simp))
  | cfheaders => exact (j.callCbf_idle rfl hs).mono mS (mA (by simp))
  | getcfheaders => exact (j.callCbf_idle rfl hs).mono mS (mA (by simp))
  | cfilter a ft block f =>
    obtain ⟨d, hd, j'⟩ := j.callCbf_cfilter hs
    rw [← cut d hd] at j'
    refine j'.mono mS fun k hk => ?_
    rcases hk with hk | hk
    · exact mA (by simp) k hk
    · exact .inl hk
  | timer =>
    simp only [Fsm.step] at hs
    rw [Res.bind_eq_ok] at hs
    obtain ⟨n1, h1, h2⟩ := hs
    rw [Res.bind_eq_ok] at h2
    obtain ⟨n2, h2, h3⟩ := h2
    obtain ⟨⟨d1, x1⟩, t1⟩ := callInv_log h1
    obtain ⟨⟨d3, x3⟩, t3⟩ := callCbf_log h3
    have j1 := j.callInv (op := .timer _ _ _) l.inv rfl h1
    have j2 : J cfg U fail t0 _ _ n2 := j1.callSync' (by exact ⟨l.sync, none⟩) h2 (by rw [t1, ← t3]; exact p.chain) fun d hd o hod => by
      refine p.quiet o ?_
      rw [cut (d1 ++ (d ++ d3)) (by rw [x3, hd, x1]; simp)]
      exact List.mem_append_right _ (List.mem_append_left _ hod)
    exact (j2.callCbf_idle rfl h3).mono mS (mA (by simp))
  | importHeaders hs' => exact lone _ (by exact ⟨l.sync, l.headers⟩) hs (by simp)
  | requestFilters => exact (j.callCbf_idle rfl hs).mono mS (mA (by simp))
  | requestBlock k => exact absurd rfl (p.request k)
  | submit t =>
    simp only [Fsm.step] at hs
    rw [Res.bind_eq_ok] at hs
    obtain ⟨n1, h1, h2⟩ := hs
    exact ((j.callCbf_idle rfl h1).callInv (op := .announce _) trivial rfl h2).mono mS (mA (by simp))
  | rescan a b w =>
    obtain ⟨h1, h2⟩ := p.rescan a b w rfl
    rw [← hl] at h1
    exact (j.callCbf_rescan hs h1 fun d hd => by rw [← cut d hd]; exact h2).mono mS (mA (by simp))
  | watch => simp only [Fsm.step] at hs; exact (j.callCbf_idle rfl hs).mono mS (mA (by simp))
  | next => exact (j.next hs).mono mS (mA (by simp))

theorem run_J (c : Ctx cfg U fail t0 g) {h : Hist} (r : Run cfg U fail Calm t0 h n) :
    J cfg U fail t0 (fun b => Sent b h) (fun k => Awaited k h) n := by
  induction r with
  | start f cs =>
    refine ⟨⟨⟨_, .start⟩, ⟨_, .start⟩, ⟨_, .init f cs⟩⟩, ?_, ?_, by simp [Fsm.new], ?_, by simp [Fsm.new, Inv.processed], by simp [Fsm.new, reported], ?_⟩
    · exact ⟨Cbf.new_cacheOK f cs, (by intro h f' hx; cases hx), (by intro h f' b c hx; cases hx)⟩
    · refine ⟨[], rfl, ?_, ?_, ?_, ?_, ?_, ?_, ?_⟩ <;> simp [Fsm.new, Cbf.Mgr.new, Inv.Mgr.new, AMap.contains, Inv.processed, Cbf.Rescan.new]
    · intro h b hx; cases hx
    · intro k hk; cases hk
  | step e r l hs ho p ih => exact ih.step c (run_log r) l hs ho p

end Verif.Node
