import Verif.Node.Lemmas

/-!
# The outboxes of the node: nothing is lost
-/

set_option autoImplicit false

namespace Verif.Node
open Verif.Tx (Block)

variable {cfg : Cfg} {n n' n'' : Fsm}

/-- The output waits in its outbox. -/
def Fsm.Waits (n : Fsm) : Out → Prop
  | .sync o => o ∈ n.qSync
  | .inv o => o ∈ n.qInv
  | o => o ∈ n.qCbf

/-- What waits still waits, and what was put out meanwhile waits. -/
def Keeps (n n' : Fsm) : Prop := (∃ d, n'.log = n.log ++ d ∧ ∀ o ∈ d, n'.Waits o) ∧ ∀ o, n.Waits o → n'.Waits o

theorem Keeps.trans (h1 : Keeps n n') (h2 : Keeps n' n'') : Keeps n n'' := by
  obtain ⟨⟨d1, e1, w1⟩, k1⟩ := h1
  obtain ⟨⟨d2, e2, w2⟩, k2⟩ := h2
  refine ⟨⟨d1 ++ d2, by rw [e2, e1, List.append_assoc], fun o ho => ?_⟩, fun o ho => k2 o (k1 o ho)⟩
  rcases List.mem_append.1 ho with ho | ho
  · exact k2 o (w1 o ho)
  · exact w2 o ho

theorem Keeps.refl (n : Fsm) : Keeps n n := ⟨⟨[], by simp, by simp⟩, fun _ h => h⟩

theorem keeps_callSync {op : Sync.Op} (e : n.callSync cfg op = .ok n') : Keeps n n' := by
  obtain ⟨m, t, -, rfl⟩ := callSync_ok e
  refine ⟨⟨_, rfl, fun o ho => ?_⟩, fun o ho => ?_⟩
  · obtain ⟨x, hx, rfl⟩ := List.mem_map.1 ho
    exact List.mem_append_right _ hx
  · cases o with
    | sync x => exact List.mem_append_left _ ho
    | _ => exact ho

theorem keeps_callInv {op : Inv.Op} (e : n.callInv cfg op = .ok n') : Keeps n n' := by
  obtain ⟨m, -, rfl⟩ := callInv_ok e
  refine ⟨⟨_, rfl, fun o ho => ?_⟩, fun o ho => ?_⟩
  · obtain ⟨x, hx, rfl⟩ := List.mem_map.1 ho
    exact List.mem_append_right _ hx
  · cases o with
    | inv x => exact List.mem_append_left _ ho
    | _ => exact ho

theorem keeps_requestBlocks : ∀ (l : List Nat) {n n' : Fsm}, Fsm.requestBlocks cfg l n = .ok n' → Keeps n n'
  | [], n, n', e => by cases e; exact .refl n
  | h :: l, n, n', e => by
    simp only [Fsm.requestBlocks, Res.bind_eq_ok] at e
    obtain ⟨n1, h1, h2⟩ := e
    exact (keeps_callInv h1).trans (keeps_requestBlocks l h2)

theorem label_waits {b : Option Block} {x : Cbf.Out} {o : Out} (h : label b x = some o) : (∀ y, o ≠ .sync y) ∧ ∀ y, o ≠ .inv y := by
  unfold label at h
  split at h <;> simp only [Option.some.injEq, reduceCtorEq] at h <;> subst h <;> simp

theorem keeps_callCbf {env : Cbf.Env} {b : Option Block} {op : Cbf.Op} (e : n.callCbf cfg env b op = .ok n') : Keeps n n' := by
  obtain ⟨c, -, hr⟩ := callCbf_ok e
  refine Keeps.trans ?_ (keeps_requestBlocks _ hr)
  refine ⟨⟨_, rfl, fun o ho => ?_⟩, fun o ho => ?_⟩
  · obtain ⟨x, -, hx⟩ := List.mem_filterMap.1 ho
    obtain ⟨h1, h2⟩ := label_waits hx
    cases o with
    | sync y => exact absurd rfl (h1 y)
    | inv y => exact absurd rfl (h2 y)
    | _ => exact List.mem_append_right _ ho
  · cases o with
    | sync y => exact ho
    | inv y => exact ho
    | _ => exact List.mem_append_left _ ho

/-- The output that is taken next. -/
def Fsm.first (n : Fsm) : Option Out :=
  match n.qSync with
  | o :: _ => some (.sync o)
  | [] =>
    match n.qInv with
    | o :: _ => some (.inv o)
    | [] => n.qCbf.head?

/-- What waits still waits, unless it is taken; what was put out meanwhile waits. -/
theorem step_waits {e : Env} {i : Input} (hs : n.step cfg e i = .ok n') :
    (∃ d, n'.log = n.log ++ d ∧ ∀ o ∈ d, n'.Waits o) ∧ ∀ o, n.Waits o → n'.Waits o ∨ (i = .next ∧ n.first = some o) := by
  have key : Keeps n n' → (∃ d, n'.log = n.log ++ d ∧ ∀ o ∈ d, n'.Waits o) ∧ ∀ o, n.Waits o → n'.Waits o ∨ (i = .next ∧ n.first = some o) :=
    fun k => ⟨k.1, fun o ho => .inl (k.2 o ho)⟩
  cases i with
  | init =>
    simp only [Fsm.step, Res.bind_eq_ok] at hs
    obtain ⟨n1, h1, h2⟩ := hs
    exact key ((keeps_callSync h1).trans (keeps_callCbf h2))
  | negotiated =>
    simp only [Fsm.step, Res.bind_eq_ok] at hs
    obtain ⟨n1, h1, n2, h2, h3⟩ := hs
    exact key (((keeps_callCbf h1).trans (keeps_callInv h2)).trans (keeps_callSync h3))
  | disconnected =>
    simp only [Fsm.step, Res.bind_eq_ok] at hs
    obtain ⟨n1, h1, n2, h2, h3⟩ := hs
    exact key (((keeps_callCbf h1).trans (keeps_callInv h2)).trans (keeps_callSync h3))
  | headers a hs' => exact key (keeps_callSync hs)
  | getheaders => exact key (keeps_callSync hs)
  | invs => exact key (keeps_callSync hs)
  | block b => exact key (keeps_callInv hs)
  | getdata => simp only [Fsm.step] at hs; exact key (keeps_callInv hs)
  | cfheaders => exact key (keeps_callCbf hs)
  | getcfheaders => exact key (keeps_callCbf hs)
  | cfilter => exact key (keeps_callCbf hs)
  | timer =>
    simp only [Fsm.step, Res.bind_eq_ok] at hs
    obtain ⟨n1, h1, n2, h2, h3⟩ := hs
    exact key (((keeps_callInv h1).trans (keeps_callSync h2)).trans (keeps_callCbf h3))
  | importHeaders hs' => exact key (keeps_callSync hs)
  | requestFilters => exact key (keeps_callCbf hs)
  | requestBlock k => simp only [Fsm.step] at hs; exact key (keeps_callInv hs)
  | submit t =>
    simp only [Fsm.step, Res.bind_eq_ok] at hs
    obtain ⟨n1, h1, h2⟩ := hs
    exact key ((keeps_callCbf h1).trans (keeps_callInv h2))
  | rescan a b v => exact key (keeps_callCbf hs)
  | watch v => simp only [Fsm.step] at hs; exact key (keeps_callCbf hs)
  | next =>
    simp only [Fsm.step, Fsm.next] at hs
    -- an output is popped, then calls are made
    have pop : ∀ n1 : Fsm, n1.log = n.log → Keeps n1 n' → (∀ o, n.Waits o → n1.Waits o ∨ n.first = some o) →
        (∃ d, n'.log = n.log ++ d ∧ ∀ o ∈ d, n'.Waits o) ∧ ∀ o, n.Waits o → n'.Waits o ∨ (Input.next = .next ∧ n.first = some o) := by
      rintro n1 hl ⟨k1, k2⟩ hw
      rw [hl] at k1
      refine ⟨k1, fun o ho => ?_⟩
      rcases hw o ho with h | h
      · exact .inl (k2 o h)
      · exact .inr ⟨rfl, h⟩
    split at hs
    · rename_i o l hq
      refine pop { n with qSync := l } rfl ?_ ?_
      · cases o with
        | disconnected height hash => simp only [Fsm.deliverSync] at hs; exact keeps_callCbf hs
        | imported a b c d r =>
          simp only [Fsm.deliverSync, Res.bind_eq_ok] at hs
          obtain ⟨n1, h1, h2⟩ := hs
          exact (keeps_callCbf h1).trans (keeps_callInv h2)
        | _ => cases hs; exact .refl _
      · intro x hx
        cases x with
        | sync y =>
          simp only [Fsm.Waits, hq] at hx
          rcases List.mem_cons.1 hx with rfl | hx
          · right; simp [Fsm.first, hq]
          · exact .inl hx
        | _ => exact .inl hx
    · rename_i hq0
      split at hs
      · rename_i o l hq
        refine pop { n with qInv := l } rfl ?_ ?_
        · cases o with
          | processed b height fees => exact keeps_callCbf hs
          | confirmed => simp only [Fsm.deliverInv] at hs; exact keeps_callCbf hs
          | reverted => simp only [Fsm.deliverInv] at hs; exact keeps_callCbf hs
          | _ => cases hs; exact .refl _
        · intro x hx
          cases x with
          | inv y =>
            simp only [Fsm.Waits, hq] at hx
            rcases List.mem_cons.1 hx with rfl | hx
            · right; simp [Fsm.first, hq0, hq]
            · exact .inl hx
          | _ => exact .inl hx
      · rename_i hq
        cases hs
        refine pop { n with qCbf := n.qCbf.tail } rfl (.refl _) ?_
        have key : ∀ x, x ∈ n.qCbf → x ∈ n.qCbf.tail ∨ n.first = some x := by
          intro x hx
          cases hc : n.qCbf with
          | nil => rw [hc] at hx; cases hx
          | cons y q =>
            rw [hc] at hx
            rcases List.mem_cons.1 hx with rfl | hx
            · right; simp [Fsm.first, hq0, hq, hc]
            · exact .inl hx
        intro x hx
        cases x with
        | sync y => exact .inl hx
        | inv y => exact .inl hx
        | _ => exact key _ hx

end Verif.Node
