import Verif.Node.Lemmas

/-!
# The outboxes of the node: taking outputs comes to an end
-/

set_option autoImplicit false

namespace Verif.Node
open Verif.Tx (Block)

variable {cfg : Cfg} {n n' : Fsm}

/-- The outputs of the inventory manager that the filter manager is told about. -/
def heard : Inv.Out → Bool
  | .processed _ _ _ => true
  | .confirmed _ _ _ => true
  | .reverted _ => true
  | _ => false

/-- Nothing is added that the filter manager would be told about. -/
structure Quiet (n n' : Fsm) : Prop where
  sync : n'.qSync = n.qSync
  inv : n'.qInv.countP heard = n.qInv.countP heard

theorem requestBlocks_quiet : ∀ (l : List Nat) {n n' : Fsm}, Fsm.requestBlocks cfg l n = .ok n' → Quiet n n' ∧ n'.qCbf = n.qCbf
  | [], n, n', e => by cases e; exact ⟨⟨rfl, rfl⟩, rfl⟩
  | h :: l, n, n', e => by
    simp only [Fsm.requestBlocks, Res.bind_eq_ok] at e
    obtain ⟨n1, h1, h2⟩ := e
    obtain ⟨q, hc⟩ := requestBlocks_quiet l h2
    obtain ⟨m, hm, rfl⟩ := callInv_ok h1
    simp only [Inv.Mgr.step, Res.ok.injEq] at hm
    have ho : m.out = [.timer 1000] := by
      rw [← hm]
      unfold Inv.Mgr.getBlock Inv.Mgr.scheduleTick
      split <;> rfl
    refine ⟨⟨q.sync, ?_⟩, hc⟩
    rw [q.inv]
    show (n.qInv ++ m.out).countP heard = _
    rw [ho, List.countP_append]
    simp [heard]

theorem callCbf_quiet {env : Cbf.Env} {b : Option Block} {op : Cbf.Op} (e : n.callCbf cfg env b op = .ok n') : Quiet n n' := by
  obtain ⟨c, -, hr⟩ := callCbf_ok e
  have q := (requestBlocks_quiet _ hr).1
  exact ⟨q.sync, q.inv⟩

/-- Taking an output: one output less of the sync manager; or the same number of those and one less that the filter manager is told about; or one output less of the inventory
manager; or one less of the filter manager. -/
theorem next_less {e : Env} (h : n.next cfg e = .ok n') (ho : n.qSync ≠ [] ∨ n.qInv ≠ [] ∨ n.qCbf ≠ []) :
    n'.qSync.length < n.qSync.length ∨ (n'.qSync.length = n.qSync.length ∧ (n'.qInv.countP heard < n.qInv.countP heard ∨
      (n'.qInv.countP heard = n.qInv.countP heard ∧ (n'.qInv.length < n.qInv.length ∨ (n'.qInv.length = n.qInv.length ∧ n'.qCbf.length < n.qCbf.length))))) := by
  unfold Fsm.next at h
  cases hs : n.qSync with
  | cons o q =>
    left
    simp only [hs] at h
    suffices n'.qSync = q by rw [this]; simp
    cases o with
    | disconnected height x =>
      simp only [Fsm.deliverSync] at h
      exact (callCbf_quiet h).sync
    | imported a b c d rev =>
      simp only [Fsm.deliverSync, Res.bind_eq_ok] at h
      obtain ⟨n1, h1, h2⟩ := h
      obtain ⟨m, -, rfl⟩ := callInv_ok h2
      exact (callCbf_quiet h1).sync
    | _ =>
      simp only [Fsm.deliverSync, Res.ok.injEq] at h
      rw [← h]
  | nil =>
    right
    simp only [hs] at h
    cases hi : n.qInv with
    | cons o q =>
      simp only [hi] at h
      have told : ∀ {b op}, Fsm.callCbf cfg e.cbf b { n with qSync := [], qInv := q } op = .ok n' → heard o = true →
          n'.qSync.length = 0 ∧ n'.qInv.countP heard < (o :: q).countP heard := by
        intro b op hc hh
        have k := callCbf_quiet hc
        refine ⟨by rw [k.sync]; rfl, ?_⟩
        rw [k.inv, List.countP_cons, hh]
        simp
      have untold : Res.ok (α := Fsm) { n with qSync := [], qInv := q } = (.ok n' : Res Unit Fsm) → heard o = false → n'.qSync.length = 0 ∧ n'.qInv.countP heard = (o :: q).countP heard ∧
          n'.qInv.length < (o :: q).length := by
        intro hc hh
        simp only [Res.ok.injEq] at hc
        rw [← hc]
        exact ⟨rfl, by rw [List.countP_cons, hh]; simp, by simp⟩
      cases o with
      | processed b k f => simp only [Fsm.deliverInv] at h; have := told h rfl; exact ⟨this.1, .inl this.2⟩
      | confirmed t b k => simp only [Fsm.deliverInv] at h; have := told h rfl; exact ⟨this.1, .inl this.2⟩
      | reverted t => simp only [Fsm.deliverInv] at h; have := told h rfl; exact ⟨this.1, .inl this.2⟩
      | _ => have := untold h rfl; exact ⟨this.1, .inr ⟨this.2.1, .inl this.2.2⟩⟩
    | nil =>
      simp only [hi, Res.ok.injEq] at h
      rw [← h]
      have hc : n.qCbf ≠ [] := by simpa [hs, hi] using ho
      refine ⟨by simp, .inr ⟨by simp, .inr ⟨by simp, ?_⟩⟩⟩
      have : 0 < n.qCbf.length := List.length_pos_iff.2 hc
      simp only [List.length_tail]
      omega

end Verif.Node
