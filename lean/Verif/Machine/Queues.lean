import Verif.Machine.ReactorInv
import Verif.Node.Queues
import Verif.Addr.Grows

/-!
# The whole state machine: no output is lost
-/

set_option autoImplicit false

namespace Verif.Machine
open Verif.Addr (Sock Ip NetAddr Known Source has)
open Verif.Chain (Header)

variable {cfg : Cfg} {U : Header → Prop} {fail : Bool} {P : Node.Hist → Node.Fsm → Node.Input → Node.Fsm → List Node.Out → Prop}
variable {z : Setup} {is : List Input} {h : Node.Hist} {e : Env} {s s' : State}

/-- How many outputs of ping manager and address manager are taken. -/
structure TakesToo (s : State) (i : Input) (s' : State) : Prop where
  ping : s'.takenPing = s.takenPing ∨ (i = .next ∧ ∃ o q, s.qPing = o :: q ∧ s.head = some (.ping o) ∧ s'.ping = s.ping ∧ s'.takenPing = s.takenPing + 1)
  addr : s'.takenAddr = s.takenAddr ∨ (i = .next ∧ ∃ o q, s.qAddr = o :: q ∧ s.head = some (.addr o) ∧ s'.addr = s.addr ∧ s'.takenAddr = s.takenAddr + 1)

theorem callDraw_taken {op : List Peer.Cand → Peer.Op} (h : s.callDraw cfg e op = .ok s') : s'.takenPing = s.takenPing ∧ s'.takenAddr = s.takenAddr := by
  obtain ⟨src, m, p, -, -, rfl⟩ := callDraw_ok h; exact ⟨rfl, rfl⟩

theorem callPeer_taken {op : Peer.Op} (h : s.callPeer cfg op = .ok s') : s'.takenPing = s.takenPing ∧ s'.takenAddr = s.takenAddr := by
  obtain ⟨m, -, rfl⟩ := callPeer_ok h; exact ⟨rfl, rfl⟩

theorem callAddr_taken {op : Addr.Op} (h : s.callAddr cfg op = .ok s') : s'.takenPing = s.takenPing ∧ s'.takenAddr = s.takenAddr := by
  obtain ⟨c, m, -, rfl⟩ := callAddr_ok h; exact ⟨rfl, rfl⟩

theorem callNode_taken {j : Node.Input} (h : s.callNode cfg e j = .ok s') : s'.takenPing = s.takenPing ∧ s'.takenAddr = s.takenAddr := by
  obtain ⟨n, -, rfl⟩ := callNode_ok h; exact ⟨rfl, rfl⟩

theorem nextNode_taken (h : s.nextNode cfg e = .ok s') : s'.takenPing = s.takenPing ∧ s'.takenAddr = s.takenAddr := by
  obtain ⟨s1, h1, h⟩ := bind_ok h
  have k := callNode_taken h1
  cases hc : (nodeHead s.node).bind (complaint cfg) with
  | none => simp only [hc, Res.ok.injEq] at h; rw [← h]; exact k
  | some op =>
    simp only [hc] at h
    have k2 := callPeer_taken h
    exact ⟨k2.1.trans k.1, k2.2.trans k.2⟩

theorem deliverPeer_taken {o : Peer.Out} (h : s.deliverPeer cfg e o = .ok s') : s'.takenPing = s.takenPing ∧ s'.takenAddr = s.takenAddr := by
  cases o with
  | evConnecting a c d => simp only [State.deliverPeer] at h; exact callAddr_taken h
  | evConnected a b l => simp only [State.deliverPeer] at h; exact callAddr_taken h
  | evNegotiated a n =>
    obtain ⟨s1, h1, h⟩ := bind_ok h
    have k1 := callNode_taken h1
    have k2 := callAddr_taken h
    exact ⟨k2.1.trans k1.1, k2.2.trans k1.2⟩
  | evDisconnected a d =>
    obtain ⟨s1, h1, h⟩ := bind_ok h
    have k1 := callNode_taken h1
    have k2 := callAddr_taken h
    exact ⟨k2.1.trans k1.1, k2.2.trans k1.2⟩
  | _ =>
    simp only [State.deliverPeer, Res.ok.injEq] at h
    subst h; exact ⟨rfl, rfl⟩

theorem step_takes {i : Input} (hs : s.step cfg e i = .ok s') : TakesToo s i s' := by
  have key : s'.takenPing = s.takenPing ∧ s'.takenAddr = s.takenAddr → TakesToo s i s' := fun k => ⟨.inl k.1, .inl k.2⟩
  cases i with
  | tick now => simp only [State.step] at hs; exact key (callPeer_taken hs)
  | attempted a => simp only [State.step] at hs; exact key (callPeer_taken hs)
  | connected a loc link => simp only [State.step] at hs; exact key (callPeer_taken hs)
  | disconnected a d => simp only [State.step] at hs; exact key (callDraw_taken hs)
  | message a ok msg =>
    refine key ?_
    cases ok with
    | false => simp only [State.step, State.message, if_true] at hs; exact callPeer_taken hs
    | true =>
      by_cases hc : s.peer.isConnected a = true
      · simp only [State.step, State.message, hc, Bool.true_eq_false, if_false] at hs
        obtain ⟨s1, h1, hs⟩ := bind_ok hs
        obtain ⟨s2, h2, hs⟩ := bind_ok hs
        have k1 : s1.takenPing = s.takenPing ∧ s1.takenAddr = s.takenAddr := by
          cases hj : msg.node (cfg.id a) with
          | none => simp only [State.messageNode, hj, Res.ok.injEq] at h1; rw [← h1]; exact ⟨rfl, rfl⟩
          | some j => simp only [State.messageNode, hj] at h1; exact callNode_taken h1
        have k2 := callAddr_taken h2
        have kp : (s1.messagePing e (msg.pingOp (cfg.id a))).takenPing = s1.takenPing ∧ (s1.messagePing e (msg.pingOp (cfg.id a))).takenAddr = s1.takenAddr := by
          cases hp : msg.pingOp (cfg.id a) <;> exact ⟨rfl, rfl⟩
        have k3 : s'.takenPing = s2.takenPing ∧ s'.takenAddr = s2.takenAddr := by
          cases hm : msg.peer with
          | none => simp only [State.messagePeer, hm, Res.ok.injEq] at hs; rw [← hs]; exact ⟨rfl, rfl⟩
          | some m => simp only [State.messagePeer, hm] at hs; exact callPeer_taken hs
        exact ⟨by rw [k3.1, k2.1, kp.1, k1.1], by rw [k3.2, k2.2, kp.2, k1.2]⟩
      · simp only [State.step, State.message, hc, Bool.true_eq_false, if_false, if_true, Res.ok.injEq] at hs
        subst hs; exact ⟨rfl, rfl⟩
  | timer =>
    obtain ⟨s1, h1, hs⟩ := bind_ok hs
    obtain ⟨s2, h2, hs⟩ := bind_ok hs
    have k1 := callNode_taken h1
    have k2 := callAddr_taken h2
    have k3 := callDraw_taken hs
    exact key ⟨k3.1.trans (k2.1.trans k1.1), k3.2.trans (k2.2.trans k1.2)⟩
  | connect a => simp only [State.step] at hs; exact key (callPeer_taken hs)
  | disconnect a => simp only [State.step] at hs; exact key (callPeer_taken hs)
  | importAddresses l => simp only [State.step] at hs; exact key (callAddr_taken hs)
  | importHeaders x => simp only [State.step] at hs; exact key (callNode_taken hs)
  | requestFilters a b => simp only [State.step] at hs; exact key (callNode_taken hs)
  | requestBlock k => simp only [State.step] at hs; exact key (callNode_taken hs)
  | submit t => simp only [State.step] at hs; exact key (callNode_taken hs)
  | rescan a b w => simp only [State.step] at hs; exact key (callNode_taken hs)
  | watch w => simp only [State.step] at hs; exact key (callNode_taken hs)
  | next =>
    simp only [State.step, State.next] at hs
    cases hq : s.qPeer with
    | cons o q => simp only [hq] at hs; exact key (deliverPeer_taken (s := { s with takenPeer := s.takenPeer + 1 }) hs)
    | nil =>
      simp only [hq] at hs
      by_cases hn : s.node.qSync ≠ [] ∨ s.node.qInv ≠ []
      · rw [if_pos hn] at hs; exact key (nextNode_taken hs)
      · rw [if_neg hn] at hs
        cases hp : s.qPing with
        | cons o q =>
          simp only [hp, Res.ok.injEq] at hs
          subst hs
          exact ⟨.inr ⟨rfl, o, q, hp, by simp only [State.head, hq, if_neg hn, hp], rfl, rfl⟩, .inl rfl⟩
        | nil =>
          simp only [hp] at hs
          cases ha : s.qAddr with
          | cons o q =>
            simp only [ha, Res.ok.injEq] at hs
            subst hs
            exact ⟨.inl rfl, .inr ⟨rfl, o, q, ha, by simp only [State.head, hq, if_neg hn, hp, ha], rfl, rfl⟩⟩
          | nil => simp only [ha] at hs; exact key (nextNode_taken hs)

theorem mem_drop_append {α : Type} {x : α} {l o : List α} {k : Nat} (h : x ∈ l.drop k) : x ∈ (l ++ o).drop k := by
  rw [List.drop_append]; exact List.mem_append_left _ h

theorem mem_drop_next {α : Type} {x y : α} {l q : List α} {k : Nat} (hq : l.drop k = y :: q) (h : x ∈ l.drop k) : x ∈ l.drop (k + 1) ∨ x = y := by
  rw [hq] at h
  rcases List.mem_cons.1 h with h | h
  · exact .inr h
  · left
    rw [← List.tail_drop, hq]; exact h

/-- If the node is asked to take an output, it is the next output. -/
theorem nodeInput_next {i : Input} (hj : nodeInput cfg s i = some .next) : i = .next ∧ s.head = s.node.first.map .node := by
  have hf : nodeHead s.node = s.node.first := rfl
  cases i with
  | next =>
    refine ⟨rfl, ?_⟩
    simp only [nodeInput] at hj
    cases hq : s.qPeer with
    | cons o q =>
      simp only [hq] at hj
      cases o <;> simp [negotiatedInput] at hj
    | nil =>
      simp only [hq] at hj
      split at hj
      · cases hj
      · rename_i hn
        rw [← hf]
        simp only [State.head, hq]
        split
        · rfl
        · rename_i hn'
          have h1 : s.node.qSync = [] := by by_contra hc; exact hn' (.inl hc)
          have h2 : s.node.qInv = [] := by by_contra hc; exact hn' (.inr hc)
          have h3 : s.qPing = [] := by by_contra hc; exact hn ⟨h1, h2, .inl hc⟩
          have h4 : s.qAddr = [] := by by_contra hc; exact hn ⟨h1, h2, .inr hc⟩
          simp only [h3, h4]
  | message a ok msg =>
    simp only [nodeInput] at hj
    split at hj
    · cases msg <;> simp [Msg.node] at hj
    · cases hj
  | _ => simp [nodeInput] at hj

/-- What waits still waits, unless it is the output that is taken. -/
theorem step_keeps {i : Input} {hp : List Peer.Op} {lp : List Ping.Obs} (rp : Peer.Run cfg.peer z.trusted hp s.peer) (rg : Ping.Run z.pingTimeout lp s.ping)
    (l : Legal U fail e i) (hs : s.step cfg e i = .ok s') (o : Out) (w : s.Waits o) : s'.Waits o ∨ (i = .next ∧ s.head = some o) := by
  have ef := step_effect hs
  have tk := step_takes hs
  cases o with
  | peer o =>
    obtain ⟨d, hd⟩ := step_grows rp l hs
    have w : o ∈ s.qPeer := w
    by_cases hn : ∃ x q, i = .next ∧ s.qPeer = x :: q
    · obtain ⟨x, q, rfl, hq⟩ := hn
      have ht : s'.takenPeer = s.takenPeer + 1 := by rw [ef.taken]; simp [takes, hq]
      rcases mem_drop_next hq w with h | h
      · left
        show o ∈ s'.peer.out.drop s'.takenPeer
        rw [hd, ht]
        exact mem_drop_append h
      · right
        exact ⟨rfl, by simp only [State.head, hq, h]⟩
    · left
      have ht : s'.takenPeer = s.takenPeer := by
        rw [ef.taken]
        cases i with
        | next => cases hq : s.qPeer with
          | nil => rfl
          | cons x q => exact absurd ⟨x, q, rfl, hq⟩ hn
        | _ => rfl
      show o ∈ s'.peer.out.drop s'.takenPeer
      rw [hd, ht]
      exact mem_drop_append w
  | ping o =>
    have w : o ∈ s.qPing := w
    rcases tk.ping with ht | ⟨rfl, x, q, hq, hh, hp, ht⟩
    · left
      have hd : ∃ d, s'.ping.out = s.ping.out ++ d := by
        rw [ef.ping]
        cases hop : pingInput cfg s i with
        | none => exact ⟨[], by simp⟩
        | some op => exact ping_grows rg ⟨s.now, e.pingNonce, e.pingOrder⟩ l.ping op
      obtain ⟨d, hd⟩ := hd
      show o ∈ s'.ping.out.drop s'.takenPing
      rw [hd, ht]
      exact mem_drop_append w
    · rcases mem_drop_next hq w with h | h
      · left
        show o ∈ s'.ping.out.drop s'.takenPing
        rw [hp, ht]; exact h
      · exact .inr ⟨rfl, by rw [hh, h]⟩
  | addr o =>
    have w : o ∈ s.qAddr := w
    rcases tk.addr with ht | ⟨rfl, x, q, hq, hh, hp, ht⟩
    · left
      obtain ⟨x, hx⟩ := step_addr l hs
      obtain ⟨d, hd⟩ := Addr.steps_out hx
      show o ∈ s'.addr.out.drop s'.takenAddr
      rw [← hd, ht]
      exact mem_drop_append w
    · rcases mem_drop_next hq w with h | h
      · left
        show o ∈ s'.addr.out.drop s'.takenAddr
        rw [hp, ht]; exact h
      · exact .inr ⟨rfl, by rw [hh, h]⟩
  | node o =>
    have hn := ef.node
    cases hj : nodeInput cfg s i with
    | none => simp only [hj] at hn; left; show s'.node.Waits o; rw [hn]; exact w
    | some j =>
      simp only [hj] at hn
      rcases (Node.step_waits hn).2 o w with h | ⟨rfl, h⟩
      · exact .inl h
      · obtain ⟨h1, h2⟩ := nodeInput_next hj
        exact .inr ⟨h1, by rw [h2, h]; rfl⟩

/-- If something waits, there is a next output. -/
theorem head_waits {o : Out} (w : s.Waits o) : s.head ≠ none := by
  intro hh
  have hq := head_none hh
  simp only [State.head, hq] at hh
  have hnode : ∀ x, s.node.Waits x → nodeHead s.node ≠ none := by
    intro x hx hn
    unfold nodeHead at hn
    split at hn
    · cases hn
    · rename_i h1
      split at hn
      · cases hn
      · rename_i h2
        rw [List.head?_eq_none_iff] at hn
        cases x <;> simp [Node.Fsm.Waits, h1, h2, hn] at hx
  split at hh
  · rename_i hn
    rw [Option.map_eq_none_iff] at hh
    unfold nodeHead at hh
    split at hh
    · cases hh
    · rename_i h1
      split at hh
      · cases hh
      · rename_i h2
        rcases hn with hn | hn
        · exact hn h1
        · exact hn h2
  · split at hh
    · cases hh
    · rename_i hp
      split at hh
      · cases hh
      · rename_i ha
        rw [Option.map_eq_none_iff] at hh
        cases o with
        | peer x => simp [State.Waits, hq] at w
        | ping x => simp [State.Waits, hp] at w
        | addr x => simp [State.Waits, ha] at w
        | node x => exact hnode x w hh

end Verif.Machine
