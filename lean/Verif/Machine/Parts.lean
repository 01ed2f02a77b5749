import Verif.Machine.Spec

/-!
# The whole state machine: what a step is for each manager
-/

set_option autoImplicit false

namespace Verif.Machine
open Verif.Addr (Sock Ip NetAddr Known Source has)
open Verif.Peer (Cand)

variable {cfg : Cfg} {e : Env} {s s' : State}

theorem callPeer_ok {op : Peer.Op} (h : s.callPeer cfg op = .ok s') : ∃ m, s.peer.step cfg.peer op = .ok m ∧ s' = { s with peer := m } := by
  unfold State.callPeer at h
  cases hm : s.peer.step cfg.peer op with
  | ok m => simp only [hm, Res.ok.injEq] at h; exact ⟨m, rfl, h.symm⟩
  | err x => simp [hm] at h
  | panic => simp [hm] at h

theorem callAddr_ok {op : Addr.Op} (h : s.callAddr cfg op = .ok s') : ∃ c m, s.addr.step cfg.addr op = .ok (c, m) ∧ s' = { s with addr := m } := by
  unfold State.callAddr at h
  cases hm : s.addr.step cfg.addr op with
  | ok p => obtain ⟨c, m⟩ := p; simp only [hm, Res.ok.injEq] at h; exact ⟨c, m, rfl, h.symm⟩
  | err x => simp [hm] at h
  | panic => simp [hm] at h

theorem callNode_ok {i : Node.Input} (h : s.callNode cfg e i = .ok s') :
    ∃ n, s.node.step cfg.node (e.at s.now) i = .ok n ∧ s' = { s with node := n } := by
  unfold State.callNode at h
  cases hm : s.node.step cfg.node (e.at s.now) i with
  | ok m => simp only [hm, Res.ok.injEq] at h; exact ⟨m, rfl, h.symm⟩
  | err x => simp [hm] at h
  | panic => simp [hm] at h

theorem addr_steps_trans {c : Addr.Config} {m m' m'' : Addr.Mgr} {l l' : List Addr.Entry} (h : Addr.Steps c m l m') (h' : Addr.Steps c m' l' m'') :
    Addr.Steps c m (l' ++ l) m'' := by
  induction h' with
  | refl => exact h
  | step r f hs ih => exact .step ih f hs

theorem draw_ok {c : Addr.Config} : ∀ {ds : List (Addr.Env × (Known → Bool))} {m m' : Addr.Mgr} {src : List Cand}, (∀ p ∈ ds, p.1.Fair) →
    draw c ds m = .ok (src, m') → ∃ l, Addr.Steps c m l m'
  | [], m, m', src, _, h => by
    simp only [draw, Res.ok.injEq, Prod.mk.injEq] at h
    obtain ⟨_, rfl⟩ := h
    exact ⟨[], .refl⟩
  | (ea, pred) :: ds, m, m', src, f, h => by
    unfold draw at h
    cases hm : m.step c (.sample ea pred) with
    | ok p =>
      obtain ⟨x, m1⟩ := p
      simp only [hm] at h
      cases hd : draw c ds m1 with
      | ok q =>
        obtain ⟨cs, m2⟩ := q
        simp only [hd, Res.ok.injEq, Prod.mk.injEq] at h
        obtain ⟨_, rfl⟩ := h
        obtain ⟨l, hl⟩ := draw_ok (fun p hp => f p (List.mem_cons_of_mem _ hp)) hd
        exact ⟨_, addr_steps_trans (.step .refl (show (Addr.Op.sample ea pred).Fair from f (ea, pred) (by simp)) hm) hl⟩
      | err x => simp [hd] at h
      | panic => simp [hd] at h
    | err x => simp [hm] at h
    | panic => simp [hm] at h

theorem callDraw_ok {op : List Cand → Peer.Op} (h : s.callDraw cfg e op = .ok s') :
    ∃ src m p, draw cfg.addr e.draws s.addr = .ok (src, m) ∧ s.peer.step cfg.peer (op src) = .ok p ∧ s' = { s with addr := m, peer := p } := by
  unfold State.callDraw at h
  cases hm : draw cfg.addr e.draws s.addr with
  | ok q =>
    obtain ⟨src, m⟩ := q
    simp only [hm] at h
    obtain ⟨p, hp, rfl⟩ := callPeer_ok h
    exact ⟨src, m, p, rfl, hp, rfl⟩
  | err x => simp [hm] at h
  | panic => simp [hm] at h

theorem bind_ok {α β : Type} {x : Res Unit α} {f : α → Res Unit β} {b : β} (h : (x >>= f) = .ok b) : ∃ a, x = .ok a ∧ f a = .ok b := by
  cases x with
  | ok a => exact ⟨a, rfl, h⟩
  | err u => simp [bind, Res.bind] at h
  | panic => simp [bind, Res.bind] at h

/-- The messages a manager other than the peer manager looks at are not for the peer manager, which therefore sees the same tree. -/
theorem msg_peer_node {msg : Msg} {m : Peer.Msg} (h : msg.peer = some m) (a : Nat) : msg.node a = none := by
  cases msg <;> simp_all [Msg.peer, Msg.node]

theorem message_effect {a : Sock} {ok : Bool} {msg : Msg} (h : s.message cfg e a ok msg = .ok s') : Effect cfg e s (.message a ok msg) s' := by
  cases ok with
  | false =>
    simp only [State.message, if_true] at h
    obtain ⟨m, hm, rfl⟩ := callPeer_ok h
    exact ⟨rfl, rfl, ⟨[], hm⟩, rfl⟩
  | true =>
    by_cases hc : s.peer.isConnected a = true
    · simp only [State.message, hc, Bool.true_eq_false, if_false] at h
      obtain ⟨s1, h1, h⟩ := bind_ok h
      obtain ⟨s2, h2, h⟩ := bind_ok h
      have n1 : s1 = { s with node := s1.node } ∧
          (match msg.node (cfg.id a) with | none => s1.node = s.node | some j => s.node.step cfg.node (e.at s.now) j = .ok s1.node) := by
        cases hj : msg.node (cfg.id a) with
        | none =>
          simp only [State.messageNode, hj, Res.ok.injEq] at h1
          subst h1
          exact ⟨rfl, rfl⟩
        | some j =>
          simp only [State.messageNode, hj] at h1
          obtain ⟨n, hn, rfl⟩ := callNode_ok h1
          exact ⟨rfl, hn⟩
      obtain ⟨e1, n1⟩ := n1
      obtain ⟨c, ma, hma, rfl⟩ := callAddr_ok h2
      have p1 : s1.messagePing e (msg.pingOp (cfg.id a)) = { s1 with ping := (s1.messagePing e (msg.pingOp (cfg.id a))).ping } := by
        cases hp : msg.pingOp (cfg.id a) <;> rfl
      have pp : (s1.messagePing e (msg.pingOp (cfg.id a))).ping =
          match msg.pingOp (cfg.id a) with | none => s.ping | some op => s.ping.step ⟨s.now, e.pingNonce, e.pingOrder⟩ op := by
        rw [e1]
        cases hp : msg.pingOp (cfg.id a) <;> rfl
      cases hm : msg.peer with
      | none =>
        simp only [State.messagePeer, hm, Res.ok.injEq] at h
        subst h
        refine ⟨?_, ?_, ?_, ?_⟩
        · simp only [nodeInput, hc, Bool.and_self, if_true]; rw [p1]; exact n1
        · simp only [pingInput, hc, Bool.and_self, if_true]; exact pp
        · simp only [peerInput, hc, if_true, hm, Option.map_none]; rw [p1, e1]
        · rw [p1, e1]; rfl
      | some m =>
        simp only [State.messagePeer, hm] at h
        obtain ⟨mp, hmp, rfl⟩ := callPeer_ok h
        refine ⟨?_, ?_, ?_, ?_⟩
        · simp only [nodeInput, hc, Bool.and_self, if_true]; rw [p1]; exact n1
        · simp only [pingInput, hc, Bool.and_self, if_true]; exact pp
        · simp only [peerInput, hc, if_true, hm, Option.map_some]
          have hn : s1.node = s.node := by
            rw [msg_peer_node hm] at n1
            exact n1
          refine ⟨[], ?_⟩
          have hp2 : s1.peer = s.peer := by rw [e1]
          rw [p1] at hmp
          simp only [hn, hp2] at hmp
          exact hmp
        · rw [p1, e1]; rfl
    · simp only [State.message, hc, Bool.true_eq_false, if_false, if_true, Res.ok.injEq] at h
      subst h
      simp only [Bool.not_eq_true] at hc
      refine ⟨?_, ?_, ?_, rfl⟩
      · simp [nodeInput, hc]
      · simp [pingInput, hc]
      · simp [peerInput, hc]

theorem deliverPeer_effect {o : Peer.Out} {q : List Peer.Out} (hq : s.qPeer = o :: q)
    (h : ({ s with takenPeer := s.takenPeer + 1 } : State).deliverPeer cfg e o = .ok s') : Effect cfg e s .next s' := by
  have ht : nodeTurn s = none := by simp [nodeTurn, hq]
  have hp : peerInput cfg e s .next = none := by simp [peerInput, ht]
  cases o with
  | evConnecting a c d =>
    simp only [State.deliverPeer] at h
    obtain ⟨c, ma, hma, rfl⟩ := callAddr_ok h
    exact ⟨by simp [nodeInput, hq], by simp [pingInput, hq], by simp [hp], by simp [hq, takes]⟩
  | evConnected a b l =>
    simp only [State.deliverPeer] at h
    obtain ⟨c, ma, hma, rfl⟩ := callAddr_ok h
    exact ⟨by simp [nodeInput, hq], by simp [pingInput, hq], by simp [hp], by simp [hq, takes]⟩
  | evNegotiated a n =>
    obtain ⟨s1, h1, h⟩ := bind_ok h
    obtain ⟨c, ma, hma, rfl⟩ := callAddr_ok h
    obtain ⟨m, hm, rfl⟩ := callNode_ok h1
    refine ⟨?_, ?_, by simp [hp, State.callPing], by simp [hq, State.callPing, takes]⟩
    · simp only [nodeInput, hq]; exact hm
    · simp only [pingInput, hq]; rfl
  | evDisconnected a d =>
    obtain ⟨s1, h1, h⟩ := bind_ok h
    obtain ⟨c, ma, hma, rfl⟩ := callAddr_ok h
    obtain ⟨m, hm, rfl⟩ := callNode_ok h1
    refine ⟨?_, ?_, by simp [hp, State.callPing], by simp [hq, State.callPing, takes]⟩
    · simp only [nodeInput, hq]; exact hm
    · simp only [pingInput, hq]; rfl
  | _ =>
    simp only [State.deliverPeer, Res.ok.injEq] at h
    subst h
    exact ⟨by simp [nodeInput, hq], by simp [pingInput, hq], by simp [hp], by simp [hq, takes]⟩

theorem nextNode_effect (hq : s.qPeer = []) (hn : ¬ (s.node.qSync = [] ∧ s.node.qInv = [] ∧ (s.qPing ≠ [] ∨ s.qAddr ≠ [])))
    (h : s.nextNode cfg e = .ok s') : Effect cfg e s .next s' := by
  have ht : nodeTurn s = nodeHead s.node := by simp only [nodeTurn, hq, if_neg hn]
  obtain ⟨s1, h1, h⟩ := bind_ok h
  obtain ⟨m, hm, rfl⟩ := callNode_ok h1
  cases hc : (nodeHead s.node).bind (complaint cfg) with
  | none =>
    simp only [hc, Res.ok.injEq] at h
    subst h
    refine ⟨?_, by simp [pingInput, hq], ?_, by simp [hq, takes]⟩
    · simp only [nodeInput, hq, if_neg hn]; exact hm
    · have : peerInput cfg e s .next = none := by
        simp only [peerInput, ht]
        cases ho : nodeHead s.node with
        | none => rfl
        | some o => rw [ho] at hc; simp only [Option.bind_some] at hc ⊢; rw [hc]; rfl
      rw [this]
  | some op =>
    simp only [hc] at h
    obtain ⟨mp, hmp, rfl⟩ := callPeer_ok h
    refine ⟨?_, by simp [pingInput, hq], ?_, by simp [hq, takes]⟩
    · simp only [nodeInput, hq, if_neg hn]; exact hm
    · have : peerInput cfg e s .next = some (fun _ => op) := by
        simp only [peerInput, ht]
        cases ho : nodeHead s.node with
        | none => rw [ho] at hc; simp at hc
        | some o => rw [ho] at hc; simp only [Option.bind_some] at hc ⊢; rw [hc]; rfl
      rw [this]
      exact ⟨[], hmp⟩

theorem next_effect (h : s.next cfg e = .ok s') : Effect cfg e s .next s' := by
  unfold State.next at h
  cases hq : s.qPeer with
  | cons o q => simp only [hq] at h; exact deliverPeer_effect hq h
  | nil =>
    simp only [hq] at h
    by_cases hn : s.node.qSync ≠ [] ∨ s.node.qInv ≠ []
    · rw [if_pos hn] at h
      exact nextNode_effect hq (fun c => by rcases hn with hn | hn; exact hn c.1; exact hn c.2.1) h
    · rw [if_neg hn] at h
      have hn1 : s.node.qSync = [] := by by_contra hc; exact hn (Or.inl hc)
      have hn2 : s.node.qInv = [] := by by_contra hc; exact hn (Or.inr hc)
      cases hp : s.qPing with
      | cons o q =>
        simp only [hp, Res.ok.injEq] at h
        subst h
        have ht : nodeTurn s = none := by simp [nodeTurn, hq, hn1, hn2, hp]
        exact ⟨by simp [nodeInput, hq, hn1, hn2, hp], by simp [pingInput, hq], by simp [peerInput, ht], by simp [hq, takes]⟩
      | nil =>
        simp only [hp] at h
        cases ha : s.qAddr with
        | cons o q =>
          simp only [ha, Res.ok.injEq] at h
          subst h
          have ht : nodeTurn s = none := by simp [nodeTurn, hq, hn1, hn2, ha]
          exact ⟨by simp [nodeInput, hq, hn1, hn2, ha], by simp [pingInput, hq], by simp [peerInput, ht], by simp [hq, takes]⟩
        | nil =>
          simp only [ha] at h
          exact nextNode_effect hq (fun c => by rcases c.2.2 with c | c; exact c hp; exact c ha) h

/-- What a step is for node, ping manager and peer manager. -/
theorem step_effect {i : Input} (h : s.step cfg e i = .ok s') : Effect cfg e s i s' := by
  cases i with
  | tick now => simp only [State.step] at h; obtain ⟨m, hm, rfl⟩ := callPeer_ok h; exact ⟨rfl, rfl, ⟨[], hm⟩, rfl⟩
  | attempted a => simp only [State.step] at h; obtain ⟨m, hm, rfl⟩ := callPeer_ok h; exact ⟨rfl, rfl, ⟨[], hm⟩, rfl⟩
  | connected a loc link => simp only [State.step] at h; obtain ⟨m, hm, rfl⟩ := callPeer_ok h; exact ⟨rfl, rfl, ⟨[], hm⟩, rfl⟩
  | disconnected a d => obtain ⟨src, m, p, hd, hp, rfl⟩ := callDraw_ok h; exact ⟨rfl, rfl, ⟨src, hp⟩, rfl⟩
  | message a ok msg => exact message_effect h
  | timer =>
    obtain ⟨s1, h1, h⟩ := bind_ok h
    obtain ⟨s2, h2, h⟩ := bind_ok h
    obtain ⟨n, hn, rfl⟩ := callNode_ok h1
    obtain ⟨c, ma, hma, rfl⟩ := callAddr_ok h2
    obtain ⟨src, m, p, hd, hp, rfl⟩ := callDraw_ok h
    exact ⟨hn, rfl, ⟨src, hp⟩, rfl⟩
  | connect a => simp only [State.step] at h; obtain ⟨m, hm, rfl⟩ := callPeer_ok h; exact ⟨rfl, rfl, ⟨[], hm⟩, rfl⟩
  | disconnect a => simp only [State.step] at h; obtain ⟨m, hm, rfl⟩ := callPeer_ok h; exact ⟨rfl, rfl, ⟨[], hm⟩, rfl⟩
  | importAddresses l => obtain ⟨c, m, hm, rfl⟩ := callAddr_ok h; exact ⟨rfl, rfl, rfl, rfl⟩
  | importHeaders hs => simp only [State.step] at h; obtain ⟨n, hn, rfl⟩ := callNode_ok h; exact ⟨hn, rfl, rfl, rfl⟩
  | requestFilters a b => simp only [State.step] at h; obtain ⟨n, hn, rfl⟩ := callNode_ok h; exact ⟨hn, rfl, rfl, rfl⟩
  | requestBlock k => simp only [State.step] at h; obtain ⟨n, hn, rfl⟩ := callNode_ok h; exact ⟨hn, rfl, rfl, rfl⟩
  | submit t => simp only [State.step] at h; obtain ⟨n, hn, rfl⟩ := callNode_ok h; exact ⟨hn, rfl, rfl, rfl⟩
  | rescan a b w => simp only [State.step] at h; obtain ⟨n, hn, rfl⟩ := callNode_ok h; exact ⟨hn, rfl, rfl, rfl⟩
  | watch w => simp only [State.step] at h; obtain ⟨n, hn, rfl⟩ := callNode_ok h; exact ⟨hn, rfl, rfl, rfl⟩
  | next => exact next_effect h

/-! ## The address manager -/

theorem addr_one {op : Addr.Op} {c : Option (NetAddr × Source)} {m : Addr.Mgr} (f : op.Fair) (h : s.addr.step cfg.addr op = .ok (c, m)) :
    ∃ l, Addr.Steps cfg.addr s.addr l m := ⟨_, .step .refl f h⟩

theorem message_addr {a : Sock} {ok : Bool} {msg : Msg} (f : e.addr.Fair) (h : s.message cfg e a ok msg = .ok s') :
    ∃ l, Addr.Steps cfg.addr s.addr l s'.addr := by
  cases ok with
  | false =>
    simp only [State.message, if_true] at h
    obtain ⟨m, hm, rfl⟩ := callPeer_ok h
    exact ⟨[], .refl⟩
  | true =>
    by_cases hc : s.peer.isConnected a = true
    · simp only [State.message, hc, Bool.true_eq_false, if_false] at h
      obtain ⟨s1, h1, h⟩ := bind_ok h
      obtain ⟨s2, h2, h⟩ := bind_ok h
      have e1 : s1.addr = s.addr := by
        cases hj : msg.node (cfg.id a) with
        | none => simp only [State.messageNode, hj, Res.ok.injEq] at h1; rw [← h1]
        | some j => simp only [State.messageNode, hj] at h1; obtain ⟨n, hn, rfl⟩ := callNode_ok h1; rfl
      have e2 : (s1.messagePing e (msg.pingOp (cfg.id a))).addr = s.addr := by
        rw [← e1]
        cases hp : msg.pingOp (cfg.id a) <;> rfl
      obtain ⟨c, ma, hma, rfl⟩ := callAddr_ok h2
      rw [e2] at hma
      have e3 : s'.addr = ma := by
        cases hm : msg.peer with
        | none => simp only [State.messagePeer, hm, Res.ok.injEq] at h; rw [← h]
        | some m => simp only [State.messagePeer, hm] at h; obtain ⟨mp, _, rfl⟩ := callPeer_ok h; rfl
      rw [e3]
      exact addr_one (show (Addr.Op.message e.addr _ a msg.addrMsg).Fair from f) hma
    · simp only [State.message, hc, Bool.true_eq_false, if_false, if_true, Res.ok.injEq] at h
      subst h
      exact ⟨[], .refl⟩

theorem nextNode_addr (h : s.nextNode cfg e = .ok s') : s'.addr = s.addr := by
  obtain ⟨s1, h1, h⟩ := bind_ok h
  obtain ⟨m, hm, rfl⟩ := callNode_ok h1
  cases hc : (nodeHead s.node).bind (complaint cfg) with
  | none => simp only [hc, Res.ok.injEq] at h; rw [← h]
  | some op => simp only [hc] at h; obtain ⟨mp, hmp, rfl⟩ := callPeer_ok h; rfl

theorem next_addr (h : s.next cfg e = .ok s') : ∃ l, Addr.Steps cfg.addr s.addr l s'.addr := by
  unfold State.next at h
  cases hq : s.qPeer with
  | cons o q =>
    simp only [hq] at h
    cases o with
    | evConnecting a c d =>
      simp only [State.deliverPeer] at h
      obtain ⟨c, ma, hma, rfl⟩ := callAddr_ok h
      exact ⟨_, .step .refl (by simp [Addr.Op.Fair]) hma⟩
    | evConnected a b l =>
      simp only [State.deliverPeer] at h
      obtain ⟨c, ma, hma, rfl⟩ := callAddr_ok h
      exact ⟨_, .step .refl (by simp [Addr.Op.Fair]) hma⟩
    | evNegotiated a n =>
      obtain ⟨s1, h1, h⟩ := bind_ok h
      obtain ⟨c, ma, hma, rfl⟩ := callAddr_ok h
      obtain ⟨m, hm, rfl⟩ := callNode_ok h1
      exact ⟨_, .step .refl (by simp [Addr.Op.Fair]) hma⟩
    | evDisconnected a d =>
      obtain ⟨s1, h1, h⟩ := bind_ok h
      obtain ⟨c, ma, hma, rfl⟩ := callAddr_ok h
      obtain ⟨m, hm, rfl⟩ := callNode_ok h1
      exact ⟨_, .step .refl (by simp [Addr.Op.Fair]) hma⟩
    | _ =>
      simp only [State.deliverPeer, Res.ok.injEq] at h
      subst h
      exact ⟨[], .refl⟩
  | nil =>
    simp only [hq] at h
    split at h
    · rw [nextNode_addr h]; exact ⟨[], .refl⟩
    · split at h
      · simp only [Res.ok.injEq] at h; subst h; exact ⟨[], .refl⟩
      · split at h
        · simp only [Res.ok.injEq] at h; subst h; exact ⟨[], .refl⟩
        · rw [nextNode_addr h]; exact ⟨[], .refl⟩

/-- What a step is for the address manager. -/
theorem step_addr {U : Chain.Header → Prop} {fail : Bool} {i : Input} (l : Legal U fail e i) (h : s.step cfg e i = .ok s') :
    ∃ l, Addr.Steps cfg.addr s.addr l s'.addr := by
  cases i with
  | tick now => simp only [State.step] at h; obtain ⟨m, hm, rfl⟩ := callPeer_ok h; exact ⟨[], .refl⟩
  | attempted a => simp only [State.step] at h; obtain ⟨m, hm, rfl⟩ := callPeer_ok h; exact ⟨[], .refl⟩
  | connected a loc link => simp only [State.step] at h; obtain ⟨m, hm, rfl⟩ := callPeer_ok h; exact ⟨[], .refl⟩
  | disconnected a d => obtain ⟨src, m, p, hd, hp, rfl⟩ := callDraw_ok h; exact draw_ok l.draws hd
  | message a ok msg => exact message_addr l.addr h
  | timer =>
    obtain ⟨s1, h1, h⟩ := bind_ok h
    obtain ⟨s2, h2, h⟩ := bind_ok h
    obtain ⟨n, hn, rfl⟩ := callNode_ok h1
    obtain ⟨c, ma, hma, rfl⟩ := callAddr_ok h2
    obtain ⟨src, m, p, hd, hp, rfl⟩ := callDraw_ok h
    obtain ⟨l2, hl2⟩ := draw_ok l.draws hd
    exact ⟨_, addr_steps_trans (.step .refl (by simp [Addr.Op.Fair]) hma) hl2⟩
  | connect a => simp only [State.step] at h; obtain ⟨m, hm, rfl⟩ := callPeer_ok h; exact ⟨[], .refl⟩
  | disconnect a => simp only [State.step] at h; obtain ⟨m, hm, rfl⟩ := callPeer_ok h; exact ⟨[], .refl⟩
  | importAddresses x =>
    obtain ⟨c, m, hm, rfl⟩ := callAddr_ok h
    exact addr_one (show (Addr.Op.importAddresses e.addr x).Fair from l.addr) hm
  | importHeaders hs => simp only [State.step] at h; obtain ⟨n, hn, rfl⟩ := callNode_ok h; exact ⟨[], .refl⟩
  | requestFilters a b => simp only [State.step] at h; obtain ⟨n, hn, rfl⟩ := callNode_ok h; exact ⟨[], .refl⟩
  | requestBlock k => simp only [State.step] at h; obtain ⟨n, hn, rfl⟩ := callNode_ok h; exact ⟨[], .refl⟩
  | submit t => simp only [State.step] at h; obtain ⟨n, hn, rfl⟩ := callNode_ok h; exact ⟨[], .refl⟩
  | rescan a b w => simp only [State.step] at h; obtain ⟨n, hn, rfl⟩ := callNode_ok h; exact ⟨[], .refl⟩
  | watch w => simp only [State.step] at h; obtain ⟨n, hn, rfl⟩ := callNode_ok h; exact ⟨[], .refl⟩
  | next => exact next_addr h

/-! ## The start -/

/-- What the start is for each manager. -/
theorem init_parts {U : Chain.Header → Prop} {fail : Bool} {now : Nat} (l : Legal U fail e .timer) (h : s.init cfg e now = .ok s') :
    s.node.step cfg.node (e.at now) .init = .ok s'.node ∧ s'.ping = s.ping ∧
    (∃ src m, s.peer.step cfg.peer (.tick now) = .ok m ∧ m.step cfg.peer (.init src) = .ok s'.peer) ∧
    (∃ x, Addr.Steps cfg.addr (s.addr.idle now e.saved) x s'.addr) ∧ s'.takenPeer = s.takenPeer := by
  obtain ⟨s1, h1, h⟩ := bind_ok h
  obtain ⟨s2, h2, h⟩ := bind_ok h
  obtain ⟨m, hm, rfl⟩ := callPeer_ok h1
  obtain ⟨n, hn, rfl⟩ := callNode_ok h2
  obtain ⟨src, ma, p, hd, hp, rfl⟩ := callDraw_ok h
  have hnow : m.now = now := by
    simp only [Peer.Mgr.step, Res.ok.injEq] at hm
    rw [← hm]
  refine ⟨?_, rfl, ⟨src, m, hm, hp⟩, draw_ok l.draws hd, rfl⟩
  have : ({ s with peer := m, addr := s.addr.idle now e.saved } : State).now = now := hnow
  rw [this] at hn
  exact hn

end Verif.Machine
