import Verif.Machine.Runs
import Verif.Node.Roster
import Verif.Peer.PropsNet

/-!
# The whole state machine: the managers agree about the peers
-/

set_option autoImplicit false

namespace Verif.Machine
open Verif.Addr (Sock Ip NetAddr Known Source has)
open Verif.Chain (Header)
open Verif.Peer (Cand Link)

variable {cfg : Cfg} {U : Header → Prop} {fail : Bool} {P : Node.Hist → Node.Fsm → Node.Input → Node.Fsm → List Node.Out → Prop}
variable {z : Setup} {is : List Input} {h : Node.Hist} {e : Env} {s s' : State}

/-- The outputs of the peer manager are a log. -/
theorem peer_grows {c : Peer.Config} {tr : List Ip} {hp : List Peer.Op} {m m' : Peer.Mgr} {op : Peer.Op} (r : Peer.Run c tr hp m) (l : op.Legal)
    (e : m.step c op = .ok m') : ∃ o, m'.out = m.out ++ o := by
  have inp : op.isInput = true → op.isTimer = false → ∃ o, m'.out = m.out ++ o := by
    intro h1 h2
    rcases Peer.input_tr (Peer.run_inv r) h1 h2 e with ⟨l, el, _⟩ | ⟨l, el, _⟩ <;> exact ⟨l, el⟩
  cases op with
  | timer ord src =>
    obtain ⟨m1, ⟨l1, el1, _⟩, ⟨l2, el2, _⟩⟩ := Peer.timer_tr l e
    exact ⟨l1 ++ l2, by rw [el2, el1, List.append_assoc]⟩
  | connected a loc link x y => obtain ⟨l, el, _⟩ := Peer.connected_trace e; exact ⟨l, el⟩
  | disconnected a d src => obtain ⟨l, el, _⟩ := Peer.lost_trace e; exact ⟨l, el⟩
  | attempted a =>
    simp only [Peer.Mgr.step, Peer.Mgr.peerAttempted] at e
    split at e
    · cases e
    · simp only [Res.ok.injEq] at e
      exact ⟨[], by simp [← e]⟩
  | _ => exact inp rfl rfl

theorem step_grows {i : Input} {hp : List Peer.Op} (r : Peer.Run cfg.peer z.trusted hp s.peer) (l : Legal U fail e i) (hs : s.step cfg e i = .ok s') :
    ∃ o, s'.peer.out = s.peer.out ++ o := by
  have := (step_effect hs).peer
  cases ho : peerInput cfg e s i with
  | none => simp only [ho] at this; exact ⟨[], by rw [this]; simp⟩
  | some op =>
    simp only [ho] at this
    obtain ⟨src, hx⟩ := this
    exact peer_grows r (peer_legal l ho src) hx

/-- The filter manager's choices are the environment's, whatever the clock. -/
theorem cbf_fair {i : Input} (l : Legal U fail e i) (t : Nat) : (e.at t).cbf.Fair := ⟨l.cbf.1, l.cbf.2, l.cbf.3, l.cbf.4⟩

/-! ## What the events say -/

theorem met_nil (a : Sock) (Q : Peer.Negotiated → Prop) : ¬ Met a Q [] := by
  rintro ⟨l1, n, l2, h, -⟩
  simp at h

theorem met_snoc (a : Sock) (Q : Peer.Negotiated → Prop) (l : List Peer.Out) (o : Peer.Out) :
    Met a Q (l ++ [o]) ↔ (∃ n, o = .evNegotiated a n ∧ Q n) ∨ (Met a Q l ∧ ∀ d, o ≠ .evDisconnected a d) := by
  constructor
  · rintro ⟨l1, n, l2, h, hq, hd⟩
    rcases List.eq_nil_or_concat l2 with rfl | ⟨l3, x, rfl⟩
    · left
      have : l ++ [o] = l1 ++ [.evNegotiated a n] := h
      have := (List.append_inj' this rfl).2
      simp only [List.cons.injEq, and_true] at this
      exact ⟨n, this, hq⟩
    · right
      have h' : l ++ [o] = (l1 ++ .evNegotiated a n :: l3) ++ [x] := by rw [h]; simp
      obtain ⟨h1, h2⟩ := List.append_inj' h' rfl
      simp only [List.cons.injEq, and_true] at h2
      subst h2
      exact ⟨⟨l1, n, l3, h1, hq, fun d hc => hd d (by simp [hc])⟩, fun d hc => hd d (by simp [hc])⟩
  · rintro (⟨n, rfl, hq⟩ | ⟨⟨l1, n, l2, rfl, hq, hd⟩, ho⟩)
    · exact ⟨l, n, [], rfl, hq, by simp⟩
    · refine ⟨l1, n, l2 ++ [o], by simp, hq, fun d hc => ?_⟩
      rcases List.mem_append.1 hc with h | h
      · exact hd d h
      · simp only [List.mem_singleton] at h; exact ho d h.symm

theorem nums_nil (Q : Peer.Negotiated → Prop) (b : Nat) : ¬ Nums cfg Q [] b := fun ⟨_, _, h⟩ => met_nil _ _ h

theorem nums_negotiated (Q : Peer.Negotiated → Prop) (l : List Peer.Out) (a : Sock) (n : Peer.Negotiated) (b : Nat) :
    Nums cfg Q (l ++ [.evNegotiated a n]) b ↔ (cfg.id a = b ∧ Q n) ∨ Nums cfg Q l b := by
  simp only [Nums, met_snoc]
  constructor
  · rintro ⟨c, hc, ⟨n', h1, h2⟩ | ⟨h1, -⟩⟩
    · simp only [Peer.Out.evNegotiated.injEq] at h1
      obtain ⟨rfl, rfl⟩ := h1
      exact .inl ⟨hc, h2⟩
    · exact .inr ⟨c, hc, h1⟩
  · rintro (⟨h1, h2⟩ | ⟨c, h1, h2⟩)
    · exact ⟨a, h1, .inl ⟨n, rfl, h2⟩⟩
    · exact ⟨c, h1, .inr ⟨h2, by simp⟩⟩

theorem nums_disconnected (inj : Function.Injective cfg.id) (Q : Peer.Negotiated → Prop) (l : List Peer.Out) (a : Sock) (d : Peer.Disc) (b : Nat) :
    Nums cfg Q (l ++ [.evDisconnected a d]) b ↔ cfg.id a ≠ b ∧ Nums cfg Q l b := by
  simp only [Nums, met_snoc]
  constructor
  · rintro ⟨c, hc, ⟨n', h1, h2⟩ | ⟨h1, h2⟩⟩
    · cases h1
    · refine ⟨fun h => ?_, c, hc, h1⟩
      have : a = c := inj (h.trans hc.symm)
      subst this
      exact h2 d rfl
  · rintro ⟨h1, c, h2, h3⟩
    refine ⟨c, h2, .inr ⟨h3, fun d' h => ?_⟩⟩
    simp only [Peer.Out.evDisconnected.injEq] at h
    exact h1 (by rw [h.1]; exact h2)

theorem nums_other (Q : Peer.Negotiated → Prop) (l : List Peer.Out) (o : Peer.Out) (h1 : ∀ a n, o ≠ .evNegotiated a n) (h2 : ∀ a d, o ≠ .evDisconnected a d)
    (b : Nat) : Nums cfg Q (l ++ [o]) b ↔ Nums cfg Q l b := by
  simp only [Nums, met_snoc]
  constructor
  · rintro ⟨c, hc, ⟨n', h, _⟩ | ⟨h, _⟩⟩
    · exact absurd h (h1 _ _)
    · exact ⟨c, hc, h⟩
  · rintro ⟨c, hc, h⟩
    exact ⟨c, hc, .inr ⟨h, h2 c⟩⟩

/-! ## The invariant -/

/-- The managers know the peers the events they got told them about. -/
structure Agrees (cfg : Cfg) (U : Header → Prop) (fail : Bool) (z : Setup) (s : State) : Prop where
  roster : Node.Roster cfg.node U fail z.tree (Nums cfg SyncPeer s.taken) (Nums cfg AnyPeer s.taken) (Nums cfg FilterPeer s.taken) s.node
  ping : ∀ b, s.ping.peers.get b ≠ none ↔ Nums cfg AnyPeer s.taken b
  pos : s.takenPeer ≤ s.peer.out.length

/-- What the node put out since goes to peers it is to know. -/
def Sends (cfg : Cfg) (s s' : State) : Prop :=
  Node.PutOut (Nums cfg SyncPeer s'.taken) (Nums cfg AnyPeer s'.taken) (Nums cfg FilterPeer s'.taken) s.node s'.node

/-- Which peers the ping manager knows after a call. -/
def pingAfter (K : Nat → Prop) (b : Nat) : Ping.Op → Prop
  | .negotiated a => a = b ∨ K b
  | .disconnected a => a ≠ b ∧ K b
  | _ => K b

theorem ping_known {timeout : Nat} {lp : List Ping.Obs} {m : Ping.Mgr} (r : Ping.Run timeout lp m) (pe : Ping.Env) (hp : ∀ ks, (pe.order ks).Perm ks)
    (op : Ping.Op) (K : Nat → Prop) (hk : ∀ b, m.peers.get b ≠ none ↔ K b) (b : Nat) : (m.step pe op).peers.get b ≠ none ↔ pingAfter K b op := by
  rw [← show pingAfter (fun b => m.peers.get b ≠ none) b op ↔ pingAfter K b op by
    cases op <;> simp only [pingAfter, hk]]
  cases op with
  | negotiated a =>
    simp only [Ping.Mgr.step, Ping.Mgr.negotiated, pingAfter]
    by_cases hc : a = b
    · subst hc; simp [AMap.get_insert_self]
    · simp [AMap.get_insert_ne _ _ hc, hc]
  | disconnected a =>
    simp only [Ping.Mgr.step, pingAfter]
    by_cases hc : a = b
    · subst hc; simp [AMap.get_erase_self]
    · simp [AMap.get_erase_ne _ hc, hc]
  | ping a n =>
    simp only [Ping.Mgr.step, Ping.Mgr.ping, pingAfter]
    split <;> exact Iff.rfl
  | pong a n =>
    simp only [Ping.Mgr.step, Ping.Mgr.pong, pingAfter]
    split
    · exact Iff.rfl
    · rename_i p hg
      split
      · split
        · by_cases hc : a = b
          · subst hc; simp [AMap.get_insert_self, hg]
          · simp [AMap.get_insert_ne _ _ hc]
        · exact Iff.rfl
      · exact Iff.rfl
  | timer =>
    have hn : (pe.order m.peers.keys).Nodup := (hp _).nodup_iff.2 (Ping.Run.inv r).nodup
    obtain ⟨-, -, -, h4⟩ := Ping.timer_fold pe (pe.order m.peers.keys) m hn
    simp only [Ping.Mgr.step, Ping.Mgr.timer, pingAfter, h4]
    split
    · cases m.peers.get b <;> simp
    · exact Iff.rfl

theorem taken_same (hpos : s.takenPeer ≤ s.peer.out.length) (ho : ∃ o, s'.peer.out = s.peer.out ++ o) (ht : s'.takenPeer = s.takenPeer) :
    s'.taken = s.taken ∧ s'.takenPeer ≤ s'.peer.out.length := by
  obtain ⟨o, ho⟩ := ho
  constructor
  · unfold State.taken
    rw [ht, ho, List.take_append_of_le_length hpos]
  · rw [ht, ho, List.length_append]; omega

theorem taken_next {o : Peer.Out} {q : List Peer.Out} (hq : s.qPeer = o :: q) (hp : s'.peer = s.peer) (ht : s'.takenPeer = s.takenPeer + 1) :
    s'.taken = s.taken ++ [o] ∧ s'.takenPeer ≤ s'.peer.out.length := by
  have hl : s.takenPeer < s.peer.out.length := by
    by_contra hc
    have : s.qPeer = [] := List.drop_eq_nil_of_le (by omega)
    rw [this] at hq
    cases hq
  have ho : s.peer.out[s.takenPeer]? = some o := by
    have := congrArg List.head? hq
    simp only [State.qPeer, List.head?_drop, List.head?_cons] at this
    exact this
  constructor
  · unfold State.taken
    rw [ht, hp, List.take_add_one, ho]
    rfl
  · rw [ht, hp]; omega

theorem has_negotiated (a : Sock) (n : Peer.Negotiated) (K : Nat → Prop) (Q : Bool → Bool → Bool → Prop) (Q' : Peer.Negotiated → Prop)
    (hQ : Q' n ↔ Q (n.link == .outbound) (has n.services svcNetwork) (has n.services svcFilters)) (b : Nat) :
    Node.Known.after Q K b (negotiatedInput cfg a n) ↔ (cfg.id a = b ∧ Q' n) ∨ K b := by
  simp only [Node.Known.after, negotiatedInput, hQ]

theorem agrees_step {i : Input} {hp : List Peer.Op} {lp : List Ping.Obs} (inj : Function.Injective cfg.id) (g : Agrees cfg U fail z s)
    (rp : Peer.Run cfg.peer z.trusted hp s.peer) (rg : Ping.Run z.pingTimeout lp s.ping) (l : Legal U fail e i)
    (hs : s.step cfg e i = .ok s') : Agrees cfg U fail z s' ∧ Sends cfg s s' := by
  have ef := step_effect hs
  -- the inputs that are not about connections
  have plain : (∀ j, nodeInput cfg s i = some j → ∀ Q K b, Node.Known.after Q K b j ↔ K b) → (∀ op, pingInput cfg s i = some op → ∀ K b, pingAfter K b op ↔ K b) →
      (∀ Q b, Nums cfg Q s'.taken b ↔ Nums cfg Q s.taken b) → s'.takenPeer ≤ s'.peer.out.length → Agrees cfg U fail z s' ∧ Sends cfg s s' := by
    intro h1 h2 h3 h4
    have hnode : Node.Roster cfg.node U fail z.tree (Nums cfg SyncPeer s.taken) (Nums cfg AnyPeer s.taken) (Nums cfg FilterPeer s.taken) s'.node ∧
        Node.PutOut (Nums cfg SyncPeer s.taken) (Nums cfg AnyPeer s.taken) (Nums cfg FilterPeer s.taken) s.node s'.node := by
      have := ef.node
      cases hj : nodeInput cfg s i with
      | none => simp only [hj] at this; rw [this]; exact ⟨g.roster, Node.Known.PutOut.refl rfl⟩
      | some j =>
        simp only [hj] at this
        obtain ⟨a, b⟩ := Node.Known.step g.roster (node_legal l (nodeInput_batch l hj)) (cbf_fair l _) this
        simp only [h1 j hj] at a b
        exact ⟨a, b⟩
    refine ⟨⟨Node.Known.roster_congr hnode.1 (fun b => (h3 _ b).symm) (fun b => (h3 _ b).2) (fun b => (h3 _ b).2), fun b => ?_, h4⟩,
      Node.Known.PutOut.mono hnode.2 (fun b => (h3 _ b).2) (fun b => (h3 _ b).2) (fun b => (h3 _ b).2)⟩
    rw [h3, ← g.ping b, ef.ping]
    cases hq : pingInput cfg s i with
    | none => exact Iff.rfl
    | some op =>
      rw [ping_known rg ⟨s.now, e.pingNonce, e.pingOrder⟩ l.ping op _ (fun _ => Iff.rfl) b]
      exact h2 op hq _ b
  have msgs : ∀ (m : Msg) (a : Nat) (j : Node.Input), m.node a = some j → ∀ Q K b, Node.Known.after Q K b j ↔ K b := by
    intro m a j hj Q K b
    cases m <;> simp only [Msg.node, Option.some.injEq, reduceCtorEq] at hj <;> subst hj <;> exact Iff.rfl
  have msgs' : ∀ (m : Msg) (a : Nat) (op : Ping.Op), m.pingOp a = some op → ∀ K b, pingAfter K b op ↔ K b := by
    intro m a j hj K b
    cases m <;> simp only [Msg.pingOp, Option.some.injEq, reduceCtorEq] at hj <;> subst hj <;> exact Iff.rfl
  by_cases hn : ∃ o q, i = .next ∧ s.qPeer = o :: q
  · obtain ⟨o, q, rfl, hq⟩ := hn
    have hpi : peerInput cfg e s .next = none := by simp [peerInput, nodeTurn, hq]
    have hpeer : s'.peer = s.peer := by have := ef.peer; simp only [hpi] at this; exact this
    have htk : s'.takenPeer = s.takenPeer + 1 := by rw [ef.taken]; simp [takes, hq]
    obtain ⟨t1, t2⟩ := taken_next hq hpeer htk
    by_cases ho : (∃ a n, o = .evNegotiated a n) ∨ ∃ a d, o = .evDisconnected a d
    · have key : ∀ j op, nodeInput cfg s .next = some j → pingInput cfg s .next = some op →
          (∀ b, Nums cfg SyncPeer s'.taken b ↔ Node.Known.after Node.Known.syncTakes (Nums cfg SyncPeer s.taken) b j) →
          (∀ b, Nums cfg AnyPeer s'.taken b ↔ Node.Known.after Node.Known.invTakes (Nums cfg AnyPeer s.taken) b j) →
          (∀ b, Nums cfg FilterPeer s'.taken b ↔ Node.Known.after Node.Known.cbfTakes (Nums cfg FilterPeer s.taken) b j) →
          (∀ b, Nums cfg AnyPeer s'.taken b ↔ pingAfter (Nums cfg AnyPeer s.taken) b op) → Agrees cfg U fail z s' ∧ Sends cfg s s' := by
        intro j op hj hop h1 h2 h3 h4
        have hnd := ef.node
        simp only [hj] at hnd
        obtain ⟨a, b⟩ := Node.Known.step g.roster (node_legal l (nodeInput_batch l hj)) (cbf_fair l _) hnd
        refine ⟨⟨Node.Known.roster_congr a (fun b => (h1 b).symm) (fun b => (h2 b).2) (fun b => (h3 b).2), fun b => ?_, t2⟩,
          Node.Known.PutOut.mono b (fun b => (h1 b).2) (fun b => (h2 b).2) (fun b => (h3 b).2)⟩
        rw [h4 b, ef.ping]
        simp only [hop]
        exact ping_known rg ⟨s.now, e.pingNonce, e.pingOrder⟩ l.ping op _ g.ping b
      rcases ho with ⟨a, n, rfl⟩ | ⟨a, d, rfl⟩
      · refine key (negotiatedInput cfg a n) (.negotiated (cfg.id a)) (by simp [nodeInput, hq]) (by simp [pingInput, hq]) ?_ ?_ ?_ ?_ <;> intro b <;>
          rw [t1, nums_negotiated]
        · rw [has_negotiated a n _ _ SyncPeer (by simp [SyncPeer, Node.Known.syncTakes])]
        · rw [has_negotiated a n _ _ AnyPeer (by simp [AnyPeer, Node.Known.invTakes])]
        · rw [has_negotiated a n _ _ FilterPeer (by simp [FilterPeer, Node.Known.cbfTakes])]
        · simp [pingAfter, AnyPeer]
      · refine key (.disconnected (cfg.id a)) (.disconnected (cfg.id a)) (by simp [nodeInput, hq]) (by simp [pingInput, hq]) ?_ ?_ ?_ ?_ <;> intro b <;>
          rw [t1, nums_disconnected inj] <;> exact Iff.rfl
    · have ho1 : ∀ a n, o ≠ .evNegotiated a n := fun a n hc => ho (.inl ⟨a, n, hc⟩)
      have ho2 : ∀ a d, o ≠ .evDisconnected a d := fun a d hc => ho (.inr ⟨a, d, hc⟩)
      refine plain ?_ ?_ (fun Q b => by rw [t1]; exact nums_other Q _ o ho1 ho2 b) t2
      · intro j hj
        simp only [nodeInput, hq] at hj
        cases o <;> simp_all
      · intro op hj
        simp only [pingInput, hq] at hj
        cases o <;> simp_all
  · have htk : s'.takenPeer = s.takenPeer := by
      rw [ef.taken]
      cases i with
      | next =>
        cases hq : s.qPeer with
        | nil => rfl
        | cons o q => exact absurd ⟨o, q, rfl, hq⟩ hn
      | _ => rfl
    obtain ⟨t1, t2⟩ := taken_same g.pos (step_grows rp l hs) htk
    refine plain ?_ ?_ (fun Q b => by rw [t1]) t2
    · intro j hj
      cases i with
      | message a ok m =>
        simp only [nodeInput] at hj
        split at hj
        · exact msgs m _ j hj
        · cases hj
      | next =>
        simp only [nodeInput] at hj
        cases hq : s.qPeer with
        | cons o q => exact absurd ⟨o, q, rfl, hq⟩ hn
        | nil =>
          simp only [hq] at hj
          split at hj
          · cases hj
          · simp only [Option.some.injEq] at hj; subst hj; exact fun Q K b => Iff.rfl
      | _ =>
        simp only [nodeInput, Option.some.injEq, reduceCtorEq] at hj
        try (subst hj; exact fun Q K b => Iff.rfl)
    · intro op hj
      cases i with
      | message a ok m =>
        simp only [pingInput] at hj
        split at hj
        · exact msgs' m _ op hj
        · cases hj
      | next =>
        simp only [pingInput] at hj
        cases hq : s.qPeer with
        | cons o q => exact absurd ⟨o, q, rfl, hq⟩ hn
        | nil => simp [hq] at hj
      | _ =>
        simp only [pingInput, Option.some.injEq, reduceCtorEq] at hj
        try (subst hj; exact fun K b => Iff.rfl)

theorem agrees_init {f : Cbf.FilterHeaders} {c now : Nat} {m : Addr.Mgr} (l : Legal U fail e .timer)
    (hs : (State.new (Node.Fsm.new z.tree f c) m z.trusted z.pingTimeout).init cfg e now = .ok s') :
    Agrees cfg U fail z s' ∧ s'.taken = [] ∧ Node.PutOut (fun _ => False) (fun _ => False) (fun _ => False) (Node.Fsm.new z.tree f c) s'.node := by
  obtain ⟨h1, h2, -, -, h3⟩ := init_parts l hs
  have ht : s'.taken = [] := by
    unfold State.taken
    rw [h3]
    rfl
  obtain ⟨a, b⟩ := Node.Known.step (Node.Known.new f c) (node_legal l (j := .init) (by intro p hp; simp [Node.Input.batch] at hp))
    (cbf_fair l _) h1
  refine ⟨⟨?_, ?_, ?_⟩, ht, b⟩
  · rw [ht]
    exact Node.Known.roster_congr a (fun b => ⟨False.elim, fun h => nums_nil _ _ h⟩) (fun b => False.elim) (fun b => False.elim)
  · intro b
    rw [ht, h2]
    simp [State.new, Ping.Mgr.new, nums_nil]
  · rw [h3]; simp [State.new]

theorem run_agrees (inj : Function.Injective cfg.id) (r : Run cfg U fail P z is h s) : Agrees cfg U fail z s := by
  induction r with
  | start f c now e ea fa nd hm l hs ho p => exact (agrees_init l hs).1
  | silent e r l hs hj ih =>
    obtain ⟨hp, rp⟩ := run_peer r
    obtain ⟨lp, rg⟩ := run_ping r
    exact (agrees_step inj ih rp rg l hs).1
  | step e r l hs hj ho p ih =>
    obtain ⟨hp, rp⟩ := run_peer r
    obtain ⟨lp, rg⟩ := run_ping r
    exact (agrees_step inj ih rp rg l hs).1

end Verif.Machine
