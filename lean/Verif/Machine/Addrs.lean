import Verif.Machine.Known
import Verif.Peer.Opens
import Verif.Addr.Props
import Verif.Addr.Tried
import Verif.Peer.PropsDial

/-!
# What the address manager is told, and what it is asked for
-/

set_option autoImplicit false

namespace Verif.Machine
open Verif.Addr (Sock Ip NetAddr Known Source has)
open Verif.Chain (Header)
open Verif.Peer (Cand)

variable {cfg : Cfg} {U : Header → Prop} {fail : Bool} {P : Node.Hist → Node.Fsm → Node.Input → Node.Fsm → List Node.Out → Prop}
variable {z : Setup} {is : List Input} {h : Node.Hist} {e : Env} {s s' : State}

theorem message_addrEffect {a : Sock} {ok : Bool} {msg : Msg} (h : s.message cfg e a ok msg = .ok s') : AddrEffect cfg e s (.message a ok msg) s' := by
  have ef := message_effect h
  cases ok with
  | false =>
    simp only [State.message, if_true] at h
    obtain ⟨m, hm, rfl⟩ := callPeer_ok h
    exact ⟨s.addr, [], by simp [addrInput], by simp [drawsFor], hm⟩
  | true =>
    by_cases hc : s.peer.isConnected a = true
    · simp only [State.message, hc, Bool.true_eq_false, if_false] at h
      obtain ⟨s1, h1, h⟩ := bind_ok h
      obtain ⟨s2, h2, h⟩ := bind_ok h
      have e1 : s1.addr = s.addr ∧ s1.peer = s.peer := by
        cases hj : msg.node (cfg.id a) with
        | none => simp only [State.messageNode, hj, Res.ok.injEq] at h1; rw [← h1]; exact ⟨rfl, rfl⟩
        | some j => simp only [State.messageNode, hj] at h1; obtain ⟨n, hn, rfl⟩ := callNode_ok h1; exact ⟨rfl, rfl⟩
      have e2 : (s1.messagePing e (msg.pingOp (cfg.id a))).addr = s.addr ∧ (s1.messagePing e (msg.pingOp (cfg.id a))).peer = s.peer := by
        rw [← e1.1, ← e1.2]
        cases hp : msg.pingOp (cfg.id a) <;> exact ⟨rfl, rfl⟩
      obtain ⟨c, ma, hma, rfl⟩ := callAddr_ok h2
      have hnow : (s1.messagePing e (msg.pingOp (cfg.id a))).now = s.now := by simp only [State.now, e2.2]
      rw [e2.1, hnow] at hma
      have e3 : s'.addr = ma := by
        cases hm : msg.peer with
        | none => simp only [State.messagePeer, hm, Res.ok.injEq] at h; rw [← h]
        | some m => simp only [State.messagePeer, hm] at h; obtain ⟨mp, _, rfl⟩ := callPeer_ok h; rfl
      refine ⟨ma, [], ?_, ?_, ?_⟩
      · simp only [addrInput, hc, Bool.and_self, if_true]; exact ⟨c, hma⟩
      · simp [drawsFor, e3]
      · have hp := ef.peer
        simp only [peerInput, hc, if_true] at hp ⊢
        cases hm : msg.peer with
        | none => simp only [hm, Option.map_none] at hp ⊢; exact hp
        | some m => simp only [hm, Option.map_some] at hp ⊢; obtain ⟨_, hp⟩ := hp; exact hp
    · simp only [State.message, hc, Bool.true_eq_false, if_false, if_true, Res.ok.injEq] at h
      subst h
      simp only [Bool.not_eq_true] at hc
      exact ⟨s.addr, [], by simp [addrInput, hc], by simp [drawsFor], by simp [peerInput, hc]⟩

theorem next_addrEffect (h : s.next cfg e = .ok s') : AddrEffect cfg e s .next s' := by
  have ef := next_effect h
  have hp : match peerInput cfg e s .next with | none => s'.peer = s.peer | some op => s.peer.step cfg.peer (op []) = .ok s'.peer := by
    have hp := ef.peer
    cases ho : peerInput cfg e s .next with
    | none => simp only [ho] at hp ⊢; exact hp
    | some op =>
      simp only [ho] at hp ⊢
      simp only [peerInput, Option.bind_eq_some_iff, Option.map_eq_some_iff] at ho
      obtain ⟨o, -, x, -, rfl⟩ := ho
      obtain ⟨_, hp⟩ := hp
      exact hp
  suffices hs : match addrInput e s .next with | none => s'.addr = s.addr | some op => ∃ c, s.addr.step cfg.addr op = .ok (c, s'.addr) from
    ⟨s'.addr, [], hs, by simp [drawsFor], hp⟩
  unfold State.next at h
  cases hq : s.qPeer with
  | cons o q =>
    simp only [hq] at h
    cases o with
    | evConnecting a c d =>
      simp only [State.deliverPeer] at h
      obtain ⟨c, ma, hma, rfl⟩ := callAddr_ok h
      simp only [addrInput, hq]
      exact ⟨c, hma⟩
    | evConnected a b l =>
      simp only [State.deliverPeer] at h
      obtain ⟨c, ma, hma, rfl⟩ := callAddr_ok h
      simp only [addrInput, hq]
      exact ⟨c, hma⟩
    | evNegotiated a n =>
      obtain ⟨s1, h1, h⟩ := bind_ok h
      obtain ⟨c, ma, hma, rfl⟩ := callAddr_ok h
      obtain ⟨m, hm, rfl⟩ := callNode_ok h1
      simp only [addrInput, hq]
      exact ⟨c, hma⟩
    | evDisconnected a d =>
      obtain ⟨s1, h1, h⟩ := bind_ok h
      obtain ⟨c, ma, hma, rfl⟩ := callAddr_ok h
      obtain ⟨m, hm, rfl⟩ := callNode_ok h1
      simp only [addrInput, hq]
      exact ⟨c, hma⟩
    | _ =>
      simp only [State.deliverPeer, Res.ok.injEq] at h
      subst h
      simp [addrInput, hq]
  | nil =>
    simp only [hq] at h
    simp only [addrInput, hq]
    split at h
    · exact nextNode_addr h
    · split at h
      · simp only [Res.ok.injEq] at h; subst h; rfl
      · split at h
        · simp only [Res.ok.injEq] at h; subst h; rfl
        · exact nextNode_addr h

theorem step_addrEffect {i : Input} (h : s.step cfg e i = .ok s') : AddrEffect cfg e s i s' := by
  cases i with
  | tick now => simp only [State.step] at h; obtain ⟨m, hm, rfl⟩ := callPeer_ok h; exact ⟨_, [], rfl, ⟨rfl, rfl⟩, hm⟩
  | attempted a => simp only [State.step] at h; obtain ⟨m, hm, rfl⟩ := callPeer_ok h; exact ⟨_, [], rfl, ⟨rfl, rfl⟩, hm⟩
  | connected a loc link => simp only [State.step] at h; obtain ⟨m, hm, rfl⟩ := callPeer_ok h; exact ⟨_, [], rfl, ⟨rfl, rfl⟩, hm⟩
  | disconnected a d => obtain ⟨src, m, p, hd, hp, rfl⟩ := callDraw_ok h; exact ⟨_, src, rfl, hd, hp⟩
  | message a ok msg => exact message_addrEffect h
  | timer =>
    obtain ⟨s1, h1, h⟩ := bind_ok h
    obtain ⟨s2, h2, h⟩ := bind_ok h
    obtain ⟨n, hn, rfl⟩ := callNode_ok h1
    obtain ⟨c, ma, hma, rfl⟩ := callAddr_ok h2
    obtain ⟨src, m, p, hd, hp, rfl⟩ := callDraw_ok h
    exact ⟨ma, src, ⟨c, hma⟩, hd, hp⟩
  | connect a => simp only [State.step] at h; obtain ⟨m, hm, rfl⟩ := callPeer_ok h; exact ⟨_, [], rfl, ⟨rfl, rfl⟩, hm⟩
  | disconnect a => simp only [State.step] at h; obtain ⟨m, hm, rfl⟩ := callPeer_ok h; exact ⟨_, [], rfl, ⟨rfl, rfl⟩, hm⟩
  | importAddresses l => obtain ⟨c, m, hm, rfl⟩ := callAddr_ok h; exact ⟨m, [], ⟨c, hm⟩, ⟨rfl, rfl⟩, rfl⟩
  | importHeaders hs => simp only [State.step] at h; obtain ⟨n, hn, rfl⟩ := callNode_ok h; exact ⟨_, [], rfl, ⟨rfl, rfl⟩, rfl⟩
  | requestFilters a b => simp only [State.step] at h; obtain ⟨n, hn, rfl⟩ := callNode_ok h; exact ⟨_, [], rfl, ⟨rfl, rfl⟩, rfl⟩
  | requestBlock k => simp only [State.step] at h; obtain ⟨n, hn, rfl⟩ := callNode_ok h; exact ⟨_, [], rfl, ⟨rfl, rfl⟩, rfl⟩
  | submit t => simp only [State.step] at h; obtain ⟨n, hn, rfl⟩ := callNode_ok h; exact ⟨_, [], rfl, ⟨rfl, rfl⟩, rfl⟩
  | rescan a b w => simp only [State.step] at h; obtain ⟨n, hn, rfl⟩ := callNode_ok h; exact ⟨_, [], rfl, ⟨rfl, rfl⟩, rfl⟩
  | watch w => simp only [State.step] at h; obtain ⟨n, hn, rfl⟩ := callNode_ok h; exact ⟨_, [], rfl, ⟨rfl, rfl⟩, rfl⟩
  | next => exact next_addrEffect h

/-! ## The history of the address manager -/

/-- What the address manager hears about connections. -/
inductive Heard where
  | connected (a : Sock)
  | negotiated (a : Sock)
  | disconnected (a : Sock) (r : Addr.Reason)

/-- … according to its history. -/
def heardOp : Addr.Entry → Option Heard
  | (.connected a, _) => some (.connected a)
  | (.negotiated _ a _ _ _, _) => some (.negotiated a)
  | (.disconnected a r, _) => some (.disconnected a r)
  | _ => none

/-- … according to the outputs of the peer manager. -/
def heardOut : Peer.Out → Option Heard
  | .evConnected a _ _ => some (.connected a)
  | .evNegotiated a _ => some (.negotiated a)
  | .evDisconnected a d => some (.disconnected a (reasonOf d))
  | _ => none

/-- Nothing is heard about connections, and no address is announced. -/
def Calm (x : List Addr.Entry) : Prop := x.filterMap heardOp = [] ∧ ∀ en ∈ x, ∀ ip, ¬ Addr.Announces ip en.1

theorem Calm.append {x y : List Addr.Entry} (hx : Calm x) (hy : Calm y) : Calm (x ++ y) :=
  ⟨by rw [List.filterMap_append, hx.1, hy.1]; rfl, fun en h => (List.mem_append.1 h).elim (hx.2 en) (hy.2 en)⟩

theorem calm_nil : Calm [] := ⟨rfl, fun _ h => by cases h⟩

theorem calm_sample {ea : Addr.Env} {pred : Known → Bool} {c : Option Cand} : Calm [(.sample ea pred, c)] :=
  ⟨rfl, fun en h ip => by rw [List.mem_singleton.1 h]; exact id⟩

theorem draw_heard : ∀ {l : List (Addr.Env × (Known → Bool))} {m m' : Addr.Mgr} {src : List Cand}, (∀ p ∈ l, p.1.Fair) → draw cfg.addr l m = .ok (src, m') →
    ∃ x, Addr.Steps cfg.addr m x m' ∧ Calm x ∧
      ∀ c ∈ src, ∃ y m1 ea pred m2, Addr.Steps cfg.addr m y m1 ∧ Calm y ∧ ea.Fair ∧ m1.step cfg.addr (.sample ea pred) = .ok (some c, m2)
  | [], m, m', src, _, h => by
    simp only [draw, Res.ok.injEq, Prod.mk.injEq] at h
    obtain ⟨rfl, rfl⟩ := h
    exact ⟨[], .refl, calm_nil, by simp⟩
  | (ea, pred) :: l, m, m', src, hf, h => by
    simp only [draw] at h
    cases hm : m.step cfg.addr (.sample ea pred) with
    | ok x =>
      obtain ⟨c, m1⟩ := x
      simp only [hm] at h
      cases hd : draw cfg.addr l m1 with
      | ok x =>
        obtain ⟨cs, m2⟩ := x
        simp only [hd, Res.ok.injEq, Prod.mk.injEq] at h
        obtain ⟨rfl, rfl⟩ := h
        have fa : ea.Fair := hf (ea, pred) List.mem_cons_self
        obtain ⟨x, h1, h2, h3⟩ := draw_heard (fun p hp => hf p (List.mem_cons_of_mem _ hp)) hd
        have one : Addr.Steps cfg.addr m [(.sample ea pred, c)] m1 := .step .refl fa hm
        refine ⟨_, addr_steps_trans one h1, h2.append calm_sample, fun d hdm => ?_⟩
        rcases List.mem_append.1 hdm with hdm | hdm
        · rw [Option.mem_toList] at hdm
          exact ⟨[], m, ea, pred, m1, .refl, calm_nil, fa, by rw [hm, hdm]⟩
        · obtain ⟨y, m3, ea', pred', m4, g1, g2, g3, g4⟩ := h3 d hdm
          exact ⟨_, m3, ea', pred', m4, addr_steps_trans one g1, g2.append calm_sample, g3, g4⟩
      | panic => simp [hd] at h
      | err x => simp [hd] at h
    | panic => simp [hm] at h
    | err x => simp [hm] at h

theorem draw_out : ∀ {l : List (Addr.Env × (Known → Bool))} {m m' : Addr.Mgr} {src : List Cand}, draw cfg.addr l m = .ok (src, m') → m'.out = m.out
  | [], m, m', src, h => by
    simp only [draw, Res.ok.injEq, Prod.mk.injEq] at h
    rw [← h.2]
  | (ea, pred) :: l, m, m', src, h => by
    simp only [draw] at h
    cases hm : m.step cfg.addr (.sample ea pred) with
    | ok x =>
      obtain ⟨c, m1⟩ := x
      simp only [hm] at h
      have h1 : m1.out = m.out := by
        simp only [Addr.Mgr.step, Addr.Mgr.sampleWith] at hm
        split at hm
        · simp only [Res.ok.injEq, Prod.mk.injEq] at hm; rw [← hm.2]
        · split at hm
          · cases hm
          · split at hm
            · simp only [Res.ok.injEq, Prod.mk.injEq] at hm; rw [← hm.2]
            · simp only [Res.ok.injEq, Prod.mk.injEq] at hm; rw [← hm.2]
            · cases hm
            · cases hm
      cases hd : draw cfg.addr l m1 with
      | ok x =>
        obtain ⟨cs, m2⟩ := x
        simp only [hd, Res.ok.injEq, Prod.mk.injEq] at h
        rw [← h.2, draw_out hd, h1]
      | panic => simp [hd] at h
      | err x => simp [hd] at h
    | panic => simp [hm] at h
    | err x => simp [hm] at h

theorem addrInput_fair {i : Input} (l : Legal U fail e i) {op : Addr.Op} (h : addrInput e s i = some op) : op.Fair := by
  cases i with
  | message a ok msg =>
    simp only [addrInput] at h
    split at h
    · cases h; exact l.addr
    · cases h
  | timer => simp only [addrInput, Option.some.injEq] at h; subst h; trivial
  | importAddresses x => simp only [addrInput, Option.some.injEq] at h; subst h; exact l.addr
  | next =>
    simp only [addrInput] at h
    split at h <;> first | (cases h; done) | (simp only [Option.some.injEq] at h; subst h; trivial)
  | _ => simp [addrInput] at h

/-- In a step, the address manager hears about what is taken. -/
theorem step_heard {i : Input} (l : Legal U fail e i) (hs : s.step cfg e i = .ok s') :
    ∃ x, Addr.Steps cfg.addr s.addr x s'.addr ∧ x.filterMap heardOp = ((s.qPeer.take (takes i s.qPeer)).filterMap heardOut).reverse := by
  obtain ⟨m, src, h1, h2, -⟩ := step_addrEffect hs
  have first : ∃ x, Addr.Steps cfg.addr s.addr x m ∧ x.filterMap heardOp = ((s.qPeer.take (takes i s.qPeer)).filterMap heardOut).reverse := by
    have hz : i ≠ .next → takes i s.qPeer = 0 := by
      intro hi
      cases i <;> first | rfl | exact absurd rfl hi
    cases ho : addrInput e s i with
    | none =>
      simp only [ho] at h1
      subst h1
      refine ⟨[], .refl, ?_⟩
      by_cases hi : i = .next
      · subst hi
        cases hq : s.qPeer with
        | nil => simp
        | cons o q =>
          simp only [addrInput, hq] at ho
          cases o <;> simp_all [takes, heardOut]
      · rw [hz hi]; rfl
    | some op =>
      simp only [ho] at h1
      obtain ⟨c, h1⟩ := h1
      refine ⟨[(op, c)], .step .refl (addrInput_fair l ho) h1, ?_⟩
      by_cases hi : i = .next
      · subst hi
        cases hq : s.qPeer with
        | nil => simp [addrInput, hq] at ho
        | cons o q =>
          simp only [addrInput, hq] at ho
          cases o <;> first | (simp at ho; done) | (simp only [Option.some.injEq] at ho; subst ho; simp only [takes, List.take_succ_cons, List.take_zero]; rfl)
      · rw [hz hi]
        have : heardOp (op, c) = none := by
          cases i with
          | message a ok msg =>
            simp only [addrInput] at ho
            split at ho
            · cases ho; rfl
            · cases ho
          | timer => simp only [addrInput, Option.some.injEq] at ho; subst ho; rfl
          | importAddresses x => simp only [addrInput, Option.some.injEq] at ho; subst ho; rfl
          | next => exact absurd rfl hi
          | _ => simp [addrInput] at ho
        simp [this]
  obtain ⟨x, hx, hh⟩ := first
  by_cases hd : drawsFor i = true
  · rw [if_pos hd] at h2
    obtain ⟨y, hy, ⟨hy', -⟩, -⟩ := draw_heard l.draws h2
    exact ⟨_, addr_steps_trans hx hy, by simp [hy', hh]⟩
  · rw [if_neg hd] at h2
    rw [h2.2]
    exact ⟨x, hx, hh⟩

/-! ## Histories and outputs -/

/-- Connections are open according to what was heard (most recent first). -/
def openH (a : Sock) : List Heard → Bool
  | [] => false
  | .connected b :: l => if b = a then true else openH a l
  | .disconnected b _ :: l => if b = a then false else openH a l
  | _ :: l => openH a l

def linkedH (ip : Ip) : List Heard → Bool
  | [] => false
  | .connected b :: l => if b.ip = ip then true else linkedH ip l
  | .disconnected b _ :: l => if b.ip = ip then false else linkedH ip l
  | _ :: l => linkedH ip l

def oneH : List Heard → Prop
  | [] => True
  | .connected a :: l => (∀ b, openH b l = true → b.ip = a.ip → b = a) ∧ oneH l
  | .disconnected a _ :: l => (∀ b, openH b l = true → b.ip = a.ip → b = a) ∧ oneH l
  | _ :: l => oneH l

def properH : List Heard → Prop
  | [] => True
  | .negotiated a :: l => openH a l = true ∧ properH l
  | _ :: l => properH l

theorem openH_entries (a : Sock) : ∀ l : List Addr.Entry, Addr.isOpen a l = openH a (l.filterMap heardOp)
  | [] => rfl
  | (op, c) :: l => by
    have ih := openH_entries a l
    cases op <;> simp [Addr.isOpen, List.filterMap_cons, heardOp, openH, ih]

theorem linkedH_entries (ip : Ip) : ∀ l : List Addr.Entry, Addr.linked ip l = linkedH ip (l.filterMap heardOp)
  | [] => rfl
  | (op, c) :: l => by
    have ih := linkedH_entries ip l
    cases op <;> simp [Addr.linked, List.filterMap_cons, heardOp, linkedH, ih]

theorem oneH_entries : ∀ l : List Addr.Entry, Addr.OneConn l ↔ oneH (l.filterMap heardOp)
  | [] => Iff.rfl
  | (op, c) :: l => by
    have ih := oneH_entries l
    cases op <;> simp [Addr.OneConn, List.filterMap_cons, heardOp, oneH, ih, openH_entries]

theorem properH_entries : ∀ l : List Addr.Entry, Addr.Proper l ↔ properH (l.filterMap heardOp)
  | [] => Iff.rfl
  | (op, c) :: l => by
    have ih := properH_entries l
    cases op <;> simp [Addr.Proper, List.filterMap_cons, heardOp, properH, ih, openH_entries]

/-- What is heard of outputs. -/
def heard (l : List Peer.Out) : List Heard := (l.filterMap heardOut).reverse

theorem heard_snoc (l : List Peer.Out) (o : Peer.Out) : heard (l ++ [o]) = (heardOut o).toList ++ heard l := by
  unfold heard
  cases h : heardOut o <;> simp [List.filterMap_append, h]

theorem openH_outs (a : Sock) (l : List Peer.Out) : openH a (heard l) = Peer.isOpen a l := by
  induction l using List.reverseRecOn with
  | nil => rfl
  | append_singleton l o ih =>
    rw [heard_snoc, Peer.isOpen_snoc]
    cases o <;> simp [heardOut, openH, Peer.ev, ih]
    all_goals split <;> simp_all

/-- The last connection or disconnection with the IP address was a connection. -/
def LinkedIp (ip : Ip) (l : List Peer.Out) : Prop :=
  ∃ l1 a loc link l2, l = l1 ++ .evConnected a loc link :: l2 ∧ a.ip = ip ∧ ∀ b d, .evDisconnected b d ∈ l2 → b.ip ≠ ip

theorem linkedH_outs {ip : Ip} {l : List Peer.Out} (h : LinkedIp ip l) : linkedH ip (heard l) = true := by
  obtain ⟨l1, a, loc, link, l2, rfl, ha, hn⟩ := h
  induction l2 using List.reverseRecOn with
  | nil => rw [heard_snoc]; simp [heardOut, linkedH, ha]
  | append_singleton l o ih =>
    have ih := ih fun b d hb => hn b d (List.mem_append_left _ hb)
    rw [show l1 ++ .evConnected a loc link :: (l ++ [o]) = (l1 ++ .evConnected a loc link :: l) ++ [o] by simp, heard_snoc]
    cases o with
    | evDisconnected b d =>
      have := hn b d (by simp)
      simp [heardOut, linkedH, ih, this]
    | evConnected b x y => simp only [heardOut, Option.toList_some, List.singleton_append, linkedH]; split <;> simp [ih]
    | _ => simpa [heardOut, linkedH] using ih

/-- At most one connection per IP address: whenever a connection is opened or closed, no other with the same IP address is open. -/
def OneIp (l : List Peer.Out) : Prop :=
  ∀ l1 o l2, l = l1 ++ o :: l2 → ∀ a, ((∃ loc link, o = .evConnected a loc link) ∨ ∃ d, o = .evDisconnected a d) → ∀ b, Peer.Open b l1 → b.ip = a.ip → b = a

theorem oneH_outs {l : List Peer.Out} (h : OneIp l) : oneH (heard l) := by
  induction l using List.reverseRecOn with
  | nil => trivial
  | append_singleton l o ih =>
    have ih := ih fun l1 x l2 hl => h l1 x (l2 ++ [o]) (by simp [hl])
    have ho := h l o [] rfl
    rw [heard_snoc]
    have key : ∀ a, ((∃ loc link, o = .evConnected a loc link) ∨ ∃ d, o = .evDisconnected a d) → ∀ b, openH b (heard l) = true → b.ip = a.ip → b = a :=
      fun a hoa b hb => ho a hoa b ((Peer.open_iff b l).2 (by rw [← openH_outs]; exact hb))
    cases o with
    | evConnected a x y => exact ⟨key a (.inl ⟨x, y, rfl⟩), ih⟩
    | evDisconnected a d => exact ⟨key a (.inr ⟨d, rfl⟩), ih⟩
    | _ => simpa [heardOut, oneH] using ih

theorem properH_outs {l : List Peer.Out} (h : ∀ l1 a n l2, l = l1 ++ .evNegotiated a n :: l2 → Peer.isOpen a l1 = true) : properH (heard l) := by
  induction l using List.reverseRecOn with
  | nil => trivial
  | append_singleton l o ih =>
    have ih := ih fun l1 a n l2 hl => h l1 a n (l2 ++ [o]) (by simp [hl])
    rw [heard_snoc]
    cases o with
    | evNegotiated a n => exact ⟨(openH_outs a l).trans (h l a n [] rfl), ih⟩
    | _ => simpa [heardOut, properH] using ih

/-! ## Executions -/

theorem step_taken {hp : List Peer.Op} {i : Input} (rp : Peer.Run cfg.peer z.trusted hp s.peer) (pos : s.takenPeer ≤ s.peer.out.length) (l : Legal U fail e i)
    (hs : s.step cfg e i = .ok s') : s'.taken = s.taken ++ s.qPeer.take (takes i s.qPeer) ∧ s'.takenPeer ≤ s'.peer.out.length := by
  have ht := (step_effect hs).taken
  by_cases hz : takes i s.qPeer = 0
  · rw [hz] at ht ⊢
    have := taken_same pos (step_grows rp l hs) ht
    simpa using this
  · cases i with
    | next =>
      cases hq : s.qPeer with
      | nil => simp [takes, hq] at hz
      | cons o q =>
        have hpeer : s'.peer = s.peer := by
          have hp := (step_effect hs).peer
          simp only [peerInput, nodeTurn, hq, Option.bind_none] at hp
          exact hp
        have := taken_next hq hpeer (by rw [ht]; simp [takes, hq])
        simpa [takes] using this
    | _ => simp [takes] at hz

/-- The address manager's history, and what was taken from the peer manager's outputs. -/
theorem run_heard (r : Run cfg U fail P z is h s) :
    (∃ la, Addr.Run cfg.addr z.book la s.addr ∧ la.filterMap heardOp = heard s.taken) ∧ s.takenPeer ≤ s.peer.out.length := by
  have key : ∀ {is h s s' i} (e : Env), Run cfg U fail P z is h s → Legal U fail e i → s.step cfg e i = .ok s' →
      ((∃ la, Addr.Run cfg.addr z.book la s.addr ∧ la.filterMap heardOp = heard s.taken) ∧ s.takenPeer ≤ s.peer.out.length) →
      (∃ la, Addr.Run cfg.addr z.book la s'.addr ∧ la.filterMap heardOp = heard s'.taken) ∧ s'.takenPeer ≤ s'.peer.out.length := by
    rintro is h s s' i e r l hs ⟨⟨la, ⟨m0, h0, h1⟩, h2⟩, pos⟩
    obtain ⟨hp, rp⟩ := run_peer r
    obtain ⟨t1, t2⟩ := step_taken rp pos l hs
    obtain ⟨x, hx, hh⟩ := step_heard l hs
    refine ⟨⟨_, ⟨m0, h0, addr_steps_trans h1 hx⟩, ?_⟩, t2⟩
    rw [List.filterMap_append, hh, h2, t1]
    simp [heard]
  induction r with
  | start f c now e ea fa nd hm l hs ho p =>
    have ht : ∀ {s'' : State}, s''.takenPeer = 0 → heard s''.taken = [] ∧ s''.takenPeer ≤ s''.peer.out.length := fun h => by simp [State.taken, h, heard]
    have h0 := (init_parts l hs).2.2.2.2
    obtain ⟨s1, h1, hs⟩ := bind_ok hs
    obtain ⟨s2, h2, hs⟩ := bind_ok hs
    obtain ⟨m, hm', rfl⟩ := callPeer_ok h1
    obtain ⟨n, hn, rfl⟩ := callNode_ok h2
    obtain ⟨src, ma, pp, hd, hp, rfl⟩ := callDraw_ok hs
    obtain ⟨x, hx, ⟨hh, -⟩, -⟩ := draw_heard l.draws hd
    obtain ⟨t1, t2⟩ := ht h0
    exact ⟨⟨x, ⟨_, ⟨nd, ea, _, now, e.saved, fa, hm, rfl⟩, hx⟩, by rw [hh, t1]⟩, t2⟩
  | silent e r l hs hj ih => exact key e r l hs ih
  | step e r l hs hj ho p ih => exact key e r l hs ih

end Verif.Machine
