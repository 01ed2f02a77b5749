import Verif.Machine.Parts
import Verif.Machine.Reactor
import Verif.Node.Ends
import Verif.Peer.Ends
import Verif.Addr.Fresh
import Mathlib.Data.Prod.Lex
import Mathlib.Order.WellFounded

/-!
# The processing of outputs comes to an end
-/

set_option autoImplicit false

namespace Verif.Machine
open Verif.Addr (Sock Known)
open Verif.Chain (Header)
open Verif.Peer (Cand isConnect isMeeting)

variable {cfg : Cfg} {e : Env} {s s' : State}

theorem draw_fresh {c : Addr.Config} : ∀ {ds : List (Addr.Env × (Known → Bool))} {m m' : Addr.Mgr} {src : List Cand},
    draw c ds m = .ok (src, m') → src.length + m'.fresh ≤ m.fresh
  | [], m, m', src, h => by
    simp only [draw, Res.ok.injEq, Prod.mk.injEq] at h
    obtain ⟨rfl, rfl⟩ := h
    simp
  | (ea, pred) :: ds, m, m', src, h => by
    unfold draw at h
    cases hm : m.step c (.sample ea pred) with
    | ok p =>
      obtain ⟨x, m1⟩ := p
      simp only [hm] at h
      cases hd : draw c ds m1 with
      | ok q =>
        obtain ⟨cs, m2⟩ := q
        simp only [hd, Res.ok.injEq, Prod.mk.injEq] at h
        obtain ⟨rfl, rfl⟩ := h
        have h1 := (Addr.sample_fresh hm).1
        have h2 := draw_fresh hd
        rw [List.length_append]
        omega
      | err x => simp [hd] at h
      | panic => simp [hd] at h
    | err x => simp [hm] at h
    | panic => simp [hm] at h

/-- How many requests to connect, and how many events the other managers act on, wait in the outbox of the peer manager. -/
def State.dials (s : State) : Nat := s.qPeer.countP isConnect
def State.meets (s : State) : Nat := s.qPeer.countP isMeeting

/-- What does not go up, or goes down, when outputs are taken. -/
structure Gauge where
  a : Nat
  b : Nat
  c : Nat
  d : Nat
  e : Nat
  f : Nat
  g : Nat
  h : Nat

/-- The first difference is a decrease. -/
def Gauge.Less (x y : Gauge) : Prop :=
  x.a < y.a ∨ (x.a = y.a ∧ (x.b < y.b ∨ (x.b = y.b ∧ (x.c < y.c ∨ (x.c = y.c ∧ (x.d < y.d ∨ (x.d = y.d ∧ (x.e < y.e ∨ (x.e = y.e ∧ (x.f < y.f ∨ (x.f = y.f ∧
    (x.g < y.g ∨ (x.g = y.g ∧ x.h < y.h)))))))))))))

/-- The same as a tuple. -/
def Gauge.tuple (x : Gauge) : Nat × Nat × Nat × Nat × Nat × Nat × Nat × Nat := (x.a, x.b, x.c, x.d, x.e, x.f, x.g, x.h)

theorem gauge_wf : WellFounded Gauge.Less := by
  have n : WellFounded (· < · : Nat → Nat → Prop) := wellFounded_lt
  have w := n.prod_lex (n.prod_lex (n.prod_lex (n.prod_lex (n.prod_lex (n.prod_lex (n.prod_lex n))))))
  refine Subrelation.wf ?_ (InvImage.wf Gauge.tuple w)
  intro x y h
  simp only [InvImage, Prod.lex_def, Gauge.tuple]
  exact h

/-- `R`: how many sockets are open. -/
def State.gauge (s : State) (R : Nat) : Gauge :=
  { a := 3 * s.addr.fresh + 2 * s.dials + R, b := s.meets, c := s.node.qSync.length, d := s.node.qInv.countP Node.heard, e := s.node.qInv.length, f := s.node.qCbf.length,
    g := s.qPeer.length, h := s.qPing.length + s.qAddr.length }

theorem deliver_facts {o : Peer.Out} (h : s.deliverPeer cfg e o = .ok s') :
    s'.addr.fresh ≤ s.addr.fresh ∧ s'.peer = s.peer ∧ s'.takenPeer = s.takenPeer ∧ (isMeeting o = false → s'.node = s.node) := by
  cases o with
  | evConnecting a x y =>
    simp only [State.deliverPeer] at h
    obtain ⟨c, m, hm, rfl⟩ := callAddr_ok h
    exact ⟨(Addr.told_fresh hm (.inl ⟨_, _, rfl⟩)).1, rfl, rfl, fun _ => rfl⟩
  | evConnected a x y =>
    simp only [State.deliverPeer] at h
    obtain ⟨c, m, hm, rfl⟩ := callAddr_ok h
    exact ⟨(Addr.told_fresh hm (.inr (.inl ⟨_, rfl⟩))).1, rfl, rfl, fun _ => rfl⟩
  | evNegotiated a n =>
    simp only [State.deliverPeer] at h
    obtain ⟨s1, h1, h⟩ := bind_ok h
    obtain ⟨n1, -, rfl⟩ := callNode_ok h1
    obtain ⟨c, m, hm, rfl⟩ := callAddr_ok h
    exact ⟨(Addr.told_fresh hm (.inr (.inr (.inl ⟨_, _, _, _, _, rfl⟩)))).1, rfl, rfl, fun x => by simp [isMeeting] at x⟩
  | evDisconnected a d =>
    simp only [State.deliverPeer] at h
    obtain ⟨s1, h1, h⟩ := bind_ok h
    obtain ⟨n1, -, rfl⟩ := callNode_ok h1
    obtain ⟨c, m, hm, rfl⟩ := callAddr_ok h
    exact ⟨(Addr.told_fresh hm (.inr (.inr (.inr ⟨_, _, rfl⟩)))).1, rfl, rfl, fun x => by simp [isMeeting] at x⟩
  | _ =>
    simp only [State.deliverPeer, Res.ok.injEq] at h
    subst h
    exact ⟨Nat.le_refl _, rfl, rfl, fun _ => rfl⟩

theorem complaint_facts {o : Node.Out} {op : Peer.Op} (hc : complaint cfg o = some op) (h : s.callPeer cfg op = .ok s') :
    s'.addr = s.addr ∧ s'.node = s.node ∧ s'.dials ≤ s.dials ∧ s'.meets ≤ s.meets := by
  obtain ⟨m, hm, rfl⟩ := callPeer_ok h
  refine ⟨rfl, rfl, ?_⟩
  have key : ∃ l, m.out = s.peer.out ++ l ∧ l.countP isConnect = 0 ∧ l.countP isMeeting = 0 := by
    have ext : ∀ {a r}, s.peer.disconnect a r = m → ∃ l, m.out = s.peer.out ++ l ∧ l.countP isConnect = 0 ∧ l.countP isMeeting = 0 := by
      rintro a r rfl
      obtain ⟨l, hl, hp⟩ := (Peer.disconnect_ext s.peer a r).out
      refine ⟨l, hl, ?_, ?_⟩ <;> rw [List.countP_eq_zero] <;> intro x hx <;> rw [hp x hx] <;> simp [isConnect, isMeeting]
    unfold complaint at hc
    split at hc
    · cases hc; simp only [Peer.Mgr.step, Res.ok.injEq] at hm; exact ext hm
    · cases hc; simp only [Peer.Mgr.step, Res.ok.injEq] at hm; exact ext hm
    · cases hc; simp only [Peer.Mgr.step, Res.ok.injEq] at hm; exact ext hm
    · cases hc
  obtain ⟨l, hl, h1, h2⟩ := key
  have d1 := (List.drop_sublist (s.takenPeer - s.peer.out.length) l).countP_le (p := isConnect)
  have d2 := (List.drop_sublist (s.takenPeer - s.peer.out.length) l).countP_le (p := isMeeting)
  simp only [State.dials, State.meets, State.qPeer, hl, List.drop_append, List.countP_append]
  omega

theorem nextNode_less (h : s.nextNode cfg e = .ok s') (ho : s.node.qSync ≠ [] ∨ s.node.qInv ≠ [] ∨ s.node.qCbf ≠ []) :
    s'.addr.fresh ≤ s.addr.fresh ∧ s'.dials ≤ s.dials ∧ ∀ R, (s'.gauge R).Less (s.gauge R) := by
  unfold State.nextNode at h
  obtain ⟨s1, h1, h⟩ := bind_ok h
  obtain ⟨n, hn, rfl⟩ := callNode_ok h1
  have nl := Node.next_less (n := s.node) hn ho
  have fin : s'.addr = s.addr ∧ s'.node = n ∧ s'.dials ≤ s.dials ∧ s'.meets ≤ s.meets := by
    cases hc : (nodeHead s.node).bind (complaint cfg) with
    | none => simp only [hc, Res.ok.injEq] at h; rw [← h]; exact ⟨rfl, rfl, Nat.le_refl _, Nat.le_refl _⟩
    | some op =>
      simp only [hc] at h
      cases hh : nodeHead s.node with
      | none => simp [hh] at hc
      | some o =>
        rw [hh] at hc
        exact complaint_facts hc h
  obtain ⟨f1, f2, f3, f4⟩ := fin
  refine ⟨by rw [f1], f3, fun R => ?_⟩
  simp only [Gauge.Less, State.gauge, f1, f2]
  omega

/-- Taking an output. -/
theorem next_less {o : Out} (h : s.next cfg e = .ok s') (ho : s.head = some o) :
    s'.addr.fresh ≤ s.addr.fresh ∧ s'.dials ≤ s.dials ∧ (o.dials ≠ none → s'.dials < s.dials) ∧ ∀ R, (s'.gauge R).Less (s.gauge R) := by
  unfold State.next at h
  unfold State.head at ho
  cases hq : s.qPeer with
  | cons x q =>
    simp only [hq, Option.some.injEq] at h ho
    subst ho
    obtain ⟨f1, f2, f3, f4⟩ := deliver_facts h
    have hq' : s'.qPeer = q := by
      unfold State.qPeer
      rw [f2, f3]
      show s.peer.out.drop (s.takenPeer + 1) = q
      have : s.peer.out.drop s.takenPeer = x :: q := hq
      rw [← List.tail_drop, this]; rfl
    have e1 : s.dials = q.countP isConnect + if isConnect x then 1 else 0 := by simp [State.dials, hq, List.countP_cons]
    have e2 : s.meets = q.countP isMeeting + if isMeeting x then 1 else 0 := by simp [State.meets, hq, List.countP_cons]
    have e3 : s.qPeer.length = q.length + 1 := by rw [hq]; rfl
    have e1' : s'.dials = q.countP isConnect := by simp [State.dials, hq']
    have e2' : s'.meets = q.countP isMeeting := by simp [State.meets, hq']
    have f1 : s'.addr.fresh ≤ s.addr.fresh := f1
    refine ⟨f1, by omega, ?_, fun R => ?_⟩
    · intro hd
      cases x with
      | connect a => simp only [isConnect, if_true] at e1; omega
      | _ => simp [Out.dials] at hd
    · simp only [Gauge.Less, State.gauge, hq']
      cases hm : isMeeting x with
      | true => simp only [hm, if_true] at e2; omega
      | false =>
        have f4 : s'.node = s.node := f4 hm
        simp only [hm] at e2
        rw [f4]
        omega
  | nil =>
    simp only [hq] at h ho
    have nd : ∀ {x : Option Node.Out}, x.map Out.node = some o → o.dials = none := by
      intro x hx
      cases x with
      | none => simp at hx
      | some y => simp at hx; subst hx; rfl
    by_cases hn : s.node.qSync ≠ [] ∨ s.node.qInv ≠ []
    · rw [if_pos hn] at h ho
      obtain ⟨g1, g2, g3⟩ := nextNode_less h (by tauto)
      exact ⟨g1, g2, fun x => absurd (nd ho) x, g3⟩
    · rw [if_neg hn] at h ho
      cases hp : s.qPing with
      | cons x q =>
        simp only [hp, Option.some.injEq, Res.ok.injEq] at h ho
        subst ho h
        refine ⟨Nat.le_refl _, Nat.le_refl _, fun x => absurd rfl x, fun R => ?_⟩
        have hq' : State.qPing { s with takenPing := s.takenPing + 1 } = q := by
          have : s.ping.out.drop s.takenPing = x :: q := hp
          show s.ping.out.drop (s.takenPing + 1) = q
          rw [← List.tail_drop, this]; rfl
        have : (s.qPing).length = q.length + 1 := by rw [hp]; rfl
        simp only [Gauge.Less, State.gauge, hq']
        simp only [State.dials, State.meets, State.qPeer, State.qAddr, State.qPing, true_and] at this ⊢
        omega
      | nil =>
        simp only [hp] at h ho
        cases ha : s.qAddr with
        | cons x q =>
          simp only [ha, Option.some.injEq, Res.ok.injEq] at h ho
          subst ho h
          refine ⟨Nat.le_refl _, Nat.le_refl _, fun x => absurd rfl x, fun R => ?_⟩
          have hq' : State.qAddr { s with takenAddr := s.takenAddr + 1 } = q := by
            have : s.addr.out.drop s.takenAddr = x :: q := ha
            show s.addr.out.drop (s.takenAddr + 1) = q
            rw [← List.tail_drop, this]; rfl
          have : (s.qAddr).length = q.length + 1 := by rw [ha]; rfl
          simp only [Gauge.Less, State.gauge, hq']
          simp only [State.dials, State.meets, State.qPeer, State.qPing, State.qAddr, true_and] at this ⊢
          omega
        | nil =>
          simp only [ha] at h ho
          have hc : s.node.qCbf ≠ [] := by
            intro hc
            have hs : s.node.qSync = [] := by tauto
            have hi : s.node.qInv = [] := by tauto
            simp [nodeHead, hs, hi, hc] at ho
          obtain ⟨g1, g2, g3⟩ := nextNode_less h (.inr (.inr hc))
          exact ⟨g1, g2, fun x => absurd (nd ho) x, g3⟩

/-- A connection ends. -/
theorem gone_less {a : Sock} {d : Peer.Disc} (h : s.step cfg e (.disconnected a d) = .ok s') : 3 * s'.addr.fresh + 2 * s'.dials ≤ 3 * s.addr.fresh + 2 * s.dials := by
  simp only [State.step] at h
  obtain ⟨src, m, p, hd, hp, rfl⟩ := callDraw_ok h
  have f := draw_fresh hd
  obtain ⟨l, hl, hc⟩ := Peer.disconnected_count hp
  have d1 := (List.drop_sublist (s.takenPeer - s.peer.out.length) l).countP_le (p := isConnect)
  simp only [State.dials, State.qPeer, hl, List.drop_append, List.countP_append]
  omega

/-- A socket is being dialed. -/
theorem attempted_same {a : Sock} (h : s.step cfg e (.attempted a) = .ok s') : s' = s := by
  simp only [State.step] at h
  obtain ⟨m, hm, rfl⟩ := callPeer_ok h
  simp only [Peer.Mgr.step, Peer.Mgr.peerAttempted] at hm
  split at hm
  · cases hm
  · cases hm; rfl

/-- The gauge of the client. -/
def Sys.gauge (y : Sys) : Gauge := y.s.gauge y.reg.length

theorem erase_length_lt {m : AMap Sock Peer.Link} {a : Sock} (h : m.contains a = true) : (m.erase a).length < m.length := by
  obtain ⟨v, hv⟩ := Option.isSome_iff_exists.1 h
  have := Addr.countP_erase_lt (f := fun _ => true) hv rfl
  simp only [List.countP_true] at this
  omega

theorem insert_length_le (m : AMap Sock Peer.Link) (a : Sock) (l : Peer.Link) : (m.insert a l).length ≤ m.length + 1 := by
  unfold AMap.insert AMap.erase
  have := List.length_filter_le (fun p => decide (p.1 ≠ a)) m
  simpa using this

/-- Every step of the processing of outputs, except the last, makes the gauge smaller. -/
theorem processing_less {U : Header → Prop} {fail : Bool} {y y' : Sys} (h : Sys.Step cfg U fail y y') (p : y.polling = false) (p' : y'.polling = false) :
    y'.gauge.Less y.gauge := by
  cases h with
  | input e q => simp [p] at q
  | timer e q => simp [p] at q
  | accept e q => simp [p] at q
  | writable e q => simp [p] at q
  | closed e q => simp [p] at q
  | process q => simp [p] at q
  | poll q => simp at p'
  | @dialed s1 s2 a o e e' _ ho hd _ hs _ hs' =>
    obtain ⟨g1, g2, g3, g4⟩ := next_less hs ho
    have g3 := g3 (by simp [hd])
    have := attempted_same hs'
    subst this
    have i := insert_length_le y.reg a .outbound
    simp only [Sys.gauge, Gauge.Less, State.gauge]
    omega
  | failed e e' _ ho hd _ hs _ hs' =>
    obtain ⟨g1, g2, g3, g4⟩ := next_less hs ho
    have g3 := g3 (by simp [hd])
    have := gone_less hs'
    simp only [Sys.gauge, Gauge.Less, State.gauge]
    omega
  | disconnect e e' _ ho hc hr _ hs _ hs' =>
    obtain ⟨g1, g2, g3, g4⟩ := next_less hs ho
    have := gone_less hs'
    have i := erase_length_lt hr
    simp only [Sys.gauge, Gauge.Less, State.gauge, Sys.unregister]
    omega
  | ignored e _ ho hc hr _ hs => exact (next_less hs ho).2.2.2 _
  | other e _ ho hd hc _ hs => exact (next_less hs ho).2.2.2 _

end Verif.Machine
