import Verif.Machine.Queues
import Mathlib.Logic.Relation

/-!
# Properties C113 and C114: no output is lost, and peers that are to be disconnected are disconnected
-/

set_option autoImplicit false

namespace Verif.Machine
open Verif.Addr (Sock Ip NetAddr Known Source has sadd)
open Verif.Chain (Header)
open Relation (ReflTransGen)

variable {cfg : Cfg} {U : Header → Prop} {fail : Bool} {z : Setup} {is : List Input} {h : Node.Hist} {e : Env} {s s' : State}

/-! ## C113 -/

theorem run_keeps {P : Node.Hist → Node.Fsm → Node.Input → Node.Fsm → List Node.Out → Prop} {i : Input} (r : Run cfg U fail P z is h s) (l : Legal U fail e i)
    (hs : s.step cfg e i = .ok s') (o : Out) (w : s.Waits o) : s'.Waits o ∨ (i = .next ∧ s.head = some o) := by
  obtain ⟨hp, rp⟩ := run_peer r
  obtain ⟨lp, rg⟩ := run_ping r
  exact step_keeps rp rg l hs o w

theorem run_takenPing {P : Node.Hist → Node.Fsm → Node.Input → Node.Fsm → List Node.Out → Prop} (r : Run cfg U fail P z is h s) : s.takenPing ≤ s.ping.out.length := by
  have key : ∀ {is h s s' i} (e : Env), Run cfg U fail P z is h s → Legal U fail e i → s.step cfg e i = .ok s' → s.takenPing ≤ s.ping.out.length →
      s'.takenPing ≤ s'.ping.out.length := by
    intro is h s s' i e r l hs ih
    obtain ⟨lp, rg⟩ := run_ping r
    have hd : s.ping.out.length ≤ s'.ping.out.length := by
      rw [(step_effect hs).ping]
      cases hop : pingInput cfg s i with
      | none => exact Nat.le_refl _
      | some op =>
        obtain ⟨d, hd⟩ := ping_grows rg ⟨s.now, e.pingNonce, e.pingOrder⟩ l.ping op
        simp only [hd, List.length_append]; omega
    rcases (step_takes hs).ping with ht | ⟨-, x, q, hq, -, -, ht⟩
    · omega
    · have : (s.ping.out.drop s.takenPing).length = (x :: q).length := by rw [← hq]; rfl
      simp only [List.length_drop, List.length_cons] at this
      omega
  induction r with
  | start f c now e ea fa nd hm l hs ho p =>
    obtain ⟨s1, h1, hs⟩ := bind_ok hs
    obtain ⟨s2, h2, hs⟩ := bind_ok hs
    have k1 := callPeer_taken h1
    have k2 := callNode_taken h2
    have k3 := callDraw_taken hs
    rw [k3.1, k2.1]
    show s1.takenPing ≤ _
    rw [k1.1]
    exact Nat.zero_le _
  | silent e r l hs hj ih => exact key e r l hs ih
  | step e r l hs hj ho p ih => exact key e r l hs ih

theorem drop_new {α : Type} {l d : List α} {k : Nat} (hk : k ≤ l.length) {x : α} (hx : x ∈ d) : x ∈ (l ++ d).drop k := by
  rw [List.drop_append_of_le_length hk]; exact List.mem_append_right _ hx

/-- **C113.** What the managers put out waits in their outboxes. -/
theorem C113_put {P : Node.Hist → Node.Fsm → Node.Input → Node.Fsm → List Node.Out → Prop} (inj : Function.Injective cfg.id) {i : Input} (r : Run cfg U fail P z is h s)
    (l : Legal U fail e i) (hs : s.step cfg e i = .ok s') :
    (∃ d, s'.peer.out = s.peer.out ++ d ∧ ∀ o ∈ d, s'.Waits (.peer o)) ∧ (∃ d, s'.ping.out = s.ping.out ++ d ∧ ∀ o ∈ d, s'.Waits (.ping o)) ∧
    ∃ d, s'.node.log = s.node.log ++ d ∧ ∀ o ∈ d, s'.Waits (.node o) := by
  have ef := step_effect hs
  obtain ⟨hp, rp⟩ := run_peer r
  obtain ⟨lp, rg⟩ := run_ping r
  refine ⟨?_, ?_, ?_⟩
  · obtain ⟨d, hd⟩ := step_grows rp l hs
    refine ⟨d, hd, fun o ho => ?_⟩
    have pos := (run_agrees inj r).pos
    have : s'.takenPeer ≤ s.peer.out.length := by
      rw [ef.taken]
      cases hq : s.qPeer with
      | nil => cases i <;> simp only [takes] <;> omega
      | cons x q =>
        have : (s.peer.out.drop s.takenPeer).length = (x :: q).length := by rw [← hq]; rfl
        simp only [List.length_drop, List.length_cons] at this
        cases i <;> simp only [takes] <;> omega
    show o ∈ s'.peer.out.drop s'.takenPeer
    rw [hd]
    exact drop_new this ho
  · have hd : ∃ d, s'.ping.out = s.ping.out ++ d := by
      rw [ef.ping]
      cases hop : pingInput cfg s i with
      | none => exact ⟨[], by simp⟩
      | some op => exact ping_grows rg ⟨s.now, e.pingNonce, e.pingOrder⟩ l.ping op
    obtain ⟨d, hd⟩ := hd
    refine ⟨d, hd, fun o ho => ?_⟩
    have pos := run_takenPing r
    have : s'.takenPing ≤ s.ping.out.length := by
      rcases (step_takes hs).ping with ht | ⟨-, x, q, hq, -, -, ht⟩
      · omega
      · have : (s.ping.out.drop s.takenPing).length = (x :: q).length := by rw [← hq]; rfl
        simp only [List.length_drop, List.length_cons] at this
        omega
    show o ∈ s'.ping.out.drop s'.takenPing
    rw [hd]
    exact drop_new this ho
  · have hn := ef.node
    cases hj : nodeInput cfg s i with
    | none => simp only [hj] at hn; exact ⟨[], by rw [hn]; simp, by simp⟩
    | some j => simp only [hj] at hn; exact (Node.step_waits hn).1

/-- In a step of the reactor, what waits still waits, or it is the output that is processed. -/
theorem sys_keeps {y y' : Sys} (inj : Function.Injective cfg.id) (r : Sys.Reach cfg U fail z y) (hy : Sys.Step cfg U fail y y') {o : Out} (w : y.s.Waits o) :
    y'.s.Waits o ∨ (y.polling = false ∧ y.s.head = some o) := by
  obtain ⟨is, h, rr⟩ := sys_run inj r
  -- an output is taken, then the state machine is told what became of it
  have two : ∀ {s1 s' : State} {i : Input} {e e' : Env}, y.polling = false → Legal U fail e .next → y.s.step cfg e .next = .ok s1 → i ≠ .next → Legal U fail e' i →
      s1.step cfg e' i = .ok s' → s'.Waits o ∨ (y.polling = false ∧ y.s.head = some o) := by
    intro s1 s' i e e' p l hs hi l' hs'
    rcases run_keeps rr l hs o w with h1 | ⟨-, h1⟩
    · obtain ⟨is', h', rr'⟩ := run_next inj rr l hs
      rcases run_keeps rr' l' hs' o h1 with h2 | ⟨h2, -⟩
      · exact .inl h2
      · exact absurd h2 hi
    · exact .inr ⟨p, h1⟩
  have one : ∀ {s' : State} {i : Input} {e : Env}, i ≠ .next → Legal U fail e i → y.s.step cfg e i = .ok s' → s'.Waits o ∨ (y.polling = false ∧ y.s.head = some o) := by
    intro s' i e hi l hs
    rcases run_keeps rr l hs o w with h1 | ⟨h1, -⟩
    · exact .inl h1
    · exact absurd h1 hi
  cases hy with
  | input e p hi l hs => exact one (by rintro rfl; simp [Input.isPlain] at hi) l hs
  | timer e p q l hs => exact one (by simp) l hs
  | accept e p f u l hs => exact one (by simp) l hs
  | writable e p d l hs => exact one (by simp) l hs
  | closed e p x l hs => exact one (by simp) l hs
  | process p => exact .inl w
  | poll p q => exact .inl w
  | dialed e e' p ho hd l hs l' hs' => exact two p l hs (by simp) l' hs'
  | failed e e' p ho hd l hs l' hs' => exact two p l hs (by simp) l' hs'
  | disconnect e e' p ho hc hr l hs l' hs' => exact two p l hs (by simp) l' hs'
  | ignored e p ho hc hr l hs =>
    rcases run_keeps rr l hs o w with h1 | ⟨-, h1⟩
    · exact .inl h1
    · exact .inr ⟨p, h1⟩
  | other e p ho hd hc l hs =>
    rcases run_keeps rr l hs o w with h1 | ⟨-, h1⟩
    · exact .inl h1
    · exact .inr ⟨p, h1⟩

/-- **C113.** An output that waits is processed before there are no more outputs, which is when the reactor waits again. -/
theorem C113_processed {R : Sys → Sys → Prop} (hR : ∀ y y', R y y' → Sys.Step cfg U fail y y') (inj : Function.Injective cfg.id) {y y2 : Sys} (r : Sys.Reach cfg U fail z y)
    {o : Out} (w : y.s.Waits o) (p : ReflTransGen R y y2) (hd : y2.s.head = none) :
    ∃ y1 y1', ReflTransGen R y y1 ∧ y1.polling = false ∧ y1.s.head = some o ∧ R y1 y1' ∧ ReflTransGen R y1' y2 := by
  induction p using ReflTransGen.head_induction_on with
  | refl => exact absurd hd (head_waits w)
  | head h1 h2 ih =>
    rename_i y y'
    rcases sys_keeps inj r (hR _ _ h1) w with h3 | ⟨h3, h4⟩
    · obtain ⟨y1, y1', h5, h6⟩ := ih (.step r (hR _ _ h1)) h3
      exact ⟨y1, y1', .head h1 h5, h6⟩
    · exact ⟨y, y', .refl, h3, h4, h1, h2⟩

/-! ## C114 -/

/-- If an output asks for a connection to be closed, it is closed, or there is none. -/
theorem closes_step {y y' : Sys} (hy : Sys.Step cfg U fail y y') (p : y.polling = false) {o : Out} (ho : y.s.head = some o) {a : Sock} {r : Peer.Reason}
    (hc : o.closes cfg = some (a, r)) : y.reg.contains a = false ∨ y'.reg.contains a = false := by
  have dials : o.dials = none := by
    cases o with
    | peer x => cases x <;> first | rfl | simp [Out.closes] at hc
    | _ => rfl
  cases hy with
  | input e p' => rw [p] at p'; cases p'
  | timer e p' => rw [p] at p'; cases p'
  | accept e p' => rw [p] at p'; cases p'
  | writable e p' => rw [p] at p'; cases p'
  | closed e p' => rw [p] at p'; cases p'
  | process p' => rw [p] at p'; cases p'
  | poll p' q => rw [ho] at q; cases q
  | dialed e e' p' ho' hd => rw [ho] at ho'; cases ho'; rw [dials] at hd; cases hd
  | failed e e' p' ho' hd => rw [ho] at ho'; cases ho'; rw [dials] at hd; cases hd
  | disconnect e e' p' ho' hc' =>
    rw [ho] at ho'; cases ho'
    rw [hc] at hc'; cases hc'
    right
    simp [Sys.unregister, AMap.contains_eq_false_iff]
  | ignored e p' ho' hc' hr =>
    rw [ho] at ho'; cases ho'
    rw [hc] at hc'; cases hc'
    exact .inl hr
  | other e p' ho' hd hc' => rw [ho] at ho'; cases ho'; rw [hc] at hc'; cases hc'

/-- **C114.** If any manager asks for the connection with a peer to be closed, then by the time there are no more outputs, it was closed. -/
theorem C114_closed {R : Sys → Sys → Prop} (hR : ∀ y y', R y y' → Sys.Step cfg U fail y y') (inj : Function.Injective cfg.id) {y y2 : Sys} (r : Sys.Reach cfg U fail z y)
    {o : Out} (w : y.s.Waits o) {a : Sock} {x : Peer.Reason} (hc : o.closes cfg = some (a, x)) (p : ReflTransGen R y y2) (hd : y2.s.head = none) :
    ∃ y1, ReflTransGen R y y1 ∧ ReflTransGen R y1 y2 ∧ y1.reg.contains a = false := by
  obtain ⟨y1, y1', h1, h2, h3, h4, h5⟩ := C113_processed hR inj r w p hd
  rcases closes_step (hR _ _ h4) h2 h3 hc with h6 | h6
  · exact ⟨y1, h1, .head h4 h5, h6⟩
  · exact ⟨y1', h1.tail h4, h5, h6⟩

/-- A manager asks for the connection with `a` to be closed: the peer manager, the ping manager, the one for headers or the one for filters. -/
def AsksToClose (cfg : Cfg) (a : Sock) (o : Out) : Prop :=
  (∃ x, o = .peer (.disconnect a x)) ∨ o = .ping (.disconnect (cfg.id a)) ∨ o = .node (.sync (.disconnect (cfg.id a))) ∨ o = .node (.cbf (.disconnect (cfg.id a)))

/-- **C114.** The same for each of the managers that ask for connections to be closed. -/
theorem C114_asked {R : Sys → Sys → Prop} (hR : ∀ y y', R y y' → Sys.Step cfg U fail y y') (inj : Function.Injective cfg.id) {y y2 : Sys} (r : Sys.Reach cfg U fail z y)
    {a : Sock} (inv : cfg.sock (cfg.id a) = a) {o : Out} (hk : AsksToClose cfg a o) (w : y.s.Waits o) (p : ReflTransGen R y y2) (hd : y2.s.head = none) :
    ∃ y1, ReflTransGen R y y1 ∧ ReflTransGen R y1 y2 ∧ y1.reg.contains a = false := by
  rcases hk with ⟨x, rfl⟩ | rfl | rfl | rfl
  · exact C114_closed hR inj r w (a := a) (x := x) rfl p hd
  · exact C114_closed hR inj r w (a := a) (x := .timeout "ping") (by simp [Out.closes, inv]) p hd
  · exact C114_closed hR inj r w (a := a) (x := .timeout "getheaders") (by simp [Out.closes, inv]) p hd
  · exact C114_closed hR inj r w (a := a) (x := .timeout "getcfheaders") (by simp [Out.closes, inv]) p hd

/-- A step in which no connection is asked for with an address whose socket is open. -/
def CleanStep (cfg : Cfg) (U : Header → Prop) (fail : Bool) (y y' : Sys) : Prop := Sys.Step cfg U fail y y' ∧ Sys.NoRedial y y'

theorem clean_trans {y y' : Sys} (r : Sys.Clean cfg U fail z y) (p : ReflTransGen (CleanStep cfg U fail) y y') : Sys.Clean cfg U fail z y' := by
  induction p with
  | refl => exact r
  | tail _ h ih => exact .step ih h.1 h.2

/-- The reports about a peer: it misbehaves, or does not answer. -/
def Reports (cfg : Cfg) (a : Sock) (o : Node.Out) : Prop :=
  o = .sync (.misbehaved (cfg.id a)) ∨ o = .cbf (.event (.peerMisbehaved (cfg.id a))) ∨ o = .inv (.timedOut (cfg.id a))

theorem report_step {y y' : Sys} {a : Sock} {o : Node.Out} (inv : cfg.sock (cfg.id a) = a) (hr : Reports cfg a o) (hy : Sys.Step cfg U fail y y') (p : y.polling = false)
    (ho : y.s.head = some (.node o)) (hcon : y.s.peer.isConnected a = true) (pos : y.s.takenPeer ≤ y.s.peer.out.length) : ∃ x, .disconnect a x ∈ y'.s.qPeer := by
  have hcl : (Out.node o).closes cfg = none := by rcases hr with rfl | rfl | rfl <;> rfl
  have hq : y.s.qPeer = [] := by
    cases hq : y.s.qPeer with
    | nil => rfl
    | cons x q => simp [State.head, hq] at ho
  have key : ∀ {s' : State} {e : Env}, y.s.step cfg e .next = .ok s' → ∃ x, .disconnect a x ∈ s'.qPeer := by
    intro s' e hs
    have ht : s'.takenPeer = y.s.takenPeer := by rw [(step_effect hs).taken]; simp [takes, hq]
    have hnt : nodeTurn y.s = some o := by
      simp only [nodeTurn, hq]
      simp only [State.head, hq] at ho
      split at ho
      · rename_i hn
        rw [if_neg (fun hc => by rcases hn with hn | hn; exact hn hc.1; exact hn hc.2.1)]
        obtain ⟨x, hx, hx'⟩ := Option.map_eq_some_iff.1 ho
        cases hx'; exact hx
      · rename_i hn
        split at ho
        · cases ho
        · rename_i hp
          split at ho
          · cases ho
          · rename_i ha
            rw [if_neg (fun hc => by rcases hc.2.2 with hc | hc; exact hc hp; exact hc ha)]
            obtain ⟨x, hx, hx'⟩ := Option.map_eq_some_iff.1 ho
            cases hx'; exact hx
    have hpeer := (step_effect hs).peer
    simp only [peerInput, hnt, Option.bind_some] at hpeer
    have fin : ∀ x, s'.peer = y.s.peer.disconnect a x → .disconnect a x ∈ s'.qPeer := by
      intro x hx
      have hout : s'.peer.out = y.s.peer.out ++ [.disconnect a x] := by rw [hx]; simp [Peer.Mgr.disconnect, hcon, Peer.Mgr.drop]
      show _ ∈ s'.peer.out.drop s'.takenPeer
      rw [hout, ht]
      exact drop_new pos (by simp)
    rcases hr with rfl | rfl | rfl
    · simp only [complaint, inv, Option.map_some] at hpeer
      obtain ⟨-, hx⟩ := hpeer
      exact ⟨_, fin .misbehaving (by simpa [Peer.Mgr.step] using hx.symm)⟩
    · simp only [complaint, inv, Option.map_some] at hpeer
      obtain ⟨-, hx⟩ := hpeer
      exact ⟨_, fin .misbehaving (by simpa [Peer.Mgr.step] using hx.symm)⟩
    · simp only [complaint, inv, Option.map_some] at hpeer
      obtain ⟨-, hx⟩ := hpeer
      exact ⟨_, fin (.timeout "other") (by simpa [Peer.Mgr.step] using hx.symm)⟩
  cases hy with
  | input e p' => rw [p] at p'; cases p'
  | timer e p' => rw [p] at p'; cases p'
  | accept e p' => rw [p] at p'; cases p'
  | writable e p' => rw [p] at p'; cases p'
  | closed e p' => rw [p] at p'; cases p'
  | process p' => rw [p] at p'; cases p'
  | poll p' q => rw [ho] at q; cases q
  | dialed e e' p' ho' hd => rw [ho] at ho'; cases ho'; cases hd
  | failed e e' p' ho' hd => rw [ho] at ho'; cases ho'; cases hd
  | disconnect e e' p' ho' hc' => rw [ho] at ho'; cases ho'; rw [hcl] at hc'; cases hc'
  | ignored e p' ho' hc' hr => rw [ho] at ho'; cases ho'; rw [hcl] at hc'; cases hc'
  | other e p' ho' hd hc' l hs => exact key hs

/-- **C114.** If a manager reports that a peer misbehaves or does not answer, then by the time there are no more outputs, there was no established connection with the peer at some time: if there was one, it was closed.
Partial: as for C111. -/
theorem C114_reported_partial (inj : Function.Injective cfg.id) {y y2 : Sys} (r : Sys.Clean cfg U fail z y) {a : Sock} (inv : cfg.sock (cfg.id a) = a) {o : Node.Out}
    (hr : Reports cfg a o) (w : y.s.Waits (.node o)) (p : ReflTransGen (CleanStep cfg U fail) y y2) (hd : y2.s.head = none) :
    ∃ y1, ReflTransGen (CleanStep cfg U fail) y y1 ∧ ReflTransGen (CleanStep cfg U fail) y1 y2 ∧ ¬ (y1.reg.contains a = true ∧ a ∉ y1.dialing) := by
  have hR : ∀ y y', CleanStep cfg U fail y y' → Sys.Step cfg U fail y y' := fun _ _ h => h.1
  obtain ⟨y1, y1', h1, h2, h3, h4, h5⟩ := C113_processed hR inj r.reach w p hd
  have r1 := clean_trans r h1
  have hq : y1.s.qPeer = [] := by
    cases hq : y1.s.qPeer with
    | nil => rfl
    | cons x q => simp [State.head, hq] at h3
  by_cases he : y1.reg.contains a = true ∧ a ∉ y1.dialing
  · have hc := (Peer.C46_settled_partial (sys_net r1) hq a).1.2 he
    obtain ⟨is, h, rr⟩ := sys_run inj r1.reach
    obtain ⟨x, hx⟩ := report_step inv hr h4.1 h2 h3 hc (run_agrees inj rr).pos
    have r1' : Sys.Clean cfg U fail z y1' := .step r1 h4.1 h4.2
    obtain ⟨y3, h6, h7, h8⟩ := C114_closed (o := .peer (.disconnect a x)) hR inj r1'.reach hx rfl h5 hd
    exact ⟨y3, (h1.tail h4).trans h6, h7, by rw [h8]; simp⟩
  · exact ⟨y1, h1, .head h4 h5, he⟩

/-- **C114.** If a peer did not answer a ping within the time allowed, and a timer goes off, then by the time there are no more outputs, the connection with it was closed. -/
theorem C114_ping {R : Sys → Sys → Prop} (hR : ∀ y y', R y y' → Sys.Step cfg U fail y y') (inj : Function.Injective cfg.id) {y y2 : Sys} (r : Sys.Reach cfg U fail z y)
    {lp : List Ping.Obs} (rg : Ping.Run z.pingTimeout lp y.s.ping) {a : Sock} (inv : cfg.sock (cfg.id a) = a) {nonce since : Nat}
    (ho : Ping.outstanding (cfg.id a) lp = some (nonce, since)) (late : z.pingTimeout ≤ y.s.now - since) (p : y.polling = true) (q : y.s.head = none)
    (l : Legal U fail e .timer) (hs : y.s.step cfg e .timer = .ok s') (hp : ReflTransGen R { y with s := s', polling := false } y2) (hd : y2.s.head = none) :
    ∃ y1, ReflTransGen R { y with s := s', polling := false } y1 ∧ ReflTransGen R y1 y2 ∧ y1.reg.contains a = false := by
  obtain ⟨is, h, rr⟩ := sys_run inj r
  obtain ⟨-, ⟨d, hd1, hd2⟩, -⟩ := C113_put inj rr l hs
  have hping := (step_effect hs).ping
  simp only [pingInput] at hping
  obtain ⟨o, h1, h2, -⟩ := Ping.C34_timer rg ⟨y.s.now, e.pingNonce, e.pingOrder⟩ l.ping
  have hm := (h2 (cfg.id a)).2 ⟨nonce, since, ho, late⟩
  rw [hping, h1] at hd1
  have : o = d := List.append_cancel_left hd1
  subst this
  exact C114_closed (o := .ping (.disconnect (cfg.id a))) (a := a) (x := .timeout "ping") hR inj (.step r (.timer e p q l hs)) (hd2 _ hm) (by simp [Out.closes, inv]) hp hd

end Verif.Machine
