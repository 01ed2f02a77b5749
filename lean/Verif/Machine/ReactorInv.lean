import Verif.Machine.Known
import Verif.Machine.Reactor
import Verif.Peer.PropsHandshake

/-!
# The whole state machine with the reactor: executions of the parts
-/

set_option autoImplicit false

namespace Verif.Peer
open Verif.Addr (Sock Ip)

variable {cfg : Config} {tr : List Ip}

/-- Each step of the reactor is at most one call of the peer manager. -/
theorem net_call {n n' : Net} (s : Net.Step cfg n n') : n'.m = n.m ∨ ∃ op, n.m.step cfg op = .ok n'.m := by
  cases s with
  | input i t e => exact .inr ⟨_, e⟩
  | timer p q lg e => exact .inr ⟨_, e⟩
  | accept p f u e => exact .inr ⟨_, e⟩
  | writable p d e => exact .inr ⟨_, e⟩
  | closed r e => exact .inr ⟨_, e⟩
  | process p => exact .inl rfl
  | poll p q => exact .inl rfl
  | dialed p hq e => exact .inr ⟨_, e⟩
  | failed p hq e => exact .inr ⟨_, e⟩
  | disconnect p hq h e => exact .inr ⟨_, e⟩
  | ignored p hq h => exact .inl rfl
  | other p hq ho => exact .inl rfl

/-- By the events, connections that were negotiated are open. -/
theorem met_open {n : Net} (r : Net.Clean cfg tr n) {a : Sock} {Q : Negotiated → Prop} (h : Machine.Met a Q n.m.out) : Open a n.m.out := by
  induction r with
  | start => exact absurd h (Machine.met_nil _ _)
  | @step n n' r s x ih =>
    obtain ⟨hist, hr⟩ := reach_run r.reach
    have e := step_out (run_inv hr) s
    obtain ⟨l1, ng, l2, hl, hq, hd⟩ := h
    have grow : Open a n.m.out → (∀ d, .evDisconnected a d ∉ added n.m n'.m) → Open a n'.m.out := by
      rintro ⟨k1, loc, link, k2, hk, hk'⟩ h2
      refine ⟨k1, loc, link, k2 ++ added n.m n'.m, by rw [e, hk]; simp, fun d hc => ?_⟩
      rcases List.mem_append.1 hc with hc | hc
      · exact hk' d hc
      · exact h2 d hc
    have cut : (∃ l3, n.m.out = l1 ++ .evNegotiated a ng :: l3 ∧ l2 = l3 ++ added n.m n'.m) ∨ .evNegotiated a ng ∈ added n.m n'.m := by
      rw [e] at hl
      rcases List.append_eq_append_iff.1 hl with ⟨k, h1, h2⟩ | ⟨k, h1, h2⟩
      · exact .inr (by rw [h2]; simp)
      · cases k with
        | nil => simp only [List.nil_append] at h2; exact .inr (by rw [← h2]; simp)
        | cons o k =>
          simp only [List.cons_append, List.cons.injEq] at h2
          obtain ⟨rfl, rfl⟩ := h2
          exact .inl ⟨k, h1, rfl⟩
    rcases cut with ⟨l3, h1, h2⟩ | h1
    · subst h2
      exact grow (ih ⟨l1, ng, l3, h1, hq, fun d hc => hd d (by simp [hc])⟩) (fun d hc => hd d (by simp [hc]))
    · have hop : ∃ op, n.m.step cfg op = .ok n'.m := by
        rcases net_call s with h2 | h2
        · rw [h2] at h1; simp [added] at h1
        · exact h2
      obtain ⟨op, hop⟩ := hop
      obtain ⟨-, c, i, hg, -, -, hadd⟩ := reports_step hop h1 (.inl ⟨ng, rfl⟩)
      refine grow ?_ (fun d hc => by rw [hadd] at hc; simp at hc)
      have hk : n.m.kind a = .connected := by simp [Mgr.kind, hg, kindOf]
      have g := (clean_inv r).good a
      rw [hk] at g
      exact (open_iff _ _).2 g.2.2.2

end Verif.Peer

namespace Verif.Machine
open Verif.Addr (Sock Ip NetAddr Known Source has sadd)
open Verif.Chain (Header)
open Verif.Peer (Link Disc Cand)

variable {cfg : Cfg} {U : Header → Prop} {fail : Bool} {z : Setup} {is : List Input} {h : Node.Hist} {e : Env} {s s' : State}

theorem run_next {i : Input} (inj : Function.Injective cfg.id) (r : Run cfg U fail anyStep z is h s) (l : Legal U fail e i) (hs : s.step cfg e i = .ok s') :
    ∃ is h, Run cfg U fail anyStep z is h s' := by
  cases hj : nodeInput cfg s i with
  | none => exact ⟨_, _, .silent e r l hs hj⟩
  | some j =>
    obtain ⟨hp, rp⟩ := run_peer r
    obtain ⟨lp, rg⟩ := run_ping r
    obtain ⟨-, d, hd, -⟩ := agrees_step inj (run_agrees inj r) rp rg l hs
    exact ⟨_, _, .step e r l hs hj hd trivial⟩

theorem sys_start {y : Sys} (hy : Sys.Start cfg U fail z y) : ∃ is h, Run cfg U fail anyStep z is h y.s := by
  cases hy with
  | mk f c now e ea fa nd hm l hs => exact ⟨_, _, .start f c now e ea fa nd hm l hs rfl trivial⟩

theorem sys_step {y y' : Sys} (inj : Function.Injective cfg.id) (r : ∃ is h, Run cfg U fail anyStep z is h y.s) (hy : Sys.Step cfg U fail y y') :
    ∃ is h, Run cfg U fail anyStep z is h y'.s := by
  obtain ⟨is, h, r⟩ := r
  cases hy with
  | input e p hi l hs => exact run_next inj r l hs
  | timer e p q l hs => exact run_next inj r l hs
  | accept e p f u l hs => exact run_next inj r l hs
  | writable e p d l hs => exact run_next inj r l hs
  | closed e p hr l hs => exact run_next inj r l hs
  | process p => exact ⟨_, _, r⟩
  | poll p q => exact ⟨_, _, r⟩
  | dialed e e' p ho hd l hs l' hs' => obtain ⟨_, _, r⟩ := run_next inj r l hs; exact run_next inj r l' hs'
  | failed e e' p ho hd l hs l' hs' => obtain ⟨_, _, r⟩ := run_next inj r l hs; exact run_next inj r l' hs'
  | disconnect e e' p ho hc hr l hs l' hs' => obtain ⟨_, _, r⟩ := run_next inj r l hs; exact run_next inj r l' hs'
  | ignored e p ho hc hr l hs => exact run_next inj r l hs
  | other e p ho hd hc l hs => exact run_next inj r l hs

/-- The state machine in an execution with the reactor is in an execution of its own. -/
theorem sys_run {y : Sys} (inj : Function.Injective cfg.id) (r : Sys.Reach cfg U fail z y) : ∃ is h, Run cfg U fail anyStep z is h y.s := by
  induction r with
  | start hy => exact sys_start hy
  | step _ hy ih => exact sys_step inj ih hy

theorem Sys.Clean.reach {y : Sys} (r : Sys.Clean cfg U fail z y) : Sys.Reach cfg U fail z y := by
  induction r with
  | start hy => exact .start hy
  | step _ hy _ ih => exact .step ih hy

/-- What the reactor is for the peer manager. -/
def Sys.net (y : Sys) : Peer.Net := { m := y.s.peer, reg := y.reg, dialing := y.dialing, pos := y.s.takenPeer, polling := y.polling }

theorem head_none (hq : s.head = none) : s.qPeer = [] := by
  unfold State.head at hq
  cases hp : s.qPeer with
  | nil => rfl
  | cons o q => simp [hp] at hq

/-- What taking an output is for the peer manager. -/
inductive Taken (cfg : Cfg) (s : State) (o : Out) (s1 : State) : Prop where
  | own (po : Peer.Out) (q : List Peer.Out) (ho : o = .peer po) (hq : s.qPeer = po :: q) (hp : s1.peer = s.peer) (ht : s1.takenPeer = s.takenPeer + 1)
  | quiet (ho : ∀ po, o ≠ .peer po) (hp : s1.peer = s.peer) (ht : s1.takenPeer = s.takenPeer)
  | told (op : Peer.Op) (ho : ∀ po, o ≠ .peer po) (hc : o.closes cfg = none) (hi : op.isInput = true) (htm : op.isTimer = false)
      (hp : s.peer.step cfg.peer op = .ok s1.peer) (ht : s1.takenPeer = s.takenPeer)

theorem next_taken {o : Out} {s1 : State} (ho : s.head = some o) (hs : s.step cfg e .next = .ok s1) : Taken cfg s o s1 := by
  have ef := step_effect hs
  cases hq : s.qPeer with
  | cons po q =>
    have hpi : peerInput cfg e s .next = none := by simp [peerInput, nodeTurn, hq]
    have hp : s1.peer = s.peer := by have := ef.peer; simp only [hpi] at this; exact this
    have hh : o = .peer po := by simp only [State.head, hq, Option.some.injEq] at ho; exact ho.symm
    exact .own po q hh hq hp (by rw [ef.taken]; simp [takes, hq])
  | nil =>
    have ht : s1.takenPeer = s.takenPeer := by rw [ef.taken]; simp [takes, hq]
    have hno : ∀ po, o ≠ .peer po := by
      rintro po rfl
      simp only [State.head, hq] at ho
      split at ho
      · cases hn : nodeHead s.node <;> simp [hn] at ho
      · split at ho
        · simp at ho
        · split at ho
          · simp at ho
          · cases hn : nodeHead s.node <;> simp [hn] at ho
    cases hpi : peerInput cfg e s .next with
    | none => have := ef.peer; simp only [hpi] at this; exact .quiet hno this ht
    | some op =>
      have := ef.peer
      simp only [hpi] at this
      obtain ⟨src, hx⟩ := this
      -- the output is the node's
      simp only [peerInput] at hpi
      cases hn : nodeTurn s with
      | none => simp [hn] at hpi
      | some no =>
        simp only [hn, Option.bind_some, Option.map_eq_some_iff] at hpi
        obtain ⟨op', hco, rfl⟩ := hpi
        have hno' : o = .node no := by
          simp only [nodeTurn, hq] at hn
          split at hn
          · cases hn
          · rename_i hnn
            simp only [State.head, hq, hn, Option.map_some] at ho
            split at ho
            · simpa using ho.symm
            · rename_i hnn'
              have h1 : s.node.qSync = [] := by by_contra hc; exact hnn' (.inl hc)
              have h2 : s.node.qInv = [] := by by_contra hc; exact hnn' (.inr hc)
              have h3 : s.qPing = [] := by by_contra hc; exact hnn ⟨h1, h2, .inl hc⟩
              have h4 : s.qAddr = [] := by by_contra hc; exact hnn ⟨h1, h2, .inr hc⟩
              simp only [h3, h4] at ho
              simpa using ho.symm
        subst hno'
        have k : (Out.node no).closes cfg = none ∧ op'.isInput = true ∧ op'.isTimer = false := by
          unfold complaint at hco
          split at hco <;> simp only [Option.some.injEq, reduceCtorEq] at hco <;> subst hco <;> exact ⟨rfl, rfl, rfl⟩
        exact .told op' hno k.1 k.2.1 k.2.2 hx ht

theorem plain_peer {i : Input} {op : List Cand → Peer.Op} (hi : i.isPlain = true) (ho : peerInput cfg e s i = some op) (src : List Cand) :
    (op src).isInput = true ∧ (op src).isTimer = false := by
  cases i with
  | message a ok msg =>
    cases ok with
    | false =>
      simp only [peerInput, Option.some.injEq] at ho
      subst ho
      exact ⟨rfl, rfl⟩
    | true =>
      simp only [peerInput] at ho
      split at ho
      · simp only [Option.map_eq_some_iff] at ho
        obtain ⟨m, -, rfl⟩ := ho
        exact ⟨rfl, rfl⟩
      · cases ho
  | attempted a => simp [Input.isPlain] at hi
  | connected a b c => simp [Input.isPlain] at hi
  | disconnected a b => simp [Input.isPlain] at hi
  | timer => simp [Input.isPlain] at hi
  | next => simp [Input.isPlain] at hi
  | _ =>
    simp only [peerInput, Option.some.injEq, reduceCtorEq] at ho
    try (subst ho; exact ⟨rfl, rfl⟩)

/-- A step of the reactor is at most one step of the reactor with the peer manager only. -/
theorem sys_net_step {y y' : Sys} (hy : Sys.Step cfg U fail y y') : y'.net = y.net ∨ Peer.Net.Step cfg.peer y.net y'.net := by
  cases hy with
  | @input s' i e p hi l hs =>
    have ef := step_effect hs
    have ht : s'.takenPeer = y.s.takenPeer := by
      rw [ef.taken]
      cases i <;> first | rfl | simp [Input.isPlain] at hi
    have hp := ef.peer
    cases ho : peerInput cfg e y.s i with
    | none => simp only [ho] at hp; exact .inl (by simp [Sys.net, hp, ht])
    | some op =>
      simp only [ho] at hp
      obtain ⟨src, hx⟩ := hp
      obtain ⟨k1, k2⟩ := plain_peer hi ho src
      have x := Peer.Net.Step.input (n := y.net) k1 k2 hx
      refine .inr ?_
      simp only [Sys.net, ht] at x ⊢
      exact x
  | @timer s' e p q l hs =>
    have ef := step_effect hs
    have ht : s'.takenPeer = y.s.takenPeer := by rw [ef.taken]; rfl
    have hp := ef.peer
    simp only [peerInput] at hp
    obtain ⟨src, hx⟩ := hp
    have x := Peer.Net.Step.timer (n := y.net) p (head_none q) l.ord hx
    refine .inr ?_
    simp only [Sys.net, ht] at x ⊢
    exact x
  | @accept s' a loc e p f u l hs =>
    have ef := step_effect hs
    have ht : s'.takenPeer = y.s.takenPeer := by rw [ef.taken]; rfl
    have hp := ef.peer
    simp only [peerInput] at hp
    obtain ⟨src, hx⟩ := hp
    have x := Peer.Net.Step.accept (n := y.net) p f u hx
    refine .inr ?_
    simp only [Sys.net, ht] at x ⊢
    exact x
  | @writable s' a loc e p d l hs =>
    have ef := step_effect hs
    have ht : s'.takenPeer = y.s.takenPeer := by rw [ef.taken]; rfl
    have hp := ef.peer
    simp only [peerInput] at hp
    obtain ⟨src, hx⟩ := hp
    have x := Peer.Net.Step.writable (n := y.net) p d hx
    refine .inr ?_
    simp only [Sys.net, ht] at x ⊢
    exact x
  | @closed s' a d e p r l hs =>
    have ef := step_effect hs
    have ht : s'.takenPeer = y.s.takenPeer := by rw [ef.taken]; rfl
    have hp := ef.peer
    simp only [peerInput] at hp
    obtain ⟨src, hx⟩ := hp
    have x := Peer.Net.Step.closed (n := y.net) r hx
    refine .inr ?_
    simp only [Sys.net, Sys.unregister, ht] at x ⊢
    exact x
  | process p => exact .inr (.process p)
  | poll p q => exact .inr (.poll p (head_none q))
  | @dialed s1 s' a o e e' p ho hd l hs l' hs' =>
    have ef := step_effect hs'
    have ht : s'.takenPeer = s1.takenPeer := by rw [ef.taken]; rfl
    have hp := ef.peer
    simp only [peerInput] at hp
    obtain ⟨-, hx⟩ := hp
    cases next_taken ho hs with
    | own po q hpo hq hp1 ht1 =>
      subst hpo
      have : po = .connect a := by cases po <;> simp_all [Out.dials]
      subst this
      rw [hp1] at hx
      have x := Peer.Net.Step.dialed (n := y.net) p hq hx
      refine .inr ?_
      simp only [Sys.net, ht, ht1, Peer.Net.register] at x ⊢
      exact x
    | quiet hno hp1 ht1 => cases o <;> simp_all [Out.dials]
    | told op hno hc hi htm hp1 ht1 => cases o <;> simp_all [Out.dials]
  | @failed s1 s' a o e e' p ho hd l hs l' hs' =>
    have ef := step_effect hs'
    have ht : s'.takenPeer = s1.takenPeer := by rw [ef.taken]; rfl
    have hp := ef.peer
    simp only [peerInput] at hp
    obtain ⟨src, hx⟩ := hp
    cases next_taken ho hs with
    | own po q hpo hq hp1 ht1 =>
      subst hpo
      have : po = .connect a := by cases po <;> simp_all [Out.dials]
      subst this
      rw [hp1] at hx
      have x := Peer.Net.Step.failed (n := y.net) p hq hx
      refine .inr ?_
      simp only [Sys.net, ht, ht1] at x ⊢
      exact x
    | quiet hno hp1 ht1 => cases o <;> simp_all [Out.dials]
    | told op hno hc hi htm hp1 ht1 => cases o <;> simp_all [Out.dials]
  | @disconnect s1 s' a r o e e' p ho hc hr l hs l' hs' =>
    have ef := step_effect hs'
    have ht : s'.takenPeer = s1.takenPeer := by rw [ef.taken]; rfl
    have hp := ef.peer
    simp only [peerInput] at hp
    obtain ⟨src, hx⟩ := hp
    cases next_taken ho hs with
    | own po q hpo hq hp1 ht1 =>
      subst hpo
      have : po = .disconnect a r := by cases po <;> simp_all [Out.closes]
      subst this
      rw [hp1] at hx
      have x := Peer.Net.Step.disconnect (n := y.net) p hq hr hx
      refine .inr ?_
      simp only [Sys.net, Sys.unregister, ht, ht1, Peer.Net.unregister, Peer.Net.next] at x ⊢
      exact x
    | quiet hno hp1 ht1 =>
      rw [hp1] at hx
      have x := Peer.Net.Step.closed (n := y.net) hr hx
      refine .inr ?_
      simp only [Sys.net, Sys.unregister, ht, ht1, Peer.Net.unregister] at x ⊢
      exact x
    | told op hno hc' hi htm hp1 ht1 => rw [hc] at hc'; cases hc'
  | @ignored s' a r o e p ho hc hr l hs =>
    cases next_taken ho hs with
    | own po q hpo hq hp1 ht1 =>
      subst hpo
      have : po = .disconnect a r := by cases po <;> simp_all [Out.closes]
      subst this
      have x := Peer.Net.Step.ignored (cfg := cfg.peer) (n := y.net) p hq hr
      refine .inr ?_
      simp only [Sys.net, ht1, hp1, Peer.Net.next] at x ⊢
      exact x
    | quiet hno hp1 ht1 => exact .inl (by simp [Sys.net, hp1, ht1])
    | told op hno hc' hi htm hp1 ht1 => rw [hc] at hc'; cases hc'
  | @other s' o e p ho hd hc l hs =>
    cases next_taken ho hs with
    | own po q hpo hq hp1 ht1 =>
      subst hpo
      have : po.isOther = true := by cases po <;> simp_all [Out.closes, Out.dials, Peer.Out.isOther]
      have x := Peer.Net.Step.other (cfg := cfg.peer) (n := y.net) p hq this
      refine .inr ?_
      simp only [Sys.net, ht1, hp1, Peer.Net.next] at x ⊢
      exact x
    | quiet hno hp1 ht1 => exact .inl (by simp [Sys.net, hp1, ht1])
    | told op hno hc' hi htm hp1 ht1 =>
      have x := Peer.Net.Step.input (n := y.net) hi htm hp1
      refine .inr ?_
      simp only [Sys.net, ht1] at x ⊢
      exact x

theorem sys_net_start {y : Sys} (hy : Sys.Start cfg U fail z y) : Peer.Net.Clean cfg.peer z.trusted y.net := by
  cases hy with
  | @mk s m f c now e ea fa nd hm l hs =>
    obtain ⟨-, -, hp, -, ht⟩ := init_parts l hs
    obtain ⟨src, m1, h1, h2⟩ := hp
    have r0 : Peer.Net.Clean cfg.peer z.trusted (Peer.Net.new z.trusted) := .start
    have r1 := r0.step (.input (op := .tick now) rfl rfl h1) (fun a _ => rfl)
    have r2 := r1.step (.input (op := .init src) rfl rfl h2) (fun a _ => rfl)
    have r3 := r2.step (.process rfl) (fun a _ => rfl)
    simp only [Sys.net, ht] at r3 ⊢
    exact r3

/-- What the reactor does is what it may do with the peer manager only. -/
theorem sys_net {y : Sys} (r : Sys.Clean cfg U fail z y) : Peer.Net.Clean cfg.peer z.trusted y.net := by
  induction r with
  | start hy => exact sys_net_start hy
  | step _ hy x ih =>
    rcases sys_net_step hy with h | h
    · rw [h]; exact ih
    · exact ih.step h x

end Verif.Machine
