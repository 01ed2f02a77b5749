import Verif.Machine.PropsAddrs
import Verif.Machine.Scenarios

/-!
# The whole state machine with an address book: concrete executions

Examples that the hypotheses of the theorems about addresses are met.
-/

set_option autoImplicit false

namespace Verif.Machine.Scenario.Book
open Verif.Addr (Sock Ip NetAddr Known Source has isRoutable isLocal addrKey)
open Verif.Chain (Header)
open Verif.Peer (Link Disc)
open Verif.Peer.Scenario (a b loc)
open Verif.Node.Crash (U fresh)
open Relation (ReflTransGen)

/-- Started with an address book with two addresses. -/
def setup : Setup := { tree := fresh, book := Addr.Scenario.book, trusted := [], pingTimeout := 30000 }

/-- At most two addresses are drawn at a time (none at the start). -/
def env : Env := { Scenario.env with draws := [(Addr.Scenario.env, fun _ => true), (Addr.Scenario.env, fun _ => true)] }

theorem legal {i : Input} (h : Input.ok i = true) : Legal U false env i := by
  obtain ⟨h1, h2, h3, h4, h5, h6, h7, -, h9⟩ := Scenario.legal h
  refine ⟨h1, h2, h3, h4, h5, h6, h7, ?_, h9⟩
  intro p hp
  simp only [env, List.mem_cons, List.not_mem_nil, or_false, or_self] at hp
  subst hp
  exact Addr.Scenario.fair

def begun : Option State :=
  match Addr.Mgr.new setup.book Addr.Scenario.env with
  | .ok m =>
    match (State.new (Node.Fsm.new setup.tree filters 100) m setup.trusted setup.pingTimeout).init conf Scenario.env 1700000000000 with
    | .ok s => some s
    | _ => none
  | _ => none

theorem begun_run {s : State} (h : begun = some s) : ∃ is hist, Run conf U false anyStep setup is hist s := by
  unfold begun at h
  cases hm : Addr.Mgr.new setup.book Addr.Scenario.env with
  | ok m =>
    simp only [hm] at h
    cases hs : (State.new (Node.Fsm.new setup.tree filters 100) m setup.trusted setup.pingTimeout).init conf Scenario.env 1700000000000 with
    | ok x =>
      simp only [hs, Option.some.injEq] at h
      subst h
      exact ⟨_, _, .start filters 100 1700000000000 Scenario.env Addr.Scenario.env Addr.Scenario.fair (by decide) hm (Scenario.legal rfl) hs rfl trivial⟩
    | err x => simp [hs] at h
    | panic => simp [hs] at h
  | err x => simp [hm] at h
  | panic => simp [hm] at h

/-- A step of the state machine. -/
def take (s : State) (i : Input) : Option State :=
  if Input.ok i then
    match s.step conf env i with
    | .ok s' => some s'
    | _ => none
  else none

theorem take_ok {s s' : State} {i : Input} (h : take s i = some s') : Legal U false env i ∧ s.step conf env i = .ok s' := by
  unfold take at h
  split at h
  · rename_i ho
    refine ⟨legal ho, ?_⟩
    cases hs : s.step conf env i with
    | ok x => simp only [hs, Option.some.injEq] at h; rw [h]
    | err x => simp [hs] at h
    | panic => simp [hs] at h
  · cases h

def goes : List Input → State → Option State
  | [], s => some s
  | i :: l, s => (take s i).bind (goes l)

theorem goes_path : ∀ {l : List Input} {s s' : State}, goes l s = some s' → ReflTransGen (Next conf U false) s s'
  | [], s, s', h => by simp only [goes, Option.some.injEq] at h; rw [← h]
  | i :: l, s, s', h => by
    obtain ⟨s1, h1, h2⟩ := Option.bind_eq_some_iff.1 h
    exact .head ⟨env, i, take_ok h1⟩ (goes_path h2)

/-- After the start and some inputs. -/
def after (l : List Input) : Option State := begun.bind (goes l)

theorem after_run {l : List Input} {s : State} (h : after l = some s) : ∃ is hist, Run conf U false anyStep setup is hist s := by
  obtain ⟨s0, h1, h2⟩ := Option.bind_eq_some_iff.1 h
  obtain ⟨is, hist, r⟩ := begun_run h1
  exact next_run number_injective r (goes_path h2)

/-- The addresses dialed so far. -/
def dialed (s : State) : List Sock := s.peer.out.filterMap fun o => match o with | .connect c => some c | _ => none

/-- All reports about connections are about `c`. -/
def about (c : Sock) (l : List Peer.Out) : Bool :=
  l.all fun o => match o with | .evConnected d _ _ => d == c | .evDisconnected d _ => d == c | _ => true

theorem about_one {c : Sock} {l : List Peer.Out} (h : about c l = true) : OneIp l := by
  have hc : ∀ d loc link, .evConnected d loc link ∈ l → d = c := fun d loc link hm => by
    have := List.all_eq_true.1 h _ hm
    simpa using this
  have hd : ∀ d r, .evDisconnected d r ∈ l → d = c := fun d r hm => by
    have := List.all_eq_true.1 h _ hm
    simpa using this
  rintro l1 o l2 rfl x hx y ⟨k1, loc, link, k2, rfl, -⟩ -
  have hy := hc y loc link (by simp)
  rcases hx with ⟨loc', link', rfl⟩ | ⟨r, rfl⟩
  · rw [hy, hc x loc' link' (by simp)]
  · rw [hy, hd x r (by simp)]

/-- The last report about a connection says that `c` is connected. -/
def linked (c : Sock) (l : List Peer.Out) : Bool :=
  l.foldl (fun v o => match o with | .evConnected d _ _ => v || d == c | .evDisconnected _ _ => false | _ => v) false

theorem linked_open {c : Sock} {l : List Peer.Out} (h : linked c l = true) : Peer.Open c l ∧ LinkedIp c.ip l := by
  suffices hs : ∃ l1 loc link l2, l = l1 ++ .evConnected c loc link :: l2 ∧ ∀ d r, .evDisconnected d r ∉ l2 by
    obtain ⟨l1, loc, link, l2, rfl, hn⟩ := hs
    exact ⟨⟨l1, loc, link, l2, rfl, fun r hm => hn c r hm⟩, ⟨l1, c, loc, link, l2, rfl, rfl, fun d r hm => absurd hm (hn d r)⟩⟩
  induction l using List.reverseRecOn with
  | nil => simp [linked] at h
  | append_singleton l o ih =>
    have keep : linked c l = true → (∀ d r, o ≠ .evDisconnected d r) → ∃ l1 loc link l2, l ++ [o] = l1 ++ .evConnected c loc link :: l2 ∧ ∀ d r, .evDisconnected d r ∉ l2 := by
      intro hl ho
      obtain ⟨l1, loc, link, l2, rfl, hn⟩ := ih hl
      refine ⟨l1, loc, link, l2 ++ [o], by simp, fun d r hm => ?_⟩
      rcases List.mem_append.1 hm with hm | hm
      · exact hn d r hm
      · exact ho d r (List.mem_singleton.1 hm).symm
    have hf : (match o with | .evConnected d _ _ => linked c l || d == c | .evDisconnected _ _ => false | _ => linked c l) = true := by
      unfold linked at h ⊢
      rw [List.foldl_append] at h
      exact h
    cases o with
    | evConnected d loc link =>
      simp only [Bool.or_eq_true, beq_iff_eq] at hf
      rcases hf with hf | rfl
      · exact keep hf (by simp)
      · exact ⟨l, loc, link, [], rfl, by simp⟩
    | evDisconnected d r => simp at hf
    | _ => exact keep hf (by simp)

/-- The user asks for a connection; it is established; an hour passes. -/
def linkUp : List Input := List.replicate 20 .next ++ .connect a :: List.replicate 20 .next ++
  [.attempted a, .connected a loc .outbound, .message a true (.version version), .message a true .verack] ++ List.replicate 20 .next ++ [.tick 1700003700000]

theorem linkUp_timer : ((after linkUp).bind fun s => (take s .timer).map fun s' =>
    (about a s.taken && linked a s.taken, decide (.connect b ∈ Peer.added s.peer s'.peer))) = some (true, true) := by decide +kernel

/-- The hypotheses of C115 are met: a connection is open; a timer goes off, and another address is drawn from the book and dialed. -/
example : ∃ is hist s s', Run conf U false anyStep setup is hist s ∧ Legal U false env .timer ∧ s.step conf env .timer = .ok s' ∧ Addr.Sound setup.book ∧ OneIp s.taken ∧
    Peer.Open a s.taken ∧ .connect b ∈ Peer.added s.peer s'.peer ∧ b ∉ conf.peer.persistent := by
  obtain ⟨s, h1, h2⟩ := Option.bind_eq_some_iff.1 linkUp_timer
  obtain ⟨s', h3, h4⟩ := Option.map_eq_some_iff.1 h2
  simp only [Prod.mk.injEq, decide_eq_true_eq, Bool.and_eq_true] at h4
  obtain ⟨is, hist, r⟩ := after_run h1
  exact ⟨is, hist, s, s', r, (take_ok h3).1, (take_ok h3).2, Addr.Scenario.book_sound, about_one h4.1.1, (linked_open h4.1.2).1, h4.2, by decide⟩

/-- Addresses are drawn at the start. -/
def eager : Option State :=
  match Addr.Mgr.new setup.book Addr.Scenario.env with
  | .ok m =>
    match (State.new (Node.Fsm.new setup.tree filters 100) m setup.trusted setup.pingTimeout).init conf env 1700000000000 with
    | .ok s => some s
    | _ => none
  | _ => none

theorem eager_dials : eager.map dialed = some [b, a] := by decide +kernel

/-- The hypotheses of C115 for the start are met. -/
example : ∃ m s, Addr.Mgr.new setup.book Addr.Scenario.env = .ok m ∧ Legal U false env .timer ∧
    (State.new (Node.Fsm.new setup.tree filters 100) m setup.trusted setup.pingTimeout).init conf env 1700000000000 = .ok s ∧ .connect a ∈ s.peer.out := by
  obtain ⟨s, h, h2⟩ := Option.map_eq_some_iff.1 eager_dials
  unfold eager at h
  cases hm : Addr.Mgr.new setup.book Addr.Scenario.env with
  | ok m =>
    simp only [hm] at h
    cases hs : (State.new (Node.Fsm.new setup.tree filters 100) m setup.trusted setup.pingTimeout).init conf env 1700000000000 with
    | ok x =>
      simp only [hs, Option.some.injEq] at h
      subst h
      refine ⟨m, x, rfl, legal rfl, hs, ?_⟩
      have : a ∈ dialed x := by rw [h2]; simp
      obtain ⟨o, ho, hx⟩ := List.mem_filterMap.1 this
      cases o with
      | connect c => simp only [Option.some.injEq] at hx; subst hx; exact ho
      | _ => simp at hx
    | err x => simp [hs] at h
    | panic => simp [hs] at h
  | err x => simp [hm] at h
  | panic => simp [hm] at h

/-- An hour later, no address is left. -/
def spent : List Input := linkUp ++ .timer :: List.replicate 20 .next ++ [.tick 1700007700000]

theorem spent_timer : ((after spent).bind fun s => (take s .timer).map fun s' =>
    (about a s.taken && linked a s.taken, decide (.getAddr a ∈ s'.addr.out.drop s.addr.out.length))) = some (true, true) := by decide +kernel

/-- The hypotheses of C68 are met: the peer is asked for addresses. -/
example : ∃ is hist s s', Run conf U false anyStep setup is hist s ∧ s.step conf env .timer = .ok s' ∧ OneIp s.taken ∧ Peer.Open a s.taken ∧
    .getAddr a ∈ s'.addr.out.drop s.addr.out.length := by
  obtain ⟨s, h1, h2⟩ := Option.bind_eq_some_iff.1 spent_timer
  obtain ⟨s', h3, h4⟩ := Option.map_eq_some_iff.1 h2
  simp only [Prod.mk.injEq, decide_eq_true_eq, Bool.and_eq_true] at h4
  obtain ⟨is, hist, r⟩ := after_run h1
  exact ⟨is, hist, s, s', r, (take_ok h3).2, about_one h4.1.1, (linked_open h4.1.2).1, h4.2⟩

/-- The peer sends a message with the wrong magic number, and is disconnected for that. -/
def strayed : List Input := linkUp ++ .timer :: List.replicate 20 .next ++ [.message a false .verack, .next, .disconnected a (.machine .magic)]

/-- An hour later a timer goes off, and the user asks for the peer. -/
def later : List Input := [.next, .next, .tick 1700007700000, .timer]

theorem strayed_dial : ((after strayed).bind fun s => (take s .next).bind fun s' => (goes later s').bind fun s1 => (take s1 (.connect a)).map fun s2 =>
    (decide (s.qPeer = [.evDisconnected a (.machine .magic)]), linked a s.taken, (s.addr.peers.get a.ip).isSome,
      decide (.connect a ∈ Peer.added s1.peer s2.peer))) = some (true, true, true, true) := by decide +kernel

/-- The hypotheses of C116 are met: the peer is banned; it is dialed again because the user asks for it. -/
example : ∃ is hist s s' s1 s2, Run conf U false anyStep setup is hist s ∧ s.qPeer = [.evDisconnected a (.machine .magic)] ∧ Lasting (.machine .magic) ∧
    LinkedIp a.ip s.taken ∧ isRoutable a.ip = true ∧ isLocal a.ip = false ∧ (s.addr.peers.get a.ip).isSome ∧ Legal U false env .next ∧ s.step conf env .next = .ok s' ∧
    ReflTransGen (Next conf U false) s' s1 ∧ Legal U false env (.connect a) ∧ s1.step conf env (.connect a) = .ok s2 ∧ .connect a ∈ Peer.added s1.peer s2.peer := by
  obtain ⟨s, h1, h2⟩ := Option.bind_eq_some_iff.1 strayed_dial
  obtain ⟨s', h3, h4⟩ := Option.bind_eq_some_iff.1 h2
  obtain ⟨s1, h5, h6⟩ := Option.bind_eq_some_iff.1 h4
  obtain ⟨s2, h7, h8⟩ := Option.map_eq_some_iff.1 h6
  simp only [Prod.mk.injEq, decide_eq_true_eq] at h8
  obtain ⟨is, hist, r⟩ := after_run h1
  exact ⟨is, hist, s, s', s1, s2, r, h8.1, trivial, (linked_open h8.2.1).2, by decide, by decide, h8.2.2.1, (take_ok h3).1, (take_ok h3).2, goes_path h5, (take_ok h7).1, (take_ok h7).2,
    h8.2.2.2⟩

end Verif.Machine.Scenario.Book
