import Verif.Machine.Props
import Verif.Machine.PropsOutputs
import Verif.Node.Crashes
import Verif.Peer.Scenarios
import Verif.Addr.Scenarios
import Mathlib.Data.Nat.Pairing

/-!
# The whole state machine: concrete executions

Examples that the hypotheses of the theorems are met, and a counterexample to the property that does not hold in full.
-/

set_option autoImplicit false

namespace Verif.Machine.Scenario
open Verif.Addr (Sock Ip NetAddr Known Source has sadd)
open Verif.Chain (Header)
open Verif.Peer (Link Disc)
open Verif.Peer.Scenario (a b loc ver)
open Verif.Node.Crash (U fresh)

/-- Different addresses have different numbers. -/
def code : Ip → Nat
  | .v4 a b c d => 2 * Nat.pair a (Nat.pair b (Nat.pair c d))
  | .v6 a b c => 2 * Nat.pair a (Nat.pair b c) + 1

def number (x : Sock) : Nat := Nat.pair (code x.ip) x.port

/-- The address with a number. -/
def decode (n : Nat) : Ip :=
  let k := n / 2
  let p := k.unpair
  let q := p.2.unpair
  if n % 2 = 0 then .v4 p.1 q.1 q.2.unpair.1 q.2.unpair.2 else .v6 p.1 q.1 q.2

def denumber (n : Nat) : Sock := ⟨decode n.unpair.1, n.unpair.2⟩

theorem decode_code (x : Ip) : decode (code x) = x := by
  cases x with
  | v4 a b c d => simp [decode, code]
  | v6 a b c =>
    have h1 : (2 * Nat.pair a (Nat.pair b c) + 1) / 2 = Nat.pair a (Nat.pair b c) := by omega
    have h2 : (2 * Nat.pair a (Nat.pair b c) + 1) % 2 ≠ 0 := by omega
    simp only [decode, code, h1, h2, if_false, Nat.unpair_pair]

theorem denumber_number (x : Sock) : denumber (number x) = x := by
  simp [denumber, number, decode_code]

theorem number_injective : Function.Injective number := fun x y h => by
  rw [← denumber_number x, h, denumber_number]

def conf : Cfg :=
  { node := Node.Crash.conf, peer := { Peer.Scenario.cfg with dbg := false }, addr := Addr.Scenario.cfg, id := number, sock := denumber }

def setup : Setup := { tree := fresh, book := [], trusted := [], pingTimeout := 30000 }

/-- The first is always chosen; no addresses are drawn. -/
def env : Env :=
  { node := Node.Scenario.env 0, pingNonce := fun _ => 7, pingOrder := id, addr := Addr.Scenario.env, saved := true, draws := [], ord := id, nonce := 1,
    hook := true }

theorem cbf_fair : (Node.Scenario.env 0).cbf.Fair :=
  ⟨fun _ m x h => List.mem_of_mem_head? h, fun _ m h => by cases m with | nil => exact absurd rfl h | cons x m => rfl, fun _ => List.Perm.refl _, fun _ => List.Perm.refl _⟩

/-- No headers are presented, except known ones that the store can keep. -/
def Input.ok : Input → Bool
  | .message _ _ (.headers hs) => hs.isEmpty
  | .importHeaders hs => hs.isEmpty
  | _ => true

theorem legal {i : Input} (h : Input.ok i = true) : Legal U false env i := by
  refine ⟨Sync.Scenario.env_legal, Inv.Scenario.env_legal, cbf_fair, ?_, ?_, fun _ => List.Perm.refl _, Addr.Scenario.fair, by simp [env], fun _ => List.Perm.refl _⟩
  · rintro a ok hs rfl p hp
    simp only [Input.ok, List.isEmpty_iff] at h
    subst h; simp at hp
  · rintro hs rfl p hp
    simp only [Input.ok, List.isEmpty_iff] at h
    subst h; simp at hp

/-! ## The reactor -/

/-- What the reactor can do, without the results. -/
inductive Act where
  | input (i : Input)
  | timer
  | accept (a : Sock)
  | writable (a : Sock)
  | closed (a : Sock)
  | process
  | poll
  /-- Process one output, if any; connections can be opened. -/
  | out
  /-- A peer sends headers. -/
  | heads (a : Sock) (l : List Header)

/-- A step of the state machine. -/
def take (s : State) (i : Input) : Option State :=
  if Input.ok i then
    match s.step conf env i with
    | .ok s' => some s'
    | _ => none
  else none

theorem take_ok {s s' : State} {i : Input} (h : take s i = some s') : Legal U false env i ∧ s.step conf env i = .ok s' := by
  unfold take at h
  split at h
  · rename_i ho
    refine ⟨legal ho, ?_⟩
    cases hs : s.step conf env i with
    | ok x => simp only [hs, Option.some.injEq] at h; rw [h]
    | err x => simp [hs] at h
    | panic => simp [hs] at h
  · cases h

def message (l : List Header) : Msg := .headers (l.map fun x => (x, Chain.Scenario.e))

def takeHeads (s : State) (a : Sock) (l : List Header) : Option State :=
  if l.all (fun x => decide (U x)) then
    match s.step conf env (.message a true (message l)) with
    | .ok s' => some s'
    | _ => none
  else none

theorem takeHeads_ok {s s' : State} {a : Sock} {l : List Header} (h : takeHeads s a l = some s') :
    Legal U false env (.message a true (message l)) ∧ s.step conf env (.message a true (message l)) = .ok s' := by
  unfold takeHeads at h
  split at h
  · rename_i ho
    refine ⟨⟨Sync.Scenario.env_legal, Inv.Scenario.env_legal, cbf_fair, ?_, fun _ hc => (by cases hc), fun _ => List.Perm.refl _, Addr.Scenario.fair, by simp [env],
      fun _ => List.Perm.refl _⟩, ?_⟩
    · intro b ok hs he p hp
      cases he
      obtain ⟨x, hx, rfl⟩ := List.mem_map.1 hp
      exact ⟨by simpa using List.all_eq_true.1 ho x hx, Chain.Scenario.eOk false⟩
    · cases hs : s.step conf env (.message a true (message l)) with
      | ok x => simp only [hs, Option.some.injEq] at h; rw [h]
      | err x => simp [hs] at h
      | panic => simp [hs] at h
  · cases h

/-- Do it, if possible. -/
def act (y : Sys) : Act → Option Sys
  | .input i => if y.polling && i.isPlain then (take y.s i).map (fun s' => { y with s := s' }) else none
  | .timer => if y.polling && decide (y.s.head = none) then (take y.s .timer).map (fun s' => { y with s := s', polling := false }) else none
  | .accept a =>
    if y.polling && !y.reg.contains a && decide (.connect a ∉ y.s.qPeer) then
      (take y.s (.connected a loc .inbound)).map (fun s' => { y with s := s', reg := y.reg.insert a .inbound })
    else none
  | .writable a =>
    if y.polling && decide (a ∈ y.dialing) then
      (take y.s (.connected a loc .outbound)).map (fun s' => { y with s := s', dialing := y.dialing.filter (· ≠ a) })
    else none
  | .closed a =>
    if y.polling && y.reg.contains a then (take y.s (.disconnected a .connection)).map (fun s' => y.unregister a s') else none
  | .process => if y.polling then some { y with polling := false } else none
  | .poll => if !y.polling && decide (y.s.head = none) then some { y with polling := true } else none
  | .out =>
    if y.polling then none
    else
      match y.s.head with
      | none => some y
      | some o =>
        (take y.s .next).bind fun s1 =>
          match o.dials with
          | some a => (take s1 (.attempted a)).map (fun s' => { y with s := s', reg := y.reg.insert a .outbound, dialing := sadd y.dialing a })
          | none =>
            match o.closes conf with
            | some (a, r) =>
              if y.reg.contains a then (take s1 (.disconnected a (.machine r))).map (fun s' => y.unregister a s')
              else some { y with s := s1 }
            | none => some { y with s := s1 }
  | .heads a l => if y.polling then (takeHeads y.s a l).map (fun s' => { y with s := s' }) else none

theorem act_step {y y' : Sys} {x : Act} (h : act y x = some y') : y' = y ∨ Sys.Step conf U false y y' := by
  cases x with
  | heads a l =>
    simp only [act] at h
    split at h
    · rename_i hc
      obtain ⟨s', h1, rfl⟩ := Option.map_eq_some_iff.1 h
      obtain ⟨l, hs⟩ := takeHeads_ok h1
      exact .inr (.input env hc rfl l hs)
    · cases h
  | input i =>
    simp only [act] at h
    split at h
    · rename_i hc
      simp only [Bool.and_eq_true] at hc
      obtain ⟨s', h1, rfl⟩ := Option.map_eq_some_iff.1 h
      obtain ⟨l, hs⟩ := take_ok h1
      exact .inr (.input env hc.1 hc.2 l hs)
    · cases h
  | timer =>
    simp only [act] at h
    split at h
    · rename_i hc
      simp only [Bool.and_eq_true, decide_eq_true_eq] at hc
      obtain ⟨s', h1, rfl⟩ := Option.map_eq_some_iff.1 h
      obtain ⟨l, hs⟩ := take_ok h1
      exact .inr (.timer env hc.1 hc.2 l hs)
    · cases h
  | accept a =>
    simp only [act] at h
    split at h
    · rename_i hc
      simp only [Bool.and_eq_true, Bool.not_eq_true', decide_eq_true_eq] at hc
      obtain ⟨s', h1, rfl⟩ := Option.map_eq_some_iff.1 h
      obtain ⟨l, hs⟩ := take_ok h1
      exact .inr (.accept env hc.1.1 hc.1.2 hc.2 l hs)
    · cases h
  | writable a =>
    simp only [act] at h
    split at h
    · rename_i hc
      simp only [Bool.and_eq_true, decide_eq_true_eq] at hc
      obtain ⟨s', h1, rfl⟩ := Option.map_eq_some_iff.1 h
      obtain ⟨l, hs⟩ := take_ok h1
      exact .inr (.writable env hc.1 hc.2 l hs)
    · cases h
  | closed a =>
    simp only [act] at h
    split at h
    · rename_i hc
      simp only [Bool.and_eq_true] at hc
      obtain ⟨s', h1, rfl⟩ := Option.map_eq_some_iff.1 h
      obtain ⟨l, hs⟩ := take_ok h1
      exact .inr (.closed env hc.1 hc.2 l hs)
    · cases h
  | process =>
    simp only [act] at h
    split at h
    · rename_i hc
      simp only [Option.some.injEq] at h; rw [← h]; exact .inr (.process hc)
    · cases h
  | poll =>
    simp only [act] at h
    split at h
    · rename_i hc
      simp only [Bool.and_eq_true, Bool.not_eq_true', decide_eq_true_eq] at hc
      simp only [Option.some.injEq] at h; rw [← h]; exact .inr (.poll hc.1 hc.2)
    · cases h
  | out =>
    simp only [act] at h
    split at h
    · cases h
    rename_i hp
    simp only [Bool.not_eq_true] at hp
    cases ho : y.s.head with
    | none => simp only [ho, Option.some.injEq] at h; exact .inl h.symm
    | some o =>
      simp only [ho] at h
      obtain ⟨s1, h1, h⟩ := Option.bind_eq_some_iff.1 h
      obtain ⟨l, hs⟩ := take_ok h1
      cases hd : o.dials with
      | some a =>
        simp only [hd] at h
        obtain ⟨s', h2, rfl⟩ := Option.map_eq_some_iff.1 h
        obtain ⟨l', hs'⟩ := take_ok h2
        exact .inr (.dialed env env hp ho hd l hs l' hs')
      | none =>
        simp only [hd] at h
        cases hc : o.closes conf with
        | none => simp only [hc, Option.some.injEq] at h; rw [← h]; exact .inr (.other env hp ho hd hc l hs)
        | some ar =>
          obtain ⟨a, r⟩ := ar
          simp only [hc] at h
          split at h
          · rename_i hr
            obtain ⟨s', h2, rfl⟩ := Option.map_eq_some_iff.1 h
            obtain ⟨l', hs'⟩ := take_ok h2
            exact .inr (.disconnect env env hp ho hc hr l hs l' hs')
          · rename_i hr
            simp only [Option.some.injEq] at h; rw [← h]; exact .inr (.ignored env hp ho hc (by simpa using hr) l hs)

/-- Whether no connection is asked for with an address whose socket is open. -/
def cleanB (y y' : Sys) : Bool :=
  (Peer.added y.s.peer y'.s.peer).all (fun o => match o with | .connect a => !y'.reg.contains a | _ => true)

theorem cleanB_iff {y y' : Sys} (h : cleanB y y' = true) : Sys.NoRedial y y' := by
  intro a ha
  have := List.all_eq_true.1 h _ ha
  simpa using this

/-- Do a list of things. -/
def acts (clean : Bool) (y : Sys) : List Act → Option Sys
  | [] => some y
  | x :: l =>
    match act y x with
    | some y' => if clean && !cleanB y y' then none else acts clean y' l
    | none => none

theorem acts_reach {z : Setup} {clean : Bool} : ∀ (l : List Act) (y y' : Sys), Sys.Reach conf U false z y → acts clean y l = some y' → Sys.Reach conf U false z y'
  | [], y, y', r, h => by simp only [acts, Option.some.injEq] at h; rw [← h]; exact r
  | x :: l, y, y', r, h => by
    simp only [acts] at h
    cases ha : act y x with
    | none => simp [ha] at h
    | some y1 =>
      simp only [ha] at h
      split at h
      · cases h
      · rcases act_step ha with rfl | hs
        · exact acts_reach l _ y' r h
        · exact acts_reach l _ y' (.step r hs) h

theorem acts_clean {z : Setup} : ∀ (l : List Act) (y y' : Sys), Sys.Clean conf U false z y → acts true y l = some y' → Sys.Clean conf U false z y'
  | [], y, y', r, h => by simp only [acts, Option.some.injEq] at h; rw [← h]; exact r
  | x :: l, y, y', r, h => by
    simp only [acts] at h
    cases ha : act y x with
    | none => simp [ha] at h
    | some y1 =>
      simp only [ha] at h
      split at h
      · cases h
      · rename_i hc
        simp only [Bool.true_and, Bool.not_eq_true', Bool.not_eq_false] at hc
        rcases act_step ha with rfl | hs
        · exact acts_clean l _ y' r h
        · exact acts_clean l _ y' (.step r hs (cleanB_iff hc)) h

/-! ## The executions -/

def filters : Cbf.FilterHeaders := ⟨(5, 6), [], [(5, 6)]⟩

/-- The empty address book. -/
def book : Addr.Mgr :=
  { peers := [], bans := [], ranges := [], connected := [], sources := [], locals := [], lastRequest := none, lastIdle := none, out := [] }

/-- Created, and initialized after a while. -/
def begun : Option State :=
  match (State.new (Node.Fsm.new setup.tree filters 100) book setup.trusted setup.pingTimeout).init conf env 1700000000000 with
  | .ok s => some s
  | _ => none

def first (s : State) : Sys := { s := s, reg := [], dialing := [], polling := false }

theorem begins {s : State} (h : begun = some s) : Sys.Start conf U false setup (first s) := by
  unfold begun at h
  cases hs : (State.new (Node.Fsm.new setup.tree filters 100) book setup.trusted setup.pingTimeout).init conf env 1700000000000 with
  | ok x =>
    simp only [hs, Option.some.injEq] at h
    subst h
    exact .mk filters 100 1700000000000 env Addr.Scenario.env Addr.Scenario.fair List.nodup_nil (by rfl) (legal rfl) hs
  | err x => simp [hs] at h
  | panic => simp [hs] at h

/-- The state after the start and a list of things. -/
def after (clean : Bool) (l : List Act) : Option Sys := begun.bind (fun s => acts clean (first s) l)

theorem after_reach {l : List Act} {y : Sys} (h : after false l = some y) : Sys.Reach conf U false setup y := by
  obtain ⟨s, h1, h2⟩ := Option.bind_eq_some_iff.1 h
  exact acts_reach l _ y (.start (begins h1)) h2

theorem after_clean {l : List Act} {y : Sys} (h : after true l = some y) : Sys.Clean conf U false setup y := by
  obtain ⟨s, h1, h2⟩ := Option.bind_eq_some_iff.1 h
  exact acts_clean l _ y (.start (begins h1)) h2

/-- Process all outputs (at most thirty here), and poll. -/
def round : List Act := .process :: List.replicate 30 .out ++ [.poll]

/-- We connect to a peer that serves blocks and filters, and exchange versions with it. -/
def version : Peer.Version := { ver 33 3 with services := 73 }

def meet : List Act :=
  List.replicate 30 .out ++ [.poll, .input (.connect a)] ++ round ++
  [.writable a, .input (.message a true (.version version)), .input (.message a true .verack)] ++ round

/-- What is seen of a state: whether the sync manager, the ping manager and the filter manager know the peer, whether it has a socket, whether that is being dialed, whether anything is to be
processed. -/
def seen (y : Sys) : Bool × Bool × Bool × Bool × Bool × Bool :=
  ((y.s.node.sync.peers.get (number a)).isSome, (y.s.ping.peers.get (number a)).isSome, y.s.node.cbf.peers.keys.contains (number a), y.reg.contains a,
    y.dialing.contains a, y.s.head.isNone)

theorem met : (after true meet).map seen = some (true, true, true, true, false, true) := by decide +kernel

/-- The hypotheses of C109 and C111 are met, and the peer is known to all managers. -/
theorem met_state : ∃ y, Sys.Clean conf U false setup y ∧ seen y = (true, true, true, true, false, true) := by
  obtain ⟨y, h1, h2⟩ := Option.map_eq_some_iff.1 met
  exact ⟨y, after_clean h1, h2⟩

example : ∃ y, Sys.Clean conf U false setup y ∧ y.s.Knows (number a) ∧ y.s.qPeer = [] ∧ Met a SyncPeer y.s.taken ∧
    (∃ c, number c = number a ∧ y.reg.contains c = true ∧ c ∉ y.dialing) := by
  obtain ⟨y, r, h⟩ := met_state
  simp only [seen, Prod.mk.injEq] at h
  have hk : y.s.node.sync.peers.get (number a) ≠ none := by rw [← Option.isSome_iff_ne_none]; exact h.1
  have hq : y.s.qPeer = [] := head_none (by simpa using h.2.2.2.2.2)
  obtain ⟨is, hist, rr⟩ := C108_reactor number_injective r.reach
  exact ⟨y, r, .inl hk, hq, (C109_exact number_injective rr a).1.1 hk, C111_settled_partial number_injective r hq (.inl hk)⟩

/-- The requests put out: for headers, and for filter headers. -/
def asked (s : State) : List Nat :=
  s.node.log.filterMap fun o => match o with | .sync (.getHeaders a _) => some a | _ => none

/-- An hour passes; then a timer goes off, and headers are asked for (C110). -/
def meeting : List Act := meet ++ [.input (.tick 1700003600000)]

theorem meeting_asks : ((after true meeting).bind fun y => (take y.s .timer).map fun s' => (asked y.s, asked s')) = some ([], [number a]) := by decide +kernel

example : ∃ (y : Sys) (s' : State), Sys.Reach conf U false setup y ∧ y.s.step conf env .timer = .ok s' ∧ asked y.s = [] ∧ asked s' = [number a] ∧ Met a SyncPeer s'.taken := by
  obtain ⟨y, h1, h2⟩ := Option.bind_eq_some_iff.1 meeting_asks
  obtain ⟨s', h3, h4⟩ := Option.map_eq_some_iff.1 h2
  simp only [Prod.mk.injEq] at h4
  obtain ⟨l, hs⟩ := take_ok h3
  have r := (after_clean h1).reach
  obtain ⟨is, h, rr⟩ := C108_reactor number_injective r
  obtain ⟨outs, ho, hx⟩ := C110_requests number_injective rr l hs
  refine ⟨y, s', r, hs, h4.1, h4.2, ?_⟩
  have hm : number a ∈ asked s' := by rw [h4.2]; simp
  obtain ⟨o, hm1, hm2⟩ := List.mem_filterMap.1 hm
  rw [ho] at hm1
  rcases List.mem_append.1 hm1 with hm1 | hm1
  · have : number a ∈ asked y.s := List.mem_filterMap.2 ⟨o, hm1, hm2⟩
    rw [h4.1] at this
    simp at this
  · have := hx o hm1
    split at hm2
    · simp only [Option.some.injEq] at hm2
      subst hm2
      obtain ⟨c, hc, hc'⟩ := this
      rw [← number_injective hc]; exact hc'
    · cases hm2

/-! ## No crash -/

/-- Inputs one after the other, with what the node was told and put out; none of them is a block, and the chain does not become shorter. -/
def goes : List Input → Node.Hist → State → Option (Node.Hist × State)
  | [], h, s => some (h, s)
  | i :: l, h, s =>
    match take s i with
    | none => none
    | some s' =>
      match nodeInput conf s i with
      | none => goes l h s'
      | some (.block _) => none
      | some j =>
        let outs := s'.node.log.drop s.node.log.length
        if s'.node.log = s.node.log ++ outs ∧ s.node.tree.height ≤ s'.node.tree.height then goes l ((j, outs) :: h) s' else none

/-- What C112 is about, and that no blocks were received. -/
structure Fine (h : Node.Hist) (s : State) : Prop where
  run : ∃ is, Run conf U false anyStep setup is h s
  steady : Node.Steady conf.node U false setup.tree h s.node
  none : ∀ b, ¬ Node.Sent b h

theorem goes_fine : ∀ {l : List Input} {h h' : Node.Hist} {s s' : State}, Fine h s → goes l h s = some (h', s') → Fine h' s'
  | [], h, h', s, s', f, hg => by
    simp only [goes, Option.some.injEq, Prod.mk.injEq] at hg
    obtain ⟨rfl, rfl⟩ := hg
    exact f
  | i :: l, h, h', s, s', f, hg => by
    simp only [goes] at hg
    cases ht : take s i with
    | none => simp [ht] at hg
    | some s1 =>
      simp only [ht] at hg
      obtain ⟨lg, hs⟩ := take_ok ht
      obtain ⟨is, r⟩ := f.run
      have he := (step_effect hs).node
      cases hj : nodeInput conf s i with
      | none =>
        simp only [hj] at hg he
        exact goes_fine ⟨⟨_, .silent env r lg hs hj⟩, by rw [he]; exact f.steady, f.none⟩ hg
      | some j =>
        simp only [hj] at hg he
        by_cases hb : ∃ b, j = .block b
        · obtain ⟨b, rfl⟩ := hb; simp at hg
        · split at hg
          · simp at *
          · rename_i hk; cases hk; exact absurd ⟨_, rfl⟩ hb
          · rename_i j' _ hk
            simp only [Option.some.injEq] at hk
            subst hk
            split at hg
            · rename_i hc
              refine goes_fine ⟨⟨_, .step env r lg hs hj hc.1 trivial⟩, .step _ f.steady (node_legal lg (nodeInput_batch lg hj)) rfl he hc.1 hc.2, ?_⟩ hg
              rintro b ⟨o, hm⟩
              rcases List.mem_cons.1 hm with hm | hm
              · exact hb ⟨b, (Prod.mk.inj hm).1.symm⟩
              · exact f.none b ⟨o, hm⟩
            · cases hg

theorem begun_height : begun.all (fun s => decide (fresh.height ≤ s.node.tree.height)) = true := by decide +kernel

theorem begun_fine {s : State} (h : begun = some s) : Fine [(.init, s.node.log)] s := by
  have hh := begun_height
  rw [h] at hh
  unfold begun at h
  cases hs : (State.new (Node.Fsm.new setup.tree filters 100) book setup.trusted setup.pingTimeout).init conf env 1700000000000 with
  | ok x =>
    simp only [hs, Option.some.injEq] at h
    subst h
    have l : Legal U false env .timer := legal rfl
    refine ⟨⟨_, .start filters 100 1700000000000 env Addr.Scenario.env Addr.Scenario.fair List.nodup_nil (by rfl) l hs rfl trivial⟩, ?_, ?_⟩
    · refine .step (env.at 1700000000000) (.start filters 100 rfl (by decide)) (node_legal l (by intro p hp; simp [Node.Input.batch] at hp)) rfl (init_parts l hs).1 ?_ ?_
      · simp [Node.Fsm.new]
      · have : fresh.height ≤ x.node.tree.height := by simpa using hh
        exact this
    · rintro b ⟨o, hm⟩
      simp at hm
  | err x => simp [hs] at h
  | panic => simp [hs] at h

/-- We connect to a peer, it sends its version and our version is acknowledged; then its outputs are taken until the event that the handshake is complete. -/
def talk : List Input :=
  List.replicate 12 .next ++ [.connect a] ++ List.replicate 2 .next ++ [.attempted a, .connected a loc .outbound, .message a true (.version version), .message a true .verack] ++
    List.replicate 7 .next

def told : Option (Node.Hist × State) := begun.bind fun s => goes talk [(.init, s.node.log)] s

/-- What is seen: whether the handshake is to be reported next, and whether the heights are small. -/
theorem told_next : told.map (fun x => ((match x.2.qPeer with | .evNegotiated _ _ :: _ => true | _ => false), decide (x.2.node.tree.height + 1 < 2 ^ 64))) =
    some (true, true) := by decide +kernel

/-- The managers are told about the peer, and nothing panics (C112). -/
example : ∃ (h : Node.Hist) (s : State) (c : Sock) (n : Peer.Negotiated), Fine h s ∧ s.qPeer.head? = some (.evNegotiated c n) ∧ ∃ s', s.step conf env .next = .ok s' := by
  obtain ⟨⟨h, s⟩, h1, h2⟩ := Option.map_eq_some_iff.1 told_next
  obtain ⟨s0, h3, h4⟩ := Option.bind_eq_some_iff.1 h1
  have f := goes_fine (begun_fine h3) h4
  obtain ⟨is, r⟩ := f.run
  simp only [Prod.mk.injEq, decide_eq_true_eq] at h2
  cases hq : s.qPeer with
  | nil => simp [hq] at h2
  | cons o q =>
    cases o with
    | evNegotiated c n =>
      refine ⟨h, s, c, n, f, by rw [hq]; rfl, C112_no_crash_partial ⟨rfl, by decide⟩ rfl rfl Node.Crash.ctx Node.Crash.collisionFree r f.steady (legal rfl) rfl h2.2 ?_⟩
      intro j hj
      simp only [nodeInput, hq, Option.some.injEq] at hj
      subst hj
      refine ⟨?_, ⟨[], by simp, ?_⟩, trivial⟩
      · show (Chain.importBlocks _ s.node.tree []).1.height < 2 ^ 64
        have : (Chain.importBlocks conf.node.sync.chain s.node.tree []).1 = s.node.tree := by rfl
        rw [this]; omega
      · rintro b (hb | hb)
        · exact absurd hb (f.none b)
        · cases hb
    | _ => simp [hq] at h2

/-! ## A peer that is forgotten by the peer manager only -/

/-- The user disconnects the peer and connects to it again, at once; then the new connection fails. -/
def again : List Act := meet ++ [.input (.disconnect a), .input (.connect a)] ++ round ++ [.closed a] ++ round

theorem again_seen : (after false again).map seen = some (true, true, true, false, false, true) := by decide +kernel

/-- **C111**, why the condition is needed: if the user disconnects a peer and connects to it again before the outputs are processed, the end of the first connection is never reported.  If the second cannot be
established, all managers keep the peer for good, and go on sending requests to it. -/
theorem C111_redial : ∃ y, Sys.Reach conf U false setup y ∧ y.s.node.sync.peers.get (number a) ≠ none ∧ y.s.ping.peers.get (number a) ≠ none ∧
    number a ∈ y.s.node.cbf.peers.keys ∧ y.reg.contains a = false ∧ y.s.head = none := by
  obtain ⟨y, h1, h2⟩ := Option.map_eq_some_iff.1 again_seen
  simp only [seen, Prod.mk.injEq] at h2
  refine ⟨y, after_reach h1, ?_, ?_, ?_, h2.2.2.2.1, ?_⟩
  · rw [← Option.isSome_iff_ne_none]; exact h2.1
  · rw [← Option.isSome_iff_ne_none]; exact h2.2.1
  · simpa using h2.2.2.1
  · simpa using h2.2.2.2.2.2

/-! ## Filter headers from a stranger -/

/-- The peer announces a block, and is asked for the filter header of that block; a stranger connects to us. -/
def forge : List Act := meet ++ [.heads a [Chain.Scenario.a1]] ++ round ++ [.accept b]

/-- Filter headers up to the new block: one, made from a filter with that hash. -/
def headers (hash : Nat) : Msg := .cfheaders ⟨0, 11, 6, [hash]⟩

/-- Whether a handshake with the peer was ever reported. -/
def greeted (y : Sys) (c : Sock) : Bool := y.s.peer.out.any fun o => match o with | .evNegotiated d _ => d == c | _ => false

theorem greeted_iff {y : Sys} {c : Sock} (h : greeted y c = false) (n : Peer.Negotiated) : .evNegotiated c n ∉ y.s.peer.out := by
  intro hm
  have := List.any_eq_false.1 h _ hm
  simp at this

/-- Whom filter headers were asked from. -/
def askedFilters (s : State) : List Nat := s.node.log.filterMap fun o => match o with | .cbf (.getCFHeaders c _ _) => some c | _ => none

theorem forge_taken : ((after true forge).bind fun y => (take y.s (.message b true (headers 66))).map fun s' =>
    (greeted y b, askedFilters y.s, y.s.node.cbf.filters.all.map (·.1), s'.node.cbf.filters.all.map (·.1))) = some (false, [number a], [5], [5, 66]) := by decide +kernel

/-- **C66**, why not more can be said: filter headers are taken from a party that was not asked for any, and with which there was no handshake. -/
theorem C66_stranger : ∃ (y : Sys) (s' : State), Sys.Clean conf U false setup y ∧ (∀ n, .evNegotiated b n ∉ y.s.peer.out) ∧
    (∀ c start stop, .cbf (.getCFHeaders c start stop) ∈ y.s.node.log → c = conf.id a) ∧ conf.id a ≠ conf.id b ∧
    y.s.step conf env (.message b true (headers 66)) = .ok s' ∧ y.s.node.cbf.filters.all.map (·.1) = [5] ∧ s'.node.cbf.filters.all.map (·.1) = [5, 66] := by
  obtain ⟨y, h1, h2⟩ := Option.bind_eq_some_iff.1 forge_taken
  obtain ⟨s', h3, h4⟩ := Option.map_eq_some_iff.1 h2
  simp only [Prod.mk.injEq] at h4
  refine ⟨y, s', after_clean h1, greeted_iff h4.1, fun c start stop hm => ?_, fun h => ?_, (take_ok h3).2, h4.2.2⟩
  · have : c ∈ askedFilters y.s := List.mem_filterMap.2 ⟨_, hm, rfl⟩
    rw [h4.2.1] at this
    exact List.mem_singleton.1 this
  · have h : number a = number b := h
    exact absurd (number_injective h) (by decide)

/-- The filter header made from a filter with that hash arrives from `c`; the user looks for something, and the filter is asked for.  The first peer sends a filter with hash 1. -/
def blame (c : Sock) (hash : Nat) : List Act := forge ++ [.input (.message c true (headers hash))] ++ round ++
  [.input (.rescan (.included 1) .unbounded [2])] ++ round ++ [.input (.message a true (.cfilter 0 11 [1]))]

def blamed (c : Sock) (hash : Nat) : List Act := blame c hash ++ round

/-- Whether we disconnected the first peer for misbehaving, whether it is connected, whether the stranger is. -/
def verdict (y : Sys) : Bool × Bool × Bool × Bool := (decide (.disconnect a .misbehaving ∈ y.s.peer.out), y.reg.contains a, y.reg.contains b, greeted y b)

theorem blamed_verdict : (after true (blamed b 66)).map verdict = some (true, false, true, false) ∧ (after true (blamed a 1)).map verdict = some (false, true, true, false) := by
  decide +kernel

/-- **C66**, what follows: had the peer's own filter header been taken, its filter would have been accepted, and it would still be connected.  But a stranger forged the filter header: the peer is disconnected for
misbehaving, and the stranger stays. -/
theorem C66_blamed : (∃ y, after true (blamed a 1) = some y ∧ Sys.Clean conf U false setup y ∧ .disconnect a .misbehaving ∉ y.s.peer.out ∧ y.reg.contains a = true) ∧
    ∃ y, after true (blamed b 66) = some y ∧ Sys.Clean conf U false setup y ∧ .disconnect a .misbehaving ∈ y.s.peer.out ∧ y.reg.contains a = false ∧ y.reg.contains b = true ∧
      ∀ n, .evNegotiated b n ∉ y.s.peer.out := by
  constructor
  · obtain ⟨y, h1, h2⟩ := Option.map_eq_some_iff.1 blamed_verdict.2
    simp only [verdict, Prod.mk.injEq, decide_eq_false_iff_not] at h2
    exact ⟨y, h1, after_clean h1, h2.1, h2.2.1⟩
  · obtain ⟨y, h1, h2⟩ := Option.map_eq_some_iff.1 blamed_verdict.1
    simp only [verdict, Prod.mk.injEq, decide_eq_true_eq] at h2
    exact ⟨y, h1, after_clean h1, h2.1, h2.2.1, h2.2.2.1, greeted_iff h2.2.2.2⟩

/-! ## Closing connections -/

theorem acts_path : ∀ {l : List Act} {y y' : Sys}, acts true y l = some y' → Relation.ReflTransGen (CleanStep conf U false) y y'
  | [], y, y', h => by simp only [acts, Option.some.injEq] at h; rw [← h]
  | x :: l, y, y', h => by
    simp only [acts] at h
    cases ha : act y x with
    | none => simp [ha] at h
    | some y1 =>
      simp only [ha] at h
      split at h
      · cases h
      · rename_i hc
        simp only [Bool.true_and, Bool.not_eq_true', Bool.not_eq_false] at hc
        rcases act_step ha with rfl | hs
        · exact acts_path h
        · exact .head ⟨hs, cleanB_iff hc⟩ (acts_path h)

theorem blame_waits : ((after true (blame b 66)).bind fun y => (acts true y round).map fun y2 =>
    (decide (.cbf (.event (.peerMisbehaved (number a))) ∈ y.s.node.qCbf), y.reg.contains a && !y.dialing.contains a, y2.s.head.isNone, y2.reg.contains a)) =
    some (true, true, true, false) := by decide +kernel

/-- The hypotheses of C114 are met: a report waits, while the connection is established; then all outputs are processed. -/
example : ∃ y y2 o, Sys.Clean conf U false setup y ∧ Reports conf a o ∧ y.s.Waits (.node o) ∧ (y.reg.contains a = true ∧ a ∉ y.dialing) ∧
    Relation.ReflTransGen (CleanStep conf U false) y y2 ∧ y2.s.head = none ∧ y2.reg.contains a = false := by
  obtain ⟨y, h1, h2⟩ := Option.bind_eq_some_iff.1 blame_waits
  obtain ⟨y2, h3, h4⟩ := Option.map_eq_some_iff.1 h2
  simp only [Prod.mk.injEq, decide_eq_true_eq, Bool.and_eq_true, Bool.not_eq_true', Option.isNone_iff_eq_none] at h4
  exact ⟨y, y2, _, after_clean h1, .inr (.inl rfl), h4.1, ⟨h4.2.1.1, by simpa using h4.2.1.2⟩, acts_path h3, h4.2.2.1, h4.2.2.2⟩

/-- The peer is pinged after the handshake; a minute passes without an answer, and a timer goes off. -/
def silent : List Act := meet ++ [.input (.tick 1700000060000)]

theorem silent_closed : ((after true silent).bind fun y => (act y .timer).bind fun y1 => (acts true y1 (List.replicate 30 .out)).map fun y2 =>
    (y.polling && y.s.head.isNone, y.s.ping.peers.get (number a) == some ⟨.awaitingPong 7 1700000000000, []⟩ && decide (setup.pingTimeout ≤ y.s.now - 1700000000000), y.reg.contains a, y2.s.head.isNone, y2.reg.contains a)) =
    some (true, true, true, true, false) := by decide +kernel

/-- The hypotheses of C114 for pings are met. -/
example : ∃ y s' y2 lp n t, Sys.Reach conf U false setup y ∧ Ping.Run setup.pingTimeout lp y.s.ping ∧ Ping.outstanding (conf.id a) lp = some (n, t) ∧
    setup.pingTimeout ≤ y.s.now - t ∧ y.polling = true ∧ y.s.head = none ∧ y.s.step conf env .timer = .ok s' ∧ y.reg.contains a = true ∧
    Relation.ReflTransGen (CleanStep conf U false) { y with s := s', polling := false } y2 ∧ y2.s.head = none ∧ y2.reg.contains a = false := by
  obtain ⟨y, h1, h2⟩ := Option.bind_eq_some_iff.1 silent_closed
  obtain ⟨y1, h3, h4⟩ := Option.bind_eq_some_iff.1 h2
  obtain ⟨y2, h5, h6⟩ := Option.map_eq_some_iff.1 h4
  simp only [Prod.mk.injEq, Bool.and_eq_true, Option.isNone_iff_eq_none, beq_iff_eq, decide_eq_true_eq] at h6
  obtain ⟨⟨p, q⟩, ⟨hg, late⟩, hr, hd, hc⟩ := h6
  simp only [act, p, q, decide_true, Bool.and_self, if_true] at h3
  obtain ⟨s', h7, rfl⟩ := Option.map_eq_some_iff.1 h3
  have r := (after_clean h1).reach
  obtain ⟨is, h, rr⟩ := C108_reactor number_injective r
  obtain ⟨lp, rg⟩ := run_ping rr
  have hx := rg.inv.peers (conf.id a)
  refine ⟨y, s', y2, lp, 7, 1700000000000, r, rg, ?_, late, p, q, (take_ok h7).2, hr, acts_path h5, hd, hc⟩
  rw [show conf.id a = number a from rfl, hg] at hx
  unfold Ping.expected at hx
  split at hx
  · cases ho : Ping.outstanding (number a) lp with
    | none => simp [ho] at hx
    | some v =>
      simp only [ho, Option.some.injEq, Ping.Peer.mk.injEq, Ping.State.awaitingPong.injEq] at hx
      exact ho.trans (by rw [hx.1.1, hx.1.2])
  · cases hx

theorem silent_asks : ((after true (silent ++ [.timer])).bind fun y => (acts true y (List.replicate 30 .out)).map fun y2 =>
    (decide (.disconnect (number a) ∈ y.s.qPing), y.reg.contains a, y2.s.head.isNone, y2.reg.contains a)) = some (true, true, true, false) := by decide +kernel

/-- The hypotheses of C114 for requests to close a connection are met: one waits; then all outputs are processed. -/
example : ∃ y y2 o, Sys.Clean conf U false setup y ∧ AsksToClose conf a o ∧ y.s.Waits o ∧ y.reg.contains a = true ∧
    Relation.ReflTransGen (CleanStep conf U false) y y2 ∧ y2.s.head = none ∧ y2.reg.contains a = false := by
  obtain ⟨y, h1, h2⟩ := Option.bind_eq_some_iff.1 silent_asks
  obtain ⟨y2, h3, h4⟩ := Option.map_eq_some_iff.1 h2
  simp only [Prod.mk.injEq, decide_eq_true_eq, Option.isNone_iff_eq_none] at h4
  exact ⟨y, y2, _, after_clean h1, .inr (.inl rfl), h4.1, h4.2.1, acts_path h3, h4.2.2.1, h4.2.2.2⟩

end Verif.Machine.Scenario
