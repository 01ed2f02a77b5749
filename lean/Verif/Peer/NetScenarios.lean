import Verif.Peer.PropsNet
import Verif.Peer.PropsAccept
import Verif.Peer.Scenarios

/-!
# The peer manager with the reactor: concrete executions

Examples that the hypotheses of the theorems are met, and counterexamples to the properties that do not hold in full.
-/

set_option autoImplicit false

namespace Verif.Peer.NetScenario
open Verif.Addr (Sock Ip Domain NetAddr Source has isLocal domainOf sadd)
open Verif.Peer.Scenario (cfg a b loc cand ver)

/-- What the reactor can do, without the results. -/
inductive Act where
  | input (op : Op)
  | timer
  | accept (a : Sock)
  | writable (a : Sock)
  | closed (a : Sock)
  | process
  | poll
  /-- Process one output; connections can be opened. -/
  | out

/-- Do it, if possible. -/
def act (cfg : Config) (n : Net) : Act → Option Net
  | .input op =>
    if op.isInput && !op.isTimer then
      match n.m.step cfg op with
      | .ok m' => some { n with m := m' }
      | _ => none
    else none
  | .timer =>
    if n.polling && decide (n.queue = []) then
      match n.m.step cfg (.timer id []) with
      | .ok m' => some { n with m := m', polling := false }
      | _ => none
    else none
  | .accept a =>
    if n.polling && !n.reg.contains a && decide (.connect a ∉ n.queue) then
      match n.m.step cfg (.connected a loc .inbound 0 0) with
      | .ok m' => some (n.register a .inbound m')
      | _ => none
    else none
  | .writable a =>
    if n.polling && decide (a ∈ n.dialing) then
      match n.m.step cfg (.connected a loc .outbound 0 0) with
      | .ok m' => some { n with m := m', dialing := n.dialing.filter (· ≠ a) }
      | _ => none
    else none
  | .closed a =>
    if n.reg.contains a then
      match n.m.step cfg (.disconnected a .connection []) with
      | .ok m' => some (n.unregister a m')
      | _ => none
    else none
  | .process => if n.polling then some { n with polling := false } else none
  | .poll => if !n.polling && decide (n.queue = []) then some { n with polling := true } else none
  | .out =>
    if n.polling then none
    else
      match n.queue with
      | [] => none
      | .connect a :: _ =>
        match n.m.step cfg (.attempted a) with
        | .ok m' => some { n.register a .outbound m' with dialing := sadd n.dialing a, pos := n.pos + 1 }
        | _ => none
      | .disconnect a r :: _ =>
        if n.reg.contains a then
          match n.m.step cfg (.disconnected a (.machine r) []) with
          | .ok m' => some (n.unregister a m').next
          | _ => none
        else some n.next
      | _ :: _ => some n.next

theorem act_step {cfg : Config} {n n' : Net} {x : Act} (h : act cfg n x = some n') : Net.Step cfg n n' := by
  cases x with
  | input op =>
    simp only [act] at h
    split at h
    · rename_i hc
      simp only [Bool.and_eq_true, Bool.not_eq_true'] at hc
      cases hs : n.m.step cfg op with
      | ok m' => simp only [hs, Option.some.injEq] at h; rw [← h]; exact .input hc.1 hc.2 hs
      | err e => simp [hs] at h
      | panic => simp [hs] at h
    · simp at h
  | timer =>
    simp only [act] at h
    split at h
    · rename_i hc
      simp only [Bool.and_eq_true, decide_eq_true_eq] at hc
      cases hs : n.m.step cfg (.timer id []) with
      | ok m' => simp only [hs, Option.some.injEq] at h; rw [← h]; exact .timer hc.1 hc.2 (fun _ => List.Perm.refl _) hs
      | err e => simp [hs] at h
      | panic => simp [hs] at h
    · simp at h
  | accept a =>
    simp only [act] at h
    split at h
    · rename_i hc
      simp only [Bool.and_eq_true, Bool.not_eq_true', decide_eq_true_eq] at hc
      cases hs : n.m.step cfg (.connected a loc .inbound 0 0) with
      | ok m' => simp only [hs, Option.some.injEq] at h; rw [← h]; exact .accept hc.1.1 hc.1.2 hc.2 hs
      | err e => simp [hs] at h
      | panic => simp [hs] at h
    · simp at h
  | writable a =>
    simp only [act] at h
    split at h
    · rename_i hc
      simp only [Bool.and_eq_true, decide_eq_true_eq] at hc
      cases hs : n.m.step cfg (.connected a loc .outbound 0 0) with
      | ok m' => simp only [hs, Option.some.injEq] at h; rw [← h]; exact .writable hc.1 hc.2 hs
      | err e => simp [hs] at h
      | panic => simp [hs] at h
    · simp at h
  | closed a =>
    simp only [act] at h
    split at h
    · rename_i hc
      cases hs : n.m.step cfg (.disconnected a .connection []) with
      | ok m' => simp only [hs, Option.some.injEq] at h; rw [← h]; exact .closed hc hs
      | err e => simp [hs] at h
      | panic => simp [hs] at h
    · simp at h
  | process =>
    simp only [act] at h
    split at h
    · rename_i hc
      simp only [Option.some.injEq] at h; rw [← h]; exact .process hc
    · simp at h
  | poll =>
    simp only [act] at h
    split at h
    · rename_i hc
      simp only [Bool.and_eq_true, Bool.not_eq_true', decide_eq_true_eq] at hc
      simp only [Option.some.injEq] at h; rw [← h]; exact .poll hc.1 hc.2
    · simp at h
  | out =>
    simp only [act] at h
    split at h
    · simp at h
    rename_i hp
    simp only [Bool.not_eq_true] at hp
    cases hq : n.queue with
    | nil => simp [hq] at h
    | cons o q =>
      cases o with
      | connect a =>
        simp only [hq] at h
        cases hs : n.m.step cfg (.attempted a) with
        | ok m' => simp only [hs, Option.some.injEq] at h; rw [← h]; exact .dialed hp hq hs
        | err e => simp [hs] at h
        | panic => simp [hs] at h
      | disconnect a r =>
        simp only [hq] at h
        split at h
        · rename_i hc
          cases hs : n.m.step cfg (.disconnected a (.machine r) []) with
          | ok m' => simp only [hs, Option.some.injEq] at h; rw [← h]; exact .disconnect hp hq hc hs
          | err e => simp [hs] at h
          | panic => simp [hs] at h
        · rename_i hc
          simp only [Option.some.injEq] at h; rw [← h]; exact .ignored hp hq (by simpa using hc)
      | _ =>
        simp only [hq, Option.some.injEq] at h
        rw [← h]
        exact .other hp hq rfl

/-- Whether no connection is asked for with an address whose socket is open. -/
def cleanB (n n' : Net) : Bool :=
  (added n.m n'.m).all (fun o => match o with | .connect a => !n'.reg.contains a | _ => true)

theorem cleanB_iff {n n' : Net} (h : cleanB n n' = true) : NoRedial n n' := by
  intro a ha
  have := List.all_eq_true.1 h _ ha
  simpa using this

/-- Do a list of things. -/
def acts (cfg : Config) (clean : Bool) (n : Net) : List Act → Option Net
  | [] => some n
  | x :: l =>
    match act cfg n x with
    | some n' => if clean && !cleanB n n' then none else acts cfg clean n' l
    | none => none

theorem acts_reach {cfg : Config} {tr : List Ip} {clean : Bool} : ∀ (l : List Act) (n n' : Net), Net.Reach cfg tr n →
    acts cfg clean n l = some n' → Net.Reach cfg tr n'
  | [], n, n', r, h => by simp only [acts, Option.some.injEq] at h; rw [← h]; exact r
  | x :: l, n, n', r, h => by
    simp only [acts] at h
    cases ha : act cfg n x with
    | none => simp [ha] at h
    | some n1 =>
      simp only [ha] at h
      split at h
      · simp at h
      · exact acts_reach l n1 n' (.step r (act_step ha)) h

theorem acts_clean {cfg : Config} {tr : List Ip} : ∀ (l : List Act) (n n' : Net), Net.Clean cfg tr n →
    acts cfg true n l = some n' → Net.Clean cfg tr n'
  | [], n, n', r, h => by simp only [acts, Option.some.injEq] at h; rw [← h]; exact r
  | x :: l, n, n', r, h => by
    simp only [acts] at h
    cases ha : act cfg n x with
    | none => simp [ha] at h
    | some n1 =>
      simp only [ha] at h
      split at h
      · simp at h
      · rename_i hc
        exact acts_clean l n1 n' (.step r (act_step ha) (cleanB_iff (by simpa using hc))) h

/-- The state after a list of things. -/
def after (cfg : Config) (clean : Bool) (l : List Act) : Net := (acts cfg clean (Net.new []) l).getD (Net.new [])

theorem clean_after {cfg : Config} {l : List Act} (h : (acts cfg true (Net.new []) l).isSome = true) : Net.Clean cfg [] (after cfg true l) := by
  obtain ⟨n, e⟩ := Option.isSome_iff_exists.1 h
  unfold after; rw [e]
  exact acts_clean l _ _ .start e

theorem reach_after {cfg : Config} {l : List Act} (h : (acts cfg false (Net.new []) l).isSome = true) : Net.Reach cfg [] (after cfg false l) := by
  obtain ⟨n, e⟩ := Option.isSome_iff_exists.1 h
  unfold after; rw [e]
  exact acts_reach l _ _ .start e

/-- The user connects to `a`, the connection is established, and all outputs are processed. -/
def connectA : List Act :=
  [.input (.tick 1000), .input (.cmdConnect a), .process, .out, .out, .poll, .writable a, .process, .out, .out, .out, .poll]

/-- The hypotheses of `C46_listed_partial`, `C46_settled_partial` and `C71_open_partial` are met by an open connection. -/
example : Net.Clean cfg [] (after cfg true connectA) ∧ (after cfg true connectA).queue = [] ∧
    (after cfg true connectA).reg.contains a = true ∧ (after cfg true connectA).m.isConnected a = true ∧
    isOpen a (after cfg true connectA).m.out = true :=
  ⟨clean_after (by decide +kernel), by decide +kernel, by decide +kernel, by decide +kernel, by decide +kernel⟩

/-- The hypotheses of `C71_reported_partial` are met by its loss. -/
example : ∃ n', Net.Step cfg (after cfg true connectA) n' ∧ NoRedial (after cfg true connectA) n' ∧
    ((after cfg true connectA).reg.contains a = true ∧ a ∉ (after cfg true connectA).dialing) ∧ n'.reg.contains a = false := by
  have h : (act cfg (after cfg true connectA) (.closed a)).isSome = true := by decide +kernel
  obtain ⟨n', e⟩ := Option.isSome_iff_exists.1 h
  refine ⟨n', act_step e, ?_, ⟨by decide +kernel, by decide +kernel⟩, ?_⟩
  · apply cleanB_iff
    have : ((act cfg (after cfg true connectA) (.closed a)).map (cleanB (after cfg true connectA))) = some true := by decide +kernel
    rw [e] at this; simpa using this
  · have : ((act cfg (after cfg true connectA) (.closed a)).map (fun n => n.reg.contains a)) = some false := by decide +kernel
    rw [e] at this; simpa using this

/-- C71 does not hold for attempts that time out: the disconnection of a peer that never was connected is reported. -/
def slow : List Act :=
  [.input (.tick 1000), .input (.cmdConnect a), .process, .out, .out, .poll, .input (.tick 8000), .timer, .out, .out]

theorem C71_never_connected : Net.Clean cfg [] (after cfg true slow) ∧
    (∃ d, .evDisconnected a d ∈ (after cfg true slow).m.out) ∧ ∀ loc link, .evConnected a loc link ∉ (after cfg true slow).m.out := by
  refine ⟨clean_after (by decide +kernel), ⟨.machine (.timeout "connection"), by decide +kernel⟩, ?_⟩
  intro loc link h
  have hn : (after cfg true slow).m.out.all (fun o => match o with | .evConnected _ _ _ => false | _ => true) = true := by decide +kernel
  have := List.all_eq_true.1 hn _ h
  simp at this

/-- In a release build. -/
def rcfg : Config := { cfg with dbg := false }

/-- The user disconnects `a` and connects to it again before the outputs are processed. -/
def redial : List Act := connectA ++ [.input (.cmdDisconnect a), .input (.cmdConnect a), .process]

/-- C46 and C71 do not hold if a connection is asked for while the old one is being closed: the end of the old connection is not
reported, and the new one has a socket although the peer is not listed. -/
theorem C71_redial_lost : ∃ n, Net.Reach rcfg [] n ∧ n.queue = [.timer connectionTimeout] ∧ n.reg.contains a = true ∧
    n.m.peers.contains a = false ∧ ∀ d, .evDisconnected a d ∉ n.m.out := by
  refine ⟨after rcfg false (redial ++ [.out, .out]), reach_after (by decide +kernel), by decide +kernel, by decide +kernel,
    by decide +kernel, ?_⟩
  intro d h
  have hn : (after rcfg false (redial ++ [.out, .out])).m.out.all
      (fun o => match o with | .evDisconnected _ _ => false | _ => true) = true := by decide +kernel
  have := List.all_eq_true.1 hn _ h
  simp at this

/-- In a debug build, an assertion fails. -/
theorem C71_redial_panics : ∃ n q, Net.Reach cfg [] n ∧ n.queue = .connect a :: q ∧ n.m.step cfg (.attempted a) = .panic := by
  refine ⟨after cfg false (redial ++ [.out]), [.timer connectionTimeout], reach_after (by decide +kernel), by decide +kernel, ?_⟩
  have h : (after cfg false (redial ++ [.out])).m.isConnecting a = false ∧ (after cfg false (redial ++ [.out])).m.isInbound a = false := by
    decide +kernel
  simp only [Mgr.step, Mgr.peerAttempted, h.1, h.2]
  rfl

/-! ### C73 -/

/-- The hypotheses of `C73_accepted` are met by the first version message of a new outbound peer. -/
example : ∃ (h : List Op) (m : Mgr), Run cfg [] h m ∧ m.isConnected a = true ∧ Session cfg [] a h .outbound none ∧
    Valid cfg [] h a .outbound (ver 7 0) 0 true ∧
    (∀ b c i, m.peers.get b = some (.connected c (some i)) → c.link = .outbound → i.nonce ≠ (ver 7 0).nonce) ∧
    (ver 7 0).services &&& cfg.preferred = cfg.preferred ∧
    -(2 ^ 63 : Int) ≤ (ver 7 0).timestamp - ((m.now / 1000 % 2 ^ 32 : Nat) : Int) := by
  refine ⟨_, _, Scenario.run (cfg := cfg) (ops := [.cmdConnect a, .connected a loc .outbound 0 7]) (Scenario.legal_of rfl)
    (by decide +kernel), by decide +kernel, .connected, ⟨by decide, rfl, fun _ _ => by decide, fun _ _ => by decide⟩, ?_, by decide,
    by decide +kernel⟩
  intro b c i hg hl
  have hall : (Scenario.after cfg [.cmdConnect a, .connected a loc .outbound 0 7]).peers.all
      (fun p => match p.2 with | .connected _ (some _) => false | _ => true) = true := by decide +kernel
  have := List.all_eq_true.1 hall _ (AMap.mem_of_get hg)
  simp at this

end Verif.Peer.NetScenario
