import Verif.Sync.Props

/-!
# Header synchronization: concrete histories

Examples that the hypotheses of the theorems are met, and counterexamples to the properties that do not hold in full.
-/

set_option autoImplicit false

namespace Verif.Sync.Scenario
open Verif.Chain (Header State Err ImportResult)
open Verif.Chain.Scenario (a1 a2 a3 b1 b2 b3 b4 g e mk)

/-- Hash maps are visited in the order of insertion, the first peer is chosen. -/
def env : Env := ⟨id, id, fun _ l => l.head?⟩

theorem env_legal : env.Legal :=
  ⟨fun _ => .rfl, fun _ => .rfl, fun _ _ _ h => List.mem_of_head? h, fun _ l h => by
    cases l with
    | nil => exact absurd rfl h
    | cons a l => exact ⟨a, rfl⟩⟩

/-- The toy configuration of the tree; requests time out after thirty seconds, at most three headers are served. -/
def conf (checked : Bool) : Cfg := ⟨{ Chain.Scenario.cfg with checked := checked }, 3, 30000⟩

/-- A header with a time before that of its parent. -/
def bad : Header := mk 14 11 50 10

/-- The headers presented. -/
def known : List Header := [a1, a2, a3, b1, b2, b3, b4, bad]

def U (x : Header) : Prop := x ∈ known

instance (x : Header) : Decidable (U x) := inferInstanceAs (Decidable (x ∈ known))

theorem acyclic (c : Bool) : Chain.Acyclic (conf c).chain U := ⟨id, fun x h => by
  have : ∀ x ∈ known, x.prev < x.nonce := by decide
  exact this x h⟩

theorem collisionFree (c : Bool) : Chain.CollisionFree (conf c).chain U := fun x y hx hy he => by
  have : ∀ x ∈ known, ∀ y ∈ known, x.nonce = y.nonce → x = y := by decide
  exact this x hx y hy he

/-- A tree with genesis only. -/
def fresh (c : Bool) : State := Chain.new (conf c).chain g [g]

theorem reach (c fail : Bool) : Chain.Reach (conf c).chain U g fail (fresh c) := .init

/-- Run a list of operations. -/
def go (c : Bool) : List Op → Hist → Mgr → State → Option (Hist × Mgr × State)
  | [], h, m, t => some (h, m, t)
  | op :: ops, h, m, t =>
    match { m with out := [] }.step (conf c) t op with
    | .ok (m', t') => go c ops ((op, m'.out) :: h) m' t'
    | _ => none

theorem go_run {c : Bool} {t0 : State} {P : State → Op → Prop} (hP : ∀ t op, P t op) :
    ∀ {ops : List Op} {h h' : Hist} {m m' : Mgr} {t t' : State}, Run (conf c) U false P t0 h m t → (∀ op ∈ ops, op.Legal U false) →
    go c ops h m t = some (h', m', t') → Run (conf c) U false P t0 h' m' t'
  | [], _, _, _, _, _, _, r, _, e => by cases e; exact r
  | op :: ops, h, h', m, m', t, t', r, hl, e => by
    unfold go at e
    cases hs : ({ m with out := [] } : Mgr).step (conf c) t op with
    | ok q =>
      obtain ⟨m1, t1⟩ := q
      simp only [hs] at e
      exact go_run hP (.step r (hl op List.mem_cons_self) (hP _ _) hs) (fun o ho => hl o (List.mem_cons_of_mem _ ho)) e
    | err e' => simp [hs] at e
    | panic => simp [hs] at e

/-- What happens in the examples. -/
inductive Cmd where
  /-- A peer connects: does it serve compact filters, did we connect to it? -/
  | peer (now a height : Nat) (filters outbound : Bool)
  /-- A peer sends headers. -/
  | recv (now a : Nat) (l : List Header)
  | inv (now a : Nat) (l : List Nat)
  | tick (now : Nat)
  | start (now : Nat)
  | gone (a : Nat)
  | get (a : Nat) (l : Locators)
  /-- The user imports headers. -/
  | give (l : List Header)

def Cmd.op : Cmd → Op
  | .peer now a height filters outbound => .negotiated env now a height true filters outbound
  | .recv now a l => .headers env now a (l.map fun x => (x, e))
  | .inv now a l => .inv now a (l.map Item.block)
  | .tick now => .timer env now
  | .start now => .init env now
  | .gone a => .gone a
  | .get a l => .getheaders a l
  | .give l => .userImport env (l.map fun x => (x, e))

def Cmd.ok : Cmd → Bool
  | .recv _ _ l | .give l => l.all (fun x => decide (U x))
  | _ => true

theorem legal_batch {l : List Header} (h : l.all (fun x => decide (U x)) = true) : ∀ p ∈ l.map (fun x => (x, e)), U p.1 ∧ Chain.EnvOk false p.2 := by
  intro p hp
  obtain ⟨x, hx, rfl⟩ := List.mem_map.1 hp
  exact ⟨by simpa using List.all_eq_true.1 h x hx, Chain.Scenario.eOk _⟩

theorem Cmd.legal {c : Cmd} (h : c.ok = true) : c.op.Legal U false := by
  cases c with
  | recv now a l => exact ⟨env_legal, legal_batch h⟩
  | give l => exact ⟨env_legal, legal_batch h⟩
  | peer => exact ⟨env_legal, by simp [Cmd.op, Op.batch]⟩
  | tick => exact ⟨env_legal, by simp [Cmd.op, Op.batch]⟩
  | start => exact ⟨env_legal, by simp [Cmd.op, Op.batch]⟩
  | inv => exact ⟨trivial, by simp [Cmd.op, Op.batch]⟩
  | gone => exact ⟨trivial, by simp [Cmd.op, Op.batch]⟩
  | get => exact ⟨trivial, by simp [Cmd.op, Op.batch]⟩

def result (c : Bool) (ops : List Cmd) : Hist × Mgr × State := (go c (ops.map Cmd.op) [] Mgr.new (fresh c)).getD ([], Mgr.new, fresh c)
def hist (c : Bool) (ops : List Cmd) : Hist := (result c ops).1
def state (c : Bool) (ops : List Cmd) : Mgr := (result c ops).2.1
def tree (c : Bool) (ops : List Cmd) : State := (result c ops).2.2
/-- The outputs of the operations, latest first. -/
def outs (c : Bool) (ops : List Cmd) : List (List Out) := (hist c ops).map (·.2)

/-- Any operation may happen. -/
def Any (_ : State) (_ : Op) : Prop := True

theorem run {c : Bool} {ops : List Cmd} (hl : ops.all Cmd.ok = true) (hs : (go c (ops.map Cmd.op) [] Mgr.new (fresh c)).isSome = true) :
    Run (conf c) U false Any (fresh c) (hist c ops) (state c ops) (tree c ops) := by
  obtain ⟨⟨h, m, t⟩, e⟩ := Option.isSome_iff_exists.1 hs
  unfold hist state tree result
  rw [e]
  refine go_run (fun _ _ => trivial) .start (fun op hop => ?_) e
  obtain ⟨x, hx, rfl⟩ := List.mem_map.1 hop
  exact Cmd.legal (List.all_eq_true.1 hl x hx)

/-- The next operation. -/
def next (c : Bool) (ops : List Cmd) (x : Cmd) : Res Err (Mgr × State) := { state c ops with out := [] }.step (conf c) (tree c ops) x.op

/-- The outputs of the next operation. -/
def nextOuts (c : Bool) (ops : List Cmd) (x : Cmd) : Option (List Out) :=
  match next c ops x with
  | .ok q => some q.1.out
  | _ => none

theorem next_ok {c : Bool} {ops : List Cmd} {x : Cmd} {l : List Out} (h : nextOuts c ops x = some l) :
    ∃ m' t', { state c ops with out := [] }.step (conf c) (tree c ops) x.op = .ok (m', t') ∧ m'.out = l := by
  unfold nextOuts next at h
  cases hs : { state c ops with out := [] }.step (conf c) (tree c ops) x.op with
  | ok p => rw [hs] at h; exact ⟨p.1, p.2, rfl, by simpa using h⟩
  | err x => rw [hs] at h; cases h
  | panic => rw [hs] at h; cases h

/-! ## Getting in sync -/

/-- Peer 1, to which we connect, has two blocks; peer 2 connects to us and has none; peer 1 sends its headers. -/
def synced : List Cmd := [.start 7300000, .peer 7300000 1 2 false true, .peer 7300010 2 0 false false, .recv 7300020 1 [a1, a2]]

theorem synced_run : Run (conf true) U false Any (fresh true) (hist true synced) (state true synced) (tree true synced) := run (by decide) (by decide)

/-- C50, C52, C78, C80: peer 1 is asked, its headers are imported, the blocks are reported, the tip is announced to peer 2 (twice), and being in
sync is reported. -/
example : outs true synced =
    [[.connected 1 a1, .connected 2 a2, .imported false 12 2 [(1, a1), (2, a2)] [], .headers 2 [a2], .headers 2 [a2], .synced 12 2], [],
      [.peerHeight 2, .getHeaders 1 ([1], 0), .setTimer 30000], [.setTimer 600000]] ∧
    connected 1 (hist true synced) = some ⟨true, false, 2⟩ ∧ connected 2 (hist true synced) = some ⟨false, false, 0⟩ ∧
    awaiting (conf true) 1 (hist true (synced.take 2)) = some ⟨7300000, ([1], 0), .other⟩ ∧ awaiting (conf true) 1 (hist true synced) = none := by decide

/-- C51: peer 2 asks for headers and gets those after genesis. -/
example : ¬ Asking (conf true) (hist true synced) ∧ nextOuts true synced (.get 2 ([5, 1], 0)) = some [.headers 2 [a1, a2]] ∧
    nextOuts true synced (.get 2 ([1], 11)) = some [.headers 2 [a1]] ∧ nextOuts true synced (.get 2 ([12], 0)) = some [] ∧
    nextOuts true (synced.take 3) (.get 2 ([], 1)) = some [] ∧ Asking (conf true) (hist true (synced.take 3)) := by
  refine ⟨?_, by decide, by decide, by decide, by decide, 1, ⟨7300000, ([1], 0), .other⟩, by decide⟩
  rintro ⟨a, s, hs⟩
  have := (run_inv synced_run).wait a
  rw [hs, show (state true synced).inflight = [] from by decide] at this
  simp [WaitOk] at this

/-- C52: the run above is clean, and so its events replay to the active chain. -/
example : Run (conf true) U false (Clean (conf true)) (fresh true) (hist true [.give [a1, a2], .give [b1], .give [b2, b3]])
    (state true [.give [a1, a2], .give [b1], .give [b2, b3]]) (tree true [.give [a1, a2], .give [b1], .give [b2, b3]]) ∧
    outputs (hist true [.give [a1, a2], .give [b1], .give [b2, b3]]) =
      [.connected 1 a1, .connected 2 a2, .imported false 12 2 [(1, a1), (2, a2)] [],
        .disconnected 2 a2, .disconnected 1 a1, .connected 1 b1, .connected 2 b2, .connected 3 b3,
        .imported true 23 3 [(1, b1), (2, b2), (3, b3)] [(2, a2), (1, a1)]] ∧
    (tree true [.give [a1, a2], .give [b1], .give [b2, b3]]).iter = [(0, g), (1, b1), (2, b2), (3, b3)] := by
  refine ⟨?_, by decide, by decide⟩
  refine .step (op := Cmd.op (.give [b2, b3])) (.step (op := Cmd.op (.give [b1])) (.step (op := Cmd.op (.give [a1, a2])) .start
    (Cmd.legal (by decide)) ?_ (e := rfl)) (Cmd.legal (by decide)) ?_ (e := rfl)) (Cmd.legal (by decide)) ?_ (e := rfl)
  · exact .inl ⟨⟨_, rfl⟩, by decide⟩
  · exact .inl ⟨⟨_, rfl⟩, by decide⟩
  · exact .inl ⟨⟨_, rfl⟩, by decide⟩

/-- **C52 fails**: a peer sends a valid header followed by an invalid one.  The first is imported and extends the active chain, but no block is reported. -/
theorem C52_aborted : ∃ h m t, Run (conf true) U false Any (fresh true) h m t ∧ t.iter = [(0, g), (1, a1)] ∧
    (outputs h).filter Out.isBlock = [] ∧ replay (fresh true).iter (outputs h) ≠ some t.iter :=
  ⟨_, _, _, run (ops := [.start 7200000, .peer 7200000 1 3 false true, .recv 7200000 1 [a1, bad]]) (by decide) (by decide), by decide, by decide,
    by decide⟩

/-- **C52 fails**: one batch of headers makes another branch active, then the old one, then the other one again.  The block of the old branch is not
reported as disconnected. -/
theorem C52_reconnected : ∃ h m t, Run (conf true) U false Any (fresh true) h m t ∧ replay (fresh true).iter (outputs h) = none ∧
    Out.connected 1 a1 ∈ outputs h ∧ (∀ n x, Out.disconnected n x ∉ outputs h) ∧ t.contains 11 = false :=
  ⟨_, _, _, run (ops := [.give [a1], .give [b1, b2, a2, a3, b3, b4]]) (by decide) (by decide), by decide, by decide, by
    intro n x hx
    have : (outputs (hist true [.give [a1], .give [b1, b2, a2, a3, b3, b4]])).all
        (fun o => match o with | .disconnected _ _ => false | _ => true) = true := by decide
    simpa using List.all_eq_true.1 this _ hx, by decide⟩

/-- **C82 fails**: the peer that sent the invalid header is not reported (and the invalid header is the only one it sent). -/
theorem C82_invalid_not_reported : ∃ h m t, Run (conf true) U false Any (fresh true) h m t ∧
    (Chain.importBlocks (conf true).chain t [(bad, e)]).2 = .err (.aborted (.timeTooOld 50) 0 1) ∧
    ∃ m' t', { m with out := [] }.step (conf true) t (.headers env 7200000 1 [(bad, e)]) = .ok (m', t') ∧ m'.out = [] :=
  ⟨_, _, _, run (ops := [.give [a1], .peer 7200000 1 3 false true]) (by decide) (by decide), by decide, _, _, rfl, by decide⟩

/-! ## Requests that are not answered -/

/-- 2000 headers, most of them the same. -/
def full : List Header := List.replicate 1999 a1 ++ [a2]

def continued : List Cmd := [.start 7300000, .peer 7300000 1 3000 false true, .recv 7300020 1 full]

theorem continued_run : Run (conf true) U false Any (fresh true) (hist true continued) (state true continued) (tree true continued) :=
  run (by decide +kernel) (by decide +kernel)

/-- C50, C81: peer 1 sends a full batch and is asked for more. -/
example : (outs true continued).head? = some [.connected 1 a1, .connected 2 a2, .imported false 12 2 [(1, a1), (2, a2)] [],
      .getHeaders 1 ([12], 0), .setTimer 30000] ∧
    awaiting (conf true) 1 (hist true continued) = some ⟨7300020, ([12], 0), .continued⟩ := by decide +kernel

/-- C50: it does not answer and is disconnected.  **C81 fails**: headers are then requested from the very peer that is being disconnected. -/
theorem C81_dropped_asked : ∃ h m t, Run (conf true) U false Any (fresh true) h m t ∧
    ∃ m' t', { m with out := [] }.step (conf true) t (.timer env 7330020) = .ok (m', t') ∧
      m'.out = [.disconnect 1, .getHeaders 1 ([12, 11, 1], 0), .setTimer 30000] := by
  have hn : nextOuts true continued (.tick 7330020) = some [.disconnect 1, .getHeaders 1 ([12, 11, 1], 0), .setTimer 30000] := by decide +kernel
  have hk := next_ok hn
  rw [show Cmd.op (.tick 7330020) = .timer env 7330020 from rfl] at hk
  exact ⟨_, _, _, continued_run, hk⟩

/-- Two peers, and the first announces a block. -/
def announced : List Cmd := [.start 7300000, .peer 7300000 1 0 false true, .peer 7300000 2 0 false true, .inv 7300000 1 [999]]

/-- C50: the announcing peer is asked; it does not answer; the other peer is asked. -/
example : Run (conf true) U false Any (fresh true) (hist true announced) (state true announced) (tree true announced) ∧
    awaiting (conf true) 1 (hist true announced) = some ⟨7300000, ([1], 999), .announced⟩ ∧ Candidate (conf true) (hist true announced) [1] 2 ∧
    nextOuts true announced (.tick 7330000) = some [.getHeaders 2 ([1], 999), .setTimer 30000] :=
  ⟨run (by decide) (by decide), by decide, ⟨⟨⟨true, false, 0⟩, by decide, rfl⟩, by decide, by decide⟩, by decide⟩

/-- **C50 fails**: a request made because a peer that is ahead connected is not answered; when the timer fires, nothing is done about it. -/
theorem C50_not_retried : ∃ h m t, Run (conf true) U false Any (fresh true) h m t ∧
    awaiting (conf true) 1 h = some ⟨7300000, ([1], 0), .other⟩ ∧ (∃ i, connected 2 h = some i ∧ i.outbound = true ∧ 0 < i.height) ∧
    ∃ m', { m with out := [] }.step (conf true) t (.timer env 7330000) = .ok (m', t) ∧ m'.out = [] ∧ m'.inflight = [] :=
  ⟨_, _, _, run (ops := [.start 7300000, .peer 7300000 1 3 false true, .peer 7300000 2 3 false true]) (by decide) (by decide), by decide,
    ⟨⟨true, false, 3⟩, by decide, rfl, by decide⟩, _, by rfl, by decide, by decide⟩

/-! ## Panics of debug builds -/

/-- **C79 fails in debug builds**: the only peer does not answer; ten minutes later it is asked the same again. -/
theorem C79_asked_again : ∃ h m t, Run (conf true) U false Any (fresh true) h m t ∧
    { m with out := [] }.step (conf true) t (.timer env 7900000) = .panic :=
  ⟨_, _, _, run (ops := [.start 7300000, .peer 7300000 1 3 false true, .tick 7330000]) (by decide) (by decide), by rfl⟩

/-- **C79 fails in debug builds**: a peer sends the header of a stale block twice. -/
theorem C79_stale_twice : ∃ h m t, Run (conf true) U false Any (fresh true) h m t ∧
    { m with out := [] }.step (conf true) t (.headers env 7300000 1 [(b1, e)]) = .panic :=
  ⟨_, _, _, run (ops := [.give [a1, a2], .peer 7300000 1 2 false true, .recv 7300000 1 [b1]]) (by decide) (by decide), by rfl⟩

/-- **C79 fails in debug builds**: the clock is less than two hours after the epoch. -/
theorem C79_clock : { Mgr.new with out := [] }.step (conf true) (fresh true) (.negotiated env 1000 1 3 true false true) = .panic := by rfl

/-- C79: in a release build, nothing of this happens; the hypotheses can be met. -/
example : Run (conf false) U false Any (fresh false) (hist false [.start 7300000, .peer 7300000 1 3 false true, .tick 7330000])
      (state false [.start 7300000, .peer 7300000 1 3 false true, .tick 7330000])
      (tree false [.start 7300000, .peer 7300000 1 3 false true, .tick 7330000]) ∧
    (conf false).chain.checked = false ∧ (conf false).chain.genesisHash = (conf false).chain.hash g ∧
    nextOuts false [.start 7300000, .peer 7300000 1 3 false true, .tick 7330000] (.tick 7900000) =
      some [.getHeaders 1 ([1], 0), .setTimer 30000, .setTimer 600000] :=
  ⟨run (by decide) (by decide), rfl, rfl, by decide⟩

/-! ## Progress -/

/-- C81: a peer that is ahead connects and is asked; the timer asks again after ten minutes. -/
example : Behind (hist false [.start 7300000, .peer 7300000 1 3 false true]) (tree false [.start 7300000, .peer 7300000 1 3 false true]) ∧
    Usable (hist false [.start 7300000, .peer 7300000 1 3 false true]) ∧
    Asking (conf false) (hist false [.start 7300000, .peer 7300000 1 3 false true]) ∧
    looked (hist false [.start 7300000, .peer 7300000 1 3 false true, .tick 7330000]) = some 7300000 ∧
    Asking (conf false) (hist false [.start 7300000, .peer 7300000 1 3 false true, .tick 7330000, .tick 7900000]) :=
  ⟨⟨1, ⟨true, false, 3⟩, by decide⟩, ⟨1, ⟨true, false, 3⟩, by decide⟩, ⟨1, ⟨7300000, ([1], 0), .other⟩, by decide⟩, by decide,
    ⟨1, ⟨7900000, ([1], 0), .timer⟩, by decide⟩⟩

/-- **C81 fails**: peers that are ahead connect, but no headers are requested since all of them serve compact filters. -/
theorem C81_all_serve_filters : ∃ h m t, Run (conf true) U false Any (fresh true) h m t ∧ Behind h t ∧ ¬ Asking (conf true) h ∧
    outputs h = [.setTimer 600000, .peerHeight 3, .peerHeight 5] := by
  have r := run (c := true) (ops := [.start 7200000, .peer 7200000 1 3 true true, .peer 7200000 2 5 true true]) (by decide) (by decide)
  refine ⟨_, _, _, r, ⟨2, ⟨true, true, 5⟩, by decide⟩, ?_, by decide⟩
  rintro ⟨a, s, hs⟩
  have := (run_inv r).wait a
  rw [hs, show (state true [.start 7200000, .peer 7200000 1 3 true true, .peer 7200000 2 5 true true]).inflight = [] from by decide] at this
  simp [WaitOk] at this

end Verif.Sync.Scenario
