import Verif.Io.Model
import Mathlib.Data.List.Basic

/-!
# Sockets, output queues, event subscriptions: C38, C55, C56
-/

set_option autoImplicit false

namespace Verif.Io

/-! ## C38 -/

/-- Histories of a socket: the bytes handed to it so far, and its state.  Each flush meets any results of write calls that the
operating system may give: a write call takes at most the bytes offered (`Fits`). -/
def Fits : List Nat → List WriteRes → Prop
  | _, [] => True
  | _, .err :: _ => True
  | buf, .ok n :: ws => n ≤ buf.length ∧ Fits (buf.drop n) ws

inductive SockRun : List Nat → Socket → Prop where
  | start : SockRun [] Socket.new
  | push {sent s} (r : SockRun sent s) (bs : List Nat) : SockRun (sent ++ bs) (s.push bs)
  | flush {sent s} (r : SockRun sent s) (ok : Bool) (ws : List WriteRes) (h : Fits s.buffer ws) :
      SockRun sent (s.flush ok ws).2

theorem flush_stream (ok : Bool) : ∀ (ws : List WriteRes) (s : Socket),
    (s.flush ok ws).2.wire ++ (s.flush ok ws).2.buffer = s.wire ++ s.buffer ∧
      ((s.flush ok ws).1 = .ok () → (s.flush ok ws).2.buffer = [] ∧ ok = true) ∧
      (∃ t, (s.flush ok ws).2.wire = s.wire ++ t)
  | [], s => by
    unfold Socket.flush
    by_cases h : s.buffer = []
    · rw [if_pos h]; refine ⟨rfl, fun h' => ⟨h, ?_⟩, [], by simp⟩
      cases ok <;> simp_all
    · rw [if_neg h]; exact ⟨rfl, fun h' => by simp at h', [], by simp⟩
  | .err :: _, s => by
    unfold Socket.flush
    by_cases h : s.buffer = []
    · rw [if_pos h]; refine ⟨rfl, fun h' => ⟨h, ?_⟩, [], by simp⟩
      cases ok <;> simp_all
    · rw [if_neg h]; exact ⟨rfl, fun h' => by simp at h', [], by simp⟩
  | .ok 0 :: _, s => by
    unfold Socket.flush
    by_cases h : s.buffer = []
    · rw [if_pos h]; refine ⟨rfl, fun h' => ⟨h, ?_⟩, [], by simp⟩
      cases ok <;> simp_all
    · rw [if_neg h]; exact ⟨rfl, fun h' => by simp at h', [], by simp⟩
  | .ok (n + 1) :: ws, s => by
    unfold Socket.flush
    by_cases h : s.buffer = []
    · rw [if_pos h]; refine ⟨rfl, fun h' => ⟨h, ?_⟩, [], by simp⟩
      cases ok <;> simp_all
    · rw [if_neg h]
      obtain ⟨h1, h2, t, h3⟩ := flush_stream ok ws
        { buffer := s.buffer.drop (n + 1), wire := s.wire ++ s.buffer.take (n + 1) }
      refine ⟨?_, h2, s.buffer.take (n + 1) ++ t, ?_⟩
      · rw [h1]; simp
      · rw [h3]; simp

/-- **C38** At every moment, what the connection has taken followed by what is still buffered is exactly what was handed to the
socket, in order: nothing is lost, duplicated or reordered, whatever the pattern of partial writes and errors. -/
theorem C38_stream {sent s} (r : SockRun sent s) : s.wire ++ s.buffer = sent := by
  induction r with
  | start => rfl
  | @push sent s r bs ih => show s.wire ++ (s.buffer ++ bs) = _; rw [← List.append_assoc, ih]
  | @flush sent s r ok ws h ih => rw [(flush_stream ok ws s).1, ih]

/-- **C38** A flush that reports success has handed over everything. -/
theorem C38_flushed {sent s} (r : SockRun sent s) (ok : Bool) (ws : List WriteRes)
    (h : (s.flush ok ws).1 = .ok ()) : (s.flush ok ws).2.wire = sent := by
  have h1 := (flush_stream ok ws s).1
  rw [C38_stream r, ((flush_stream ok ws s).2.1 h).1, List.append_nil] at h1
  exact h1

/-- **C38** A flush succeeds whenever the connection takes at least one byte per call until all are gone: progress. -/
theorem C38_progress (s : Socket) (n : Nat) (hn : 0 < n) (k : Nat) (hk : s.buffer.length ≤ n * k) :
    (s.flush true (List.replicate k (.ok n))).1 = .ok () := by
  induction k generalizing s with
  | zero =>
    have : s.buffer = [] := List.eq_nil_of_length_eq_zero (by omega)
    simp [Socket.flush, this]
  | succ k ih =>
    obtain ⟨m, rfl⟩ : ∃ m, n = m + 1 := ⟨n - 1, by omega⟩
    rw [List.replicate_succ]
    unfold Socket.flush
    by_cases h : s.buffer = []
    · simp [h]
    · rw [if_neg h]
      apply ih
      show (s.buffer.drop (m + 1)).length ≤ _
      rw [List.length_drop]
      rw [Nat.mul_succ] at hk
      omega

-- a run with two pushes, a partial write, a would-block error and a final successful flush
example : ∃ s, SockRun [1, 2, 3, 4, 5] s ∧ s.wire = [1, 2] ∧
    (s.flush true [.ok 3]).1 = .ok () ∧ (s.flush true [.ok 3]).2.wire = [1, 2, 3, 4, 5] :=
  ⟨_, .push (.flush (.push .start [1, 2, 3]) true [.ok 2, .err] (by simp [Fits, Socket.push, Socket.new])) [4, 5],
    by decide, by rfl, by decide⟩

/-! ## C55 -/

section
variable {O Ev : Type}

/-- The outputs of one queue, in order. -/
def proj (q : Q) : List (Q × Out O Ev) → List (Out O Ev)
  | [] => []
  | (q', o) :: l => if q' = q then o :: proj q l else proj q l

/-- Histories: what was queued (by which manager), what was handed to the reactor, what was given back to the managers as
internal events, and the machine.  Queuing and taking outputs are interleaved in any way, and the managers may react to every
event that leaves in any way. -/
inductive OutRun : List (Q × Out O Ev) → List (Q × Out O Ev) → List Ev → Machine O Ev → Prop where
  | start : OutRun [] [] [] { queue := fun _ => [] }
  | push {pushed del evs m} (r : OutRun pushed del evs m) (q : Q) (o : Out O Ev) :
      OutRun (pushed ++ [(q, o)]) del evs (m.push q o)
  | event {pushed del evs m m' q e} (r : OutRun pushed del evs m) (react : Ev → List (Q × Out O Ev))
      (h : m.next react = some (q, .event e, m')) :
      OutRun (pushed ++ react e) (del ++ [(q, .event e)]) (evs ++ [e]) m'
  | io {pushed del evs m m' q o} (r : OutRun pushed del evs m) (react : Ev → List (Q × Out O Ev))
      (h : m.next react = some (q, .io o, m')) : OutRun pushed (del ++ [(q, .io o)]) evs m'

theorem proj_append (q : Q) (l l' : List (Q × Out O Ev)) : proj q (l ++ l') = proj q l ++ proj q l' := by
  induction l with
  | nil => rfl
  | cons p l ih =>
    obtain ⟨q', o⟩ := p
    simp only [List.cons_append, proj, ih]
    split <;> rfl

theorem queue_pushes (q : Q) : ∀ (l : List (Q × Out O Ev)) (m : Machine O Ev),
    (m.pushes l).queue q = m.queue q ++ proj q l
  | [], m => by simp [Machine.pushes, proj]
  | (q', o) :: l, m => by
    have : m.pushes ((q', o) :: l) = (m.push q' o).pushes l := rfl
    rw [this, queue_pushes q l]
    simp only [Machine.push, proj]
    by_cases h : q = q'
    · simp [h]
    · rw [if_neg h, if_neg (fun e => h e.symm)]

theorem popFirst_spec (m : Machine O Ev) : ∀ (qs : List Q),
    (∀ q o m', m.popFirst qs = some (q, o, m') →
      m.queue q = o :: m'.queue q ∧ ∀ q', q' ≠ q → m'.queue q' = m.queue q') ∧
    (m.popFirst qs = none ↔ ∀ q ∈ qs, m.queue q = [])
  | [] => ⟨fun _ _ _ h => by simp [Machine.popFirst] at h, by simp [Machine.popFirst]⟩
  | q0 :: qs => by
    unfold Machine.popFirst
    cases h0 : m.queue q0 with
    | nil =>
      obtain ⟨h1, h2⟩ := popFirst_spec m qs
      exact ⟨h1, by simp only [h2, List.forall_mem_cons, h0, true_and]⟩
    | cons o rest =>
      refine ⟨fun q o' m' h => ?_, ?_⟩
      · simp only [Option.some.injEq, Prod.mk.injEq] at h
        obtain ⟨rfl, rfl, rfl⟩ := h
        refine ⟨by simp [h0], fun q' hq => by simp [hq]⟩
      · simp [h0]

theorem next_spec (m : Machine O Ev) (react : Ev → List (Q × Out O Ev)) :
    (∀ q e m', m.next react = some (q, .event e, m') →
      ∀ q', (if q' = q then [Out.event e] else []) ++ m'.queue q' = m.queue q' ++ proj q' (react e)) ∧
    (∀ q o m', m.next react = some (q, .io o, m') →
      ∀ q', (if q' = q then [Out.io o] else []) ++ m'.queue q' = m.queue q') ∧
    (m.next react = none ↔ ∀ q, m.queue q = []) := by
  obtain ⟨h1, h2⟩ := popFirst_spec m Q.order
  have hall : (∀ q ∈ Q.order, m.queue q = []) ↔ ∀ q, m.queue q = [] :=
    ⟨fun h q => h q (by cases q <;> simp [Q.order]), fun h q _ => h q⟩
  unfold Machine.next
  cases hp : m.popFirst Q.order with
  | none =>
    refine ⟨fun _ _ _ h => by simp at h, fun _ _ _ h => by simp at h, ?_⟩
    simpa [hall] using h2.1 hp
  | some x =>
    obtain ⟨q0, o0, m0⟩ := x
    obtain ⟨ha, hb⟩ := h1 q0 o0 m0 hp
    have hne : ¬ ∀ q, m.queue q = [] := fun h => by rw [h q0] at ha; simp at ha
    cases o0 with
    | event e0 =>
      refine ⟨fun q e m' h q' => ?_, fun _ _ _ h => by simp at h, ?_⟩
      · simp only [Option.some.injEq, Prod.mk.injEq, Out.event.injEq] at h
        obtain ⟨rfl, rfl, rfl⟩ := h
        rw [queue_pushes]
        by_cases e : q' = q0
        · subst e; rw [if_pos rfl, ha]; rfl
        · rw [if_neg e, hb q' e]; rfl
      · simpa using fun h => hne h
    | io o0 =>
      refine ⟨fun _ _ _ h => by simp at h, fun q o m' h q' => ?_, ?_⟩
      · simp only [Option.some.injEq, Prod.mk.injEq, Out.io.injEq] at h
        obtain ⟨rfl, rfl, rfl⟩ := h
        by_cases e : q' = q0
        · subst e; rw [if_pos rfl, ha]; rfl
        · rw [if_neg e, hb q' e]; rfl
      · simpa using fun h => hne h

theorem proj_single (q q' : Q) (o : Out O Ev) : proj q' [(q, o)] = if q' = q then [o] else [] := by
  simp only [proj]
  by_cases h : q = q'
  · simp [h]
  · rw [if_neg h, if_neg (fun e => h e.symm)]

/-- **C55** For each manager, what was handed to the reactor followed by what is still queued is exactly what the manager
queued, in order: nothing is lost, duplicated or reordered. -/
theorem C55_in_order {pushed del : List (Q × Out O Ev)} {evs m} (r : OutRun pushed del evs m) (q : Q) :
    proj q del ++ m.queue q = proj q pushed := by
  induction r with
  | start => rfl
  | @push pushed del evs m r q0 o ih =>
    have : (m.push q0 o).queue q = m.queue q ++ proj q [(q0, o)] := queue_pushes q [(q0, o)] m
    rw [this, proj_append, ← ih, List.append_assoc]
  | @event pushed del evs m m' q0 e r react h ih =>
    have := (next_spec m react).1 q0 e m' h q
    rw [proj_append, proj_append, ← ih, List.append_assoc, proj_single, this, List.append_assoc]
  | @io pushed del evs m m' q0 o r react h ih =>
    have := (next_spec m react).2.1 q0 o m' h q
    rw [proj_append, ← ih, List.append_assoc, proj_single, this]

/-- **C55** None is lost: as long as anything is queued the machine has an output, and when it has none, every manager's
outputs have all been handed over. -/
theorem C55_none_lost {pushed del : List (Q × Out O Ev)} {evs m} (r : OutRun pushed del evs m)
    (react : Ev → List (Q × Out O Ev)) (h : m.next react = none) (q : Q) : proj q del = proj q pushed := by
  have := C55_in_order r q
  rw [(next_spec m react).2.2.1 h q, List.append_nil] at this
  exact this

/-- The events among the outputs. -/
def evsOf : List (Q × Out O Ev) → List Ev
  | [] => []
  | (_, .event e) :: l => e :: evsOf l
  | (_, .io _) :: l => evsOf l

theorem evsOf_append (l l' : List (Q × Out O Ev)) : evsOf (l ++ l') = evsOf l ++ evsOf l' := by
  induction l with
  | nil => rfl
  | cons p l ih => obtain ⟨q, o⟩ := p; cases o <;> simp [evsOf, ih]

/-- **C55** Every event handed out is given to the managers exactly once, in the same order. -/
theorem C55_events {pushed del : List (Q × Out O Ev)} {evs m} (r : OutRun pushed del evs m) : evs = evsOf del := by
  induction r with
  | start => rfl
  | push r q o ih => exact ih
  | event r react h ih => rw [evsOf_append, ih]; rfl
  | io r react h ih => rw [evsOf_append, ih]; simp [evsOf]

end

-- two managers, one event whose reaction queues another output
example : ∃ (m : Machine Nat Nat), OutRun [(.cbfmgr, .io 7), (.syncmgr, .event 1), (.syncmgr, .io 2), (.peermgr, .io 9)]
    [(.syncmgr, .event 1), (.peermgr, .io 9), (.syncmgr, .io 2)] [1] m ∧ m.next (fun _ => []) ≠ none := by
  have r1 := ((OutRun.start (O := Nat) (Ev := Nat)).push .cbfmgr (.io 7)).push .syncmgr (.event 1) |>.push .syncmgr (.io 2)
  have r2 := OutRun.event r1 (fun _ => [(.peermgr, .io 9)]) rfl
  have r3 := OutRun.io r2 (fun _ => []) rfl
  have r4 := OutRun.io r3 (fun _ => []) rfl
  exact ⟨_, r4, by simp [Machine.next, Machine.popFirst, Q.order, Machine.pushes, Machine.push]⟩

/-! ## C56 -/

section
variable {T : Type}

/-- What happened, most recent first. -/
inductive SubObs (T : Type) where
  | subscribed (i : Nat)
  | emitted (t : T)
  | received (i : Nat)
  | dropped (i : Nat)
  | closed
  deriving DecidableEq, Repr

/-- Subscription `i` exists, its receiver was not dropped since, and the emitter not closed since. -/
def subscribed (i : Nat) : List (SubObs T) → Bool
  | [] => false
  | .subscribed j :: l => if j = i then true else subscribed i l
  | .dropped j :: l => if j = i then false else subscribed i l
  | .closed :: _ => false
  | _ :: l => subscribed i l

/-- The events emitted while subscription `i` existed, in order. -/
def due (i : Nat) : List (SubObs T) → List T
  | [] => []
  | .emitted t :: l => if subscribed i l then due i l ++ [t] else due i l
  | _ :: l => due i l

/-- The receiver of subscription `i` was dropped. -/
def wasDropped (i : Nat) : List (SubObs T) → Bool
  | [] => false
  | .dropped j :: l => if j = i then true else wasDropped i l
  | _ :: l => wasDropped i l

/-- Histories of an emitter and its subscribers. -/
inductive SubRun : List (SubObs T) → Emitter T → Prop where
  | start : SubRun [] Emitter.new
  | subscribe {l e} (r : SubRun l e) : SubRun (.subscribed e.chans.length :: l) e.subscribe
  | emit {l e} (r : SubRun l e) (t : T) : SubRun (.emitted t :: l) (e.emit t)
  | close {l e} (r : SubRun l e) : SubRun (.closed :: l) e.close
  | recv {l e} (r : SubRun l e) (i : Nat) : SubRun (.received i :: l) (e.recv i)
  | drop {l e} (r : SubRun l e) (i : Nat) (h : i < e.chans.length) : SubRun (.dropped i :: l) (e.dropReceiver i)

theorem trySend_spec (chans : List (Chan T)) (i : Nat) (t : T) :
    (trySend chans i t).2.length = chans.length ∧
    (∀ j, j ≠ i → (trySend chans i t).2[j]? = chans[j]?) ∧
    (∀ c, chans[i]? = some c → ((trySend chans i t).1 = c.alive ∧
      (trySend chans i t).2[i]? = some (if c.alive then { c with queue := c.queue ++ [t] } else c))) := by
  unfold trySend
  cases h : chans[i]? with
  | none => simp [h]
  | some c =>
    have hi : i < chans.length := by
      rcases Nat.lt_or_ge i chans.length with h' | h'
      · exact h'
      · rw [List.getElem?_eq_none h'] at h; cases h
    cases ha : c.alive with
    | false => simp [ha, h]
    | true =>
      refine ⟨by simp [ha], fun j hj => ?_, fun c' hc => ?_⟩
      · simp only [ha, if_true]
        rw [List.getElem?_set]
        rw [if_neg (fun e => hj e.symm)]
      · injection hc with hc
        subst hc
        simp [ha, hi]

theorem emitLoop_spec (t : T) : ∀ (is : List Nat) (chans : List (Chan T)), is.Nodup → (∀ i ∈ is, i < chans.length) →
    (emitLoop t is chans).2.length = chans.length ∧
    (∀ j, j ∈ (emitLoop t is chans).1 ↔ j ∈ is ∧ ∃ c, chans[j]? = some c ∧ c.alive = true) ∧
    (emitLoop t is chans).1.Nodup ∧
    ∀ (j : Nat) (c : Chan T), chans[j]? = some c →
      (emitLoop t is chans).2[j]? = some (if j ∈ is ∧ c.alive = true then { c with queue := c.queue ++ [t] } else c)
  | [], chans, _, _ => by simp [emitLoop]
  | i :: is, chans, hn, hl => by
    obtain ⟨hni, hn⟩ := List.nodup_cons.1 hn
    obtain ⟨s1, s2, s3⟩ := trySend_spec chans i t
    obtain ⟨l1, l2, l3, l4⟩ := emitLoop_spec t is (trySend chans i t).2 hn
      (fun j hj => by rw [s1]; exact hl j (List.mem_cons_of_mem _ hj))
    have hi := hl i List.mem_cons_self
    obtain ⟨ci, hci⟩ : ∃ c, chans[i]? = some c := ⟨chans[i], List.getElem?_eq_getElem hi⟩
    obtain ⟨s3a, s3b⟩ := s3 ci hci
    have hother : ∀ j, j ∈ (emitLoop t is (trySend chans i t).2).1 ↔ j ∈ is ∧ ∃ c, chans[j]? = some c ∧ c.alive = true := by
      intro j
      rw [l2]
      constructor
      · rintro ⟨hj, c, hc, ha⟩
        have hne : j ≠ i := fun e => hni (e ▸ hj)
        rw [s2 j hne] at hc
        exact ⟨hj, c, hc, ha⟩
      · rintro ⟨hj, c, hc, ha⟩
        have hne : j ≠ i := fun e => hni (e ▸ hj)
        exact ⟨hj, c, by rw [s2 j hne]; exact hc, ha⟩
    unfold emitLoop
    refine ⟨by simp only [l1, s1], fun j => ?_, ?_, fun j c hc => ?_⟩
    · simp only [s3a]
      cases ha : ci.alive with
      | true =>
        simp only [if_true, List.mem_cons, hother]
        constructor
        · rintro (rfl | ⟨h1, h2⟩)
          · exact ⟨.inl rfl, ci, hci, ha⟩
          · exact ⟨.inr h1, h2⟩
        · rintro ⟨rfl | h1, h2⟩
          · exact .inl rfl
          · exact .inr ⟨h1, h2⟩
      | false =>
        simp only [List.mem_cons]
        constructor
        · intro h
          obtain ⟨h1, h2⟩ := (hother j).1 (by simpa using h)
          exact ⟨.inr h1, h2⟩
        · rintro ⟨rfl | h1, h2⟩
          · obtain ⟨c, hc, hca⟩ := h2
            rw [hci] at hc; injection hc with hc; rw [← hc, ha] at hca; cases hca
          · simpa using (hother j).2 ⟨h1, h2⟩
    · simp only [s3a]
      cases ha : ci.alive with
      | true =>
        simp only [if_true, List.nodup_cons]
        exact ⟨fun h => hni ((hother i).1 h).1, l3⟩
      | false => simpa using l3
    · simp only
      by_cases hj : j = i
      · subst hj
        rw [hci] at hc; injection hc with hc; subst hc
        rw [l4 j _ s3b]
        rw [if_neg (fun h => hni h.1)]
        simp
      · rw [l4 j c (by rw [s2 j hj]; exact hc)]
        simp only [List.mem_cons, hj, false_or]

/-- Invariant of all histories. -/
theorem SubRun.inv {l : List (SubObs T)} {e : Emitter T} (r : SubRun l e) :
    e.subscribers.Nodup ∧ (∀ i ∈ e.subscribers, i < e.chans.length) ∧
    (∀ i, e.chans.length ≤ i → subscribed i l = false ∧ due i l = [] ∧ wasDropped i l = false) ∧
    ∀ i c, e.chans[i]? = some c →
      (c.alive = !wasDropped i l) ∧ (subscribed i l = true ↔ i ∈ e.subscribers ∧ c.alive = true) ∧
      c.taken ++ c.queue = due i l := by
  induction r with
  | start => exact ⟨List.nodup_nil, by simp [Emitter.new], fun _ _ => ⟨rfl, rfl, rfl⟩, by simp [Emitter.new]⟩
  | @subscribe l e r ih =>
    obtain ⟨h1, h2, h3, h4⟩ := ih
    refine ⟨?_, ?_, ?_, ?_⟩
    · show (e.subscribers ++ [e.chans.length]).Nodup
      rw [List.nodup_append]
      refine ⟨h1, by simp, fun a ha b hb => ?_⟩
      simp at hb; subst hb
      exact fun e' => Nat.lt_irrefl _ (e' ▸ h2 a ha)
    · intro i hi
      show i < (e.chans ++ [_]).length
      have hi : i ∈ e.subscribers ++ [e.chans.length] := hi
      rw [List.length_append]
      rcases List.mem_append.1 hi with h | h
      · have := h2 i h; simp only [List.length_singleton]; omega
      · simp at h; subst h; simp
    · intro i hi
      have hi : (e.chans ++ [_]).length ≤ i := hi
      rw [List.length_append] at hi
      simp only [List.length_singleton] at hi
      obtain ⟨a, b, c⟩ := h3 i (by omega)
      refine ⟨?_, b, c⟩
      simp only [subscribed]
      rw [if_neg (by omega)]; exact a
    · intro i c hc
      have hc : (e.chans ++ [_])[i]? = some c := hc
      by_cases hi : i < e.chans.length
      · rw [List.getElem?_append_left hi] at hc
        obtain ⟨a, b, d⟩ := h4 i c hc
        refine ⟨a, ?_, d⟩
        simp only [subscribed]
        rw [if_neg (by omega), b]
        show _ ↔ i ∈ e.subscribers ++ [e.chans.length] ∧ _
        simp only [List.mem_append, List.mem_singleton]
        constructor
        · rintro ⟨x, y⟩; exact ⟨.inl x, y⟩
        · rintro ⟨x | x, y⟩
          · exact ⟨x, y⟩
          · omega
      · rw [List.getElem?_append_right (by omega)] at hc
        have he : i = e.chans.length := by
          rcases Nat.lt_or_ge (i - e.chans.length) 1 with h | h
          · omega
          · rw [List.getElem?_eq_none (by simpa using h)] at hc; cases hc
        subst he
        simp at hc
        obtain ⟨a, b, d⟩ := h3 e.chans.length (Nat.le_refl _)
        subst hc
        refine ⟨by simp [wasDropped, d], ?_, by simp [due, b]⟩
        simp [subscribed, Emitter.subscribe]
  | @emit l e r t ih =>
    obtain ⟨h1, h2, h3, h4⟩ := ih
    obtain ⟨l1, l2, l3, l4⟩ := emitLoop_spec t e.subscribers e.chans h1 h2
    have hlen : (e.emit t).chans.length = e.chans.length := l1
    refine ⟨l3, fun i hi => ?_, fun i hi => ?_, fun i c hc => ?_⟩
    · rw [hlen]; exact h2 i ((l2 i).1 hi).1
    · rw [hlen] at hi
      obtain ⟨a, b, d⟩ := h3 i hi
      exact ⟨a, by simp [due, a, b], d⟩
    · have hi : i < e.chans.length := by
        rw [← hlen]
        rcases Nat.lt_or_ge i (e.emit t).chans.length with h | h
        · exact h
        · rw [List.getElem?_eq_none h] at hc; cases hc
      obtain ⟨c0, hc0⟩ : ∃ c, e.chans[i]? = some c := ⟨e.chans[i], List.getElem?_eq_getElem hi⟩
      obtain ⟨a, b, d⟩ := h4 i c0 hc0
      have hc1 := l4 i c0 hc0
      have hc : (emitLoop t e.subscribers e.chans).2[i]? = some c := hc
      rw [hc1] at hc
      injection hc with hc
      have hal : c.alive = c0.alive := by rw [← hc]; split <;> rfl
      refine ⟨by rw [hal]; exact a, ?_, ?_⟩
      · simp only [subscribed]
        rw [b, hal]
        show _ ↔ i ∈ (emitLoop t e.subscribers e.chans).1 ∧ _
        rw [l2]
        exact ⟨fun ⟨x, y⟩ => ⟨⟨x, c0, hc0, y⟩, y⟩, fun ⟨⟨x, _⟩, y⟩ => ⟨x, y⟩⟩
      · simp only [due]
        by_cases hs : subscribed i l = true
        · rw [if_pos (b.1 hs)] at hc
          rw [if_pos hs, ← hc, ← d]
          simp
        · rw [if_neg (fun h => hs (b.2 h))] at hc
          rw [if_neg hs, ← hc, d]
  | @close l e r ih =>
    obtain ⟨h1, h2, h3, h4⟩ := ih
    refine ⟨List.nodup_nil, fun i hi => by simp [Emitter.close] at hi, fun i hi => ?_, fun i c hc => ?_⟩
    · obtain ⟨_, b, d⟩ := h3 i hi
      exact ⟨rfl, b, d⟩
    · obtain ⟨a, _, d⟩ := h4 i c hc
      exact ⟨a, by simp [subscribed, Emitter.close], d⟩
  | @recv l e r j ih =>
    obtain ⟨h1, h2, h3, h4⟩ := ih
    have key : (e.recv j).subscribers = e.subscribers ∧ (e.recv j).chans.length = e.chans.length ∧
        ∀ (i : Nat) (c : Chan T), (e.recv j).chans[i]? = some c → ∃ c0, e.chans[i]? = some c0 ∧ c.alive = c0.alive ∧
          c.taken ++ c.queue = c0.taken ++ c0.queue := by
      unfold Emitter.recv
      cases hj : e.chans[j]? with
      | none => exact ⟨rfl, rfl, fun i c hc => ⟨c, hc, rfl, rfl⟩⟩
      | some cj =>
        cases hq : cj.queue with
        | nil => simp only [hq]; exact ⟨trivial, trivial, fun i c hc => ⟨c, hc, rfl, rfl⟩⟩
        | cons t q =>
          simp only [hq]
          refine ⟨trivial, by simp, fun i c hc => ?_⟩
          simp only [List.getElem?_set] at hc
          by_cases e1 : j = i
          · subst e1
            rw [if_pos rfl] at hc
            split at hc
            · injection hc with hc
              subst hc
              exact ⟨cj, hj, rfl, by simp [hq]⟩
            · cases hc
          · rw [if_neg e1] at hc
            exact ⟨c, hc, rfl, rfl⟩
    obtain ⟨k1, k2, k3⟩ := key
    refine ⟨by rw [k1]; exact h1, by rw [k1, k2]; exact h2, by rw [k2]; exact h3, fun i c hc => ?_⟩
    obtain ⟨c0, hc0, ka, kt⟩ := k3 i c hc
    obtain ⟨a, b, d⟩ := h4 i c0 hc0
    exact ⟨by rw [ka]; exact a, by rw [ka, k1]; exact b, by rw [kt]; exact d⟩
  | @drop l e r j hjl ih =>
    obtain ⟨h1, h2, h3, h4⟩ := ih
    have key : (e.dropReceiver j).subscribers = e.subscribers ∧ (e.dropReceiver j).chans.length = e.chans.length ∧
        ∀ (i : Nat) (c : Chan T), (e.dropReceiver j).chans[i]? = some c → ∃ c0, e.chans[i]? = some c0 ∧
          c = if j = i then { c0 with alive := false } else c0 := by
      unfold Emitter.dropReceiver
      cases hj : e.chans[j]? with
      | none =>
        refine ⟨rfl, rfl, fun i c hc => ⟨c, hc, ?_⟩⟩
        have : j ≠ i := fun e' => by rw [e', hc] at hj; cases hj
        rw [if_neg this]
      | some cj =>
        refine ⟨rfl, by simp, fun i c hc => ?_⟩
        simp only [List.getElem?_set] at hc
        by_cases e1 : j = i
        · subst e1
          rw [if_pos rfl] at hc
          split at hc
          · injection hc with hc
            exact ⟨cj, hj, by rw [if_pos rfl, hc]⟩
          · rename_i hlt; exact absurd hjl hlt
        · rw [if_neg e1] at hc
          exact ⟨c, hc, by rw [if_neg e1]⟩
    obtain ⟨k1, k2, k3⟩ := key
    refine ⟨by rw [k1]; exact h1, by rw [k1, k2]; exact h2, fun i hi => ?_, fun i c hc => ?_⟩
    · rw [k2] at hi
      obtain ⟨a, b, d⟩ := h3 i hi
      have hne : j ≠ i := by omega
      refine ⟨?_, b, ?_⟩
      · simp only [subscribed]; rw [if_neg hne]; exact a
      · simp only [wasDropped]; rw [if_neg hne]; exact d
    · obtain ⟨c0, hc0, hce⟩ := k3 i c hc
      obtain ⟨a, b, d⟩ := h4 i c0 hc0
      subst hce
      by_cases e1 : j = i
      · simp only [if_pos e1]
        refine ⟨by simp [wasDropped, e1], ?_, d⟩
        simp [subscribed, e1]
      · simp only [if_neg e1]
        refine ⟨?_, ?_, d⟩
        · simp only [wasDropped]; rw [if_neg e1]; exact a
        · simp only [subscribed]; rw [if_neg e1, b, k1]

/-- **C56** At every moment, what the owner of a subscription has taken out followed by what still waits in its channel is
exactly the events emitted while it was subscribed, in order and once each. -/
theorem C56_in_order {l : List (SubObs T)} {e : Emitter T} (r : SubRun l e) (i : Nat) (c : Chan T)
    (h : e.chans[i]? = some c) : c.taken ++ c.queue = due i l :=
  ((r.inv).2.2.2 i c h).2.2

/-- **C56** A subscriber that exists (its receiver not dropped, the emitter not closed) receives the next event. -/
theorem C56_live {l : List (SubObs T)} {e : Emitter T} (r : SubRun l e) (i : Nat) (h : subscribed i l = true) (t : T) :
    ∃ c, (e.emit t).chans[i]? = some c ∧ c.taken ++ c.queue = due i l ++ [t] := by
  obtain ⟨h1, h2, h3, h4⟩ := r.inv
  have hi : i < e.chans.length := by
    rcases Nat.lt_or_ge i e.chans.length with h' | h'
    · exact h'
    · rw [(h3 i h').1] at h; cases h
  obtain ⟨l1, _, _, _⟩ := emitLoop_spec t e.subscribers e.chans h1 h2
  have hlen : (e.emit t).chans.length = e.chans.length := l1
  have hi' : i < (e.emit t).chans.length := by omega
  refine ⟨_, List.getElem?_eq_getElem hi', ?_⟩
  rw [C56_in_order (r.emit t) i _ (List.getElem?_eq_getElem hi')]
  simp [due, h]

/-- **C56** Dropping the receiver of one subscription changes no other subscription. -/
theorem C56_independent (i j : Nat) (h : i ≠ j) (e : Emitter T) :
    (e.dropReceiver j).chans[i]? = e.chans[i]? ∧ (e.dropReceiver j).subscribers = e.subscribers := by
  unfold Emitter.dropReceiver
  cases hj : e.chans[j]? with
  | none => exact ⟨rfl, rfl⟩
  | some c => exact ⟨by simp [h.symm], rfl⟩

end

-- two subscribers, the first dropped: the second sees everything after its subscription
example : ∃ l e, SubRun (T := Nat) l e ∧ due 0 l = [1, 2] ∧ due 1 l = [2, 3, 4] ∧ subscribed 1 l = true ∧
    (e.chans[1]?).map (·.taken) = some [2] :=
  ⟨_, _, .emit (.recv (.emit (.drop (.emit (.subscribe (.emit (.subscribe (.emit .start 0)) 1)) 2) 0 (by decide)) 3) 1) 4,
    by decide, by decide, by decide, by decide⟩

end Verif.Io
