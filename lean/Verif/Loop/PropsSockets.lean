import Verif.Loop.Sockets

/-!
# C143: what the client sends gets to the network
-/

set_option autoImplicit false

namespace Verif.Loop.Sockets
open Verif.Io (Socket WriteRes IoErr)

theorem Run.reach {f : Nat → State} (h : Run f) : ∀ n, Reach (f n)
  | 0 => by rw [h.start]; exact .start
  | n + 1 => .step (h.reach n) (h.step n)

/-- Nothing is lost in the buffer, and while it is not empty the reactor asks to be told when it can write. -/
structure Conn.Ok (c : Conn) : Prop where
  stream : c.socket.wire ++ c.socket.buffer = c.sent
  asks : c.socket.buffer ≠ [] → c.write = true

theorem flush_facts (flushed : Bool) : ∀ (ws : List WriteRes) (s : Socket),
    (s.flush flushed ws).2.wire ++ (s.flush flushed ws).2.buffer = s.wire ++ s.buffer ∧ s.wire <+: (s.flush flushed ws).2.wire ∧
    ((s.flush flushed ws).1 = .ok () → (s.flush flushed ws).2.buffer = [])
  | [], s => by unfold Socket.flush; split <;> (try split) <;> simp_all
  | .err :: _, s => by unfold Socket.flush; split <;> (try split) <;> simp_all
  | .ok 0 :: _, s => by unfold Socket.flush; split <;> (try split) <;> simp_all
  | .ok (n + 1) :: ws, s => by
    unfold Socket.flush
    split
    · split <;> simp_all
    · obtain ⟨h1, h2, h3⟩ := flush_facts flushed ws { buffer := s.buffer.drop (n + 1), wire := s.wire ++ s.buffer.take (n + 1) }
      refine ⟨?_, ?_, h3⟩
      · rw [h1]; simp [List.append_assoc]
      · exact (List.prefix_append _ _).trans h2

/-- What a step makes of a connection: it may be given up, or replaced by another, or goes on, with more sent and more written. -/
structure Conn.Next (c c' : Conn) : Prop where
  id : c'.id = c.id
  sent : c.sent <+: c'.sent
  wire : c.socket.wire <+: c'.socket.wire

theorem Conn.Next.refl (c : Conn) : c.Next c := ⟨rfl, List.prefix_refl _, List.prefix_refl _⟩

theorem Conn.Next.trans {a b c : Conn} (h : a.Next b) (h' : b.Next c) : a.Next c := ⟨h'.id.trans h.id, h.sent.trans h'.sent, h.wire.trans h'.wire⟩

theorem writable_facts {c c' : Conn} {y : Sys} (ok : c.Ok) (h : c.writable y = some c') : c'.Ok ∧ c.Next c' := by
  obtain ⟨h1, h2, h3⟩ := flush_facts y.flushed y.writes c.socket
  unfold Conn.writable at h
  split at h
  · rename_i k e
    rw [e] at h1 h2 h3
    injection h with h; subst h
    exact ⟨⟨h1.trans ok.stream, fun hb => absurd (h3 rfl) hb⟩, rfl, List.prefix_refl _, h2⟩
  · rename_i k e
    rw [e] at h1 h2
    injection h with h; subst h
    exact ⟨⟨h1.trans ok.stream, fun _ => rfl⟩, rfl, List.prefix_refl _, h2⟩
  · rename_i k e
    rw [e] at h1 h2
    split at h
    · injection h with h; subst h
      exact ⟨⟨h1.trans ok.stream, fun _ => rfl⟩, rfl, List.prefix_refl _, h2⟩
    · cases h

/-- All connections are in order, and their numbers have been given out. -/
structure State.Ok (s : State) : Prop where
  conn : ∀ a c, s.peers a = some c → c.Ok ∧ c.id < s.fresh

/-- What a step makes of the connections. -/
structure State.Next (s s' : State) : Prop where
  ok : s'.Ok
  fresh : s.fresh ≤ s'.fresh
  next : ∀ a c', s'.peers a = some c' → (∃ c, s.peers a = some c ∧ c.Next c') ∨ s.fresh ≤ c'.id

theorem State.Next.refl {s : State} (h : s.Ok) : s.Next s := ⟨h, Nat.le_refl _, fun _ c hc => .inl ⟨c, hc, .refl c⟩⟩

theorem State.Next.trans {s t u : State} (h : s.Next t) (h' : t.Next u) : s.Next u := by
  refine ⟨h'.ok, Nat.le_trans h.fresh h'.fresh, ?_⟩
  intro a c hc
  rcases h'.next a c hc with ⟨b, hb, hbc⟩ | hf
  · rcases h.next a b hb with ⟨d, hd, hdb⟩ | hf
    · exact .inl ⟨d, hd, hdb.trans hbc⟩
    · exact .inr (by rw [hbc.id]; exact hf)
  · exact .inr (Nat.le_trans h.fresh hf)

theorem next_register {s : State} (h : s.Ok) (a : Nat) (b : Bool) : s.Next (s.register a b) := by
  refine ⟨⟨?_⟩, Nat.le_succ _, ?_⟩
  · intro a' c hc
    by_cases e : a' = a
    · subst e
      simp only [State.register, Function.update_self, Option.some.injEq] at hc
      subst hc
      exact ⟨⟨rfl, fun hb => absurd rfl hb⟩, Nat.lt_succ_self _⟩
    · simp only [State.register, Function.update_of_ne e] at hc
      exact ⟨(h.conn a' c hc).1, Nat.lt_succ_of_lt (h.conn a' c hc).2⟩
  · intro a' c hc
    by_cases e : a' = a
    · subst e
      simp only [State.register, Function.update_self, Option.some.injEq] at hc
      subst hc
      exact .inr (Nat.le_refl _)
    · simp only [State.register, Function.update_of_ne e] at hc
      exact .inl ⟨c, hc, .refl c⟩

theorem next_update {s : State} (h : s.Ok) {a : Nat} {c c' : Conn} (hc : s.peers a = some c) (ok : c'.Ok) (hn : c.Next c') :
    s.Next { s with peers := Function.update s.peers a (some c') } := by
  refine ⟨⟨?_⟩, Nat.le_refl _, ?_⟩
  · intro b d hd
    by_cases e : b = a
    · subst e
      simp only [Function.update_self, Option.some.injEq] at hd
      subst hd
      exact ⟨ok, by rw [hn.id]; exact (h.conn _ _ hc).2⟩
    · simp only [Function.update_of_ne e] at hd
      exact h.conn b d hd
  · intro b d hd
    by_cases e : b = a
    · subst e
      simp only [Function.update_self, Option.some.injEq] at hd
      subst hd
      exact .inl ⟨c, hc, hn⟩
    · simp only [Function.update_of_ne e] at hd
      exact .inl ⟨d, hd, .refl d⟩

theorem next_unregister {s : State} (h : s.Ok) (a : Nat) : s.Next (s.unregister a) := by
  have key : ∀ b d, (s.unregister a).peers b = some d → s.peers b = some d := by
    intro b d hd
    by_cases e : b = a
    · subst e; simp [State.unregister] at hd
    · simpa only [State.unregister, Function.update_of_ne e] using hd
  exact ⟨⟨fun b d hd => h.conn b d (key b d hd)⟩, Nat.le_refl _, fun b d hd => .inl ⟨d, key b d hd, .refl d⟩⟩

theorem next_writable {s s' : State} (h : s.Ok) {a : Nat} {y : Sys} (e : s.handleWritable a y = some s') : s.Next s' := by
  unfold State.handleWritable at e
  split at e
  · cases e
  · rename_i c hc
    split at e
    · rename_i c' hw
      injection e with e; subst e
      obtain ⟨ok, hn⟩ := writable_facts (h.conn a c hc).1 hw
      exact next_update h hc ok hn
    · injection e with e; subst e
      exact next_unregister h a

theorem next_readable {s : State} (h : s.Ok) (a : Nat) (y : Sys) : s.Next (s.handleReadable a y) := by
  unfold State.handleReadable
  split
  · exact .refl h
  · split
    · exact next_unregister h a
    · exact .refl h

theorem next_event {s s' : State} (h : s.Ok) {e : Ev} (he : s.event e = some s') : s.Next s' := by
  cases e with
  | waker => injection he with he; subst he; exact .refl h
  | listener l =>
    injection he with he; subst he
    induction l generalizing s with
    | nil => exact .refl h
    | cons a l ih => exact (next_register h a false).trans (ih (next_register h a false).ok)
  | peer a w r y =>
    have key : ∃ t, (if w then s.handleWritable a y else some s) = some t ∧ s' = if r then t.handleReadable a y else t := by
      unfold State.event at he
      simp only at he
      split at he
      · cases he
      · rename_i t hw
        injection he with he; exact ⟨t, hw, he.symm⟩
    obtain ⟨t, ht, rfl⟩ := key
    have h1 : s.Next t := by
      split at ht
      · exact next_writable h ht
      · injection ht with ht; subst ht; exact .refl h
    split
    · exact h1.trans (next_readable h1.ok a y)
    · exact h1

theorem next_output {s : State} (h : s.Ok) (o : Out) : s.Next (s.output o) := by
  cases o with
  | other => exact .refl h
  | disconnect a => exact next_unregister h a
  | connect a ok =>
    cases ok
    · exact .refl h
    · exact next_register h a true
  | write a bytes =>
    simp only [State.output]
    split
    · rename_i c hc
      have ok := (h.conn a c hc).1
      refine next_update h hc ⟨?_, fun _ => rfl⟩ ⟨rfl, List.prefix_append _ _, List.prefix_refl _⟩
      simp only [Socket.push, ← List.append_assoc, ok.stream]
    · exact .refl h

theorem State.Next.stage {s s' : State} (h : s.Next s') (x : Stage) : s.Next { s' with stage := x } := ⟨⟨h.ok.conn⟩, h.fresh, h.next⟩

theorem next_step {s s' : State} (h : s.Ok) (hs : Step s s') : s.Next s' := by
  cases hs with
  | poll l _ _ => exact (State.Next.refl h).stage _
  | timeout _ => exact (State.Next.refl h).stage _
  | event _ he => exact (next_event h he).stage _
  | crash _ _ => exact (State.Next.refl h).stage _
  | done _ => exact (State.Next.refl h).stage _
  | output o _ => exact next_output h o
  | processed _ => exact (State.Next.refl h).stage _
  | idle => exact .refl h

theorem reach_ok {s : State} (h : Reach s) : s.Ok := by
  induction h with
  | start => exact ⟨fun a c hc => by simp [State.start] at hc⟩
  | step _ hs ih => exact (next_step ih hs).ok

/-! ## The events left are about registered sockets, each once -/

/-- The events of the stage. -/
def State.left (s : State) : List Ev := match s.stage with | .events l => l | _ => []

theorem event_keeps {s s' : State} {e : Ev} (he : s.event e = some s') {a : Nat} (ha : e.addr ≠ some a) (h : (s.peers a).isSome) : (s'.peers a).isSome := by
  have un : ∀ (t : State) b, b ≠ a → (t.peers a).isSome → ((t.unregister b).peers a).isSome := by
    intro t b hb h
    simpa only [State.unregister, Function.update_of_ne (Ne.symm hb)] using h
  cases e with
  | waker => injection he with he; subst he; exact h
  | listener l =>
    injection he with he; subst he
    induction l generalizing s with
    | nil => exact h
    | cons b l ih =>
      refine ih ?_ (by simp [Ev.addr])
      by_cases e : a = b
      · subst e; simp [State.register]
      · simpa only [State.register, Function.update_of_ne e] using h
  | peer b w r y =>
    have hb : b ≠ a := fun e => ha (by rw [e]; rfl)
    have key : ∃ t, (if w then s.handleWritable b y else some s) = some t ∧ s' = if r then t.handleReadable b y else t := by
      unfold State.event at he
      simp only at he
      split at he
      · cases he
      · rename_i t hw
        injection he with he; exact ⟨t, hw, he.symm⟩
    obtain ⟨t, ht, rfl⟩ := key
    have h1 : (t.peers a).isSome := by
      split at ht
      · unfold State.handleWritable at ht
        split at ht
        · cases ht
        · split at ht
          · injection ht with ht; subst ht
            simpa only [Function.update_of_ne (Ne.symm hb)] using h
          · injection ht with ht; subst ht; exact un s b hb h
      · injection ht with ht; subst ht; exact h
    split
    · unfold State.handleReadable
      split
      · exact h1
      · split
        · exact un t b hb h1
        · exact h1
    · exact h1

theorem reach_left {s : State} (h : Reach s) : (s.left.filterMap Ev.addr).Nodup ∧ (∀ a ∈ s.left.filterMap Ev.addr, (s.peers a).isSome) ∧
    (∀ x, s.stage = x → ¬ (match x with | .crashed => True | _ => False)) := by
  induction h with
  | start => exact ⟨by simp [State.left, State.start], by simp [State.left, State.start], by rintro x rfl; simp [State.start]⟩
  | @step s s' _ hs ih =>
    obtain ⟨h1, h2, h3⟩ := ih
    cases hs with
    | poll l hst hl =>
      refine ⟨hl.once, ?_, by rintro x rfl; simp⟩
      intro a ha
      obtain ⟨e, he, hea⟩ := List.mem_filterMap.1 ha
      cases e with
      | peer b w r y =>
        injection hea with hea; subst hea
        obtain ⟨c, hc, _⟩ := hl.known _ _ _ _ he
        simp [hc]
      | listener _ => cases hea
      | waker => cases hea
    | timeout hst => exact ⟨by simp [State.left], by simp [State.left], by rintro x rfl; simp⟩
    | done hst => exact ⟨by simp [State.left], by simp [State.left], by rintro x rfl; simp⟩
    | processed hst => exact ⟨by simp [State.left], by simp [State.left], by rintro x rfl; simp⟩
    | idle => exact ⟨h1, h2, h3⟩
    | output o hst =>
      have : (s.output o).stage = .process := by
        cases o with
        | other => exact hst
        | disconnect a => exact hst
        | connect a ok => simp only [State.output]; split <;> exact hst
        | write a b => simp only [State.output]; split <;> exact hst
      exact ⟨by simp [State.left, this], by simp [State.left, this], by rintro x rfl; simp [this]⟩
    | @event t e l hst he =>
      have hl : s.left = e :: l := by simp [State.left, hst]
      rw [hl] at h1 h2
      refine ⟨?_, ?_, by rintro x rfl; simp⟩
      · show (l.filterMap Ev.addr).Nodup
        rw [List.filterMap_cons] at h1
        split at h1
        · exact h1
        · exact (List.nodup_cons.1 h1).2
      · intro a ha
        have ha : a ∈ l.filterMap Ev.addr := ha
        refine event_keeps he ?_ (h2 a (by rw [List.filterMap_cons]; split <;> simp [ha]))
        intro e'
        rw [List.filterMap_cons, e'] at h1
        exact (List.nodup_cons.1 h1).1 ha
    | @crash e l hst he =>
      exfalso
      have hl : s.left = e :: l := by simp [State.left, hst]
      rw [hl] at h2
      cases e with
      | waker => cases he
      | listener l => cases he
      | peer a w r y =>
        have := h2 a (by simp [Ev.addr])
        obtain ⟨c, hc⟩ := Option.isSome_iff_exists.1 this
        unfold State.event at he
        by_cases hw : w = true
        · simp only [hw, if_true, State.handleWritable, hc] at he
          cases hcw : c.writable y <;> simp [hcw] at he
        · simp [hw] at he

/-! ## Theorems -/

/-- **C143** What is on the wire is what the service wrote to the connection, in order, up to what is still in the buffer. -/
theorem C143_stream {s : State} (h : Reach s) {a : Nat} {c : Conn} (hc : s.peers a = some c) : c.socket.wire ++ c.socket.buffer = c.sent :=
  ((reach_ok h).conn a c hc).1.stream

/-- **C143** No bytes are forgotten: while some are in the buffer, the reactor asks to be told when the socket can be written to. -/
theorem C143_asks {s : State} (h : Reach s) {a : Nat} {c : Conn} (hc : s.peers a = some c) (hb : c.socket.buffer ≠ []) : c.write = true :=
  ((reach_ok h).conn a c hc).1.asks hb

/-- The network takes bytes from connection `i` with `a`: as long as the reactor asks to be told, it is told at some time, and some bytes are taken. -/
def Takes (f : Nat → State) (a i n : Nat) : Prop :=
  ∀ m, n ≤ m → ∃ k c c', m ≤ k ∧ (f k).peers a = some c ∧ c.id = i ∧ (f (k + 1)).peers a = some c' ∧ c'.id = i ∧
    (c.write = false ∨ c.socket.wire.length < c'.socket.wire.length)

theorem takes_all {f : Nat → State} (hr : Run f) {a i n : Nat} (hc : ∀ m, n ≤ m → ∃ c, (f m).peers a = some c ∧ c.id = i) (ht : Takes f a i n)
    (l : List Nat) (d : Nat) : ∀ m c, n ≤ m → (f m).peers a = some c → l <+: c.sent → l.length ≤ c.socket.wire.length + d →
    ∃ k c', m ≤ k ∧ (f k).peers a = some c' ∧ c'.id = i ∧ l <+: c'.socket.wire := by
  have grow : ∀ m k, n ≤ m → m ≤ k → ∀ c c', (f m).peers a = some c → (f k).peers a = some c' → c.Next c' := by
    intro m k hm hk
    induction hk with
    | refl => intro c c' h h'; rw [h] at h'; injection h' with h'; subst h'; exact .refl c
    | @step k hk ih =>
      have hk : m ≤ k := hk
      intro c c' h h'
      obtain ⟨b, hb, hbi⟩ := hc k (by omega)
      obtain ⟨b', hb', hbi'⟩ := hc (k + 1) (by omega)
      rw [h'] at hb'; injection hb' with hb'; subst hb'
      rcases (next_step (reach_ok (hr.reach k)) (hr.step k)).next a c' h' with ⟨e, he, hn⟩ | hf
      · rw [hb] at he; injection he with he; subst he
        exact (ih c b h hb).trans hn
      · have := ((reach_ok (hr.reach k)).conn a b hb).2
        omega
  induction d with
  | zero =>
    intro m c hm h hl hd
    obtain ⟨c1, h1, hi⟩ := hc m hm
    rw [h] at h1; injection h1 with h1; subst h1
    refine ⟨m, c, Nat.le_refl _, h, hi, ?_⟩
    exact List.prefix_of_prefix_length_le hl ⟨_, C143_stream (hr.reach m) h⟩ (by omega)
  | succ d ih =>
    intro m c hm h hl hd
    obtain ⟨k, b, b', hk, hb, hbi, hb', hbi', hor⟩ := ht m hm
    have n1 := grow m k hm hk c b h hb
    have n2 := grow k (k + 1) (by omega) (by omega) b b' hb hb'
    rcases hor with hw | hlt
    · have he : b.socket.buffer = [] := by
        by_cases he : b.socket.buffer = []
        · exact he
        · rw [C143_asks (hr.reach k) hb he] at hw; cases hw
      refine ⟨k, b, hk, hb, hbi, ?_⟩
      have hs := C143_stream (hr.reach k) hb
      rw [he, List.append_nil] at hs
      rw [hs]
      exact hl.trans n1.sent
    · obtain ⟨k', c', hk', hc', hi', hp⟩ := ih (k + 1) b' (by omega) hb' (hl.trans (n1.sent.trans n2.sent))
        (by have := n1.wire.length_le; omega)
      exact ⟨k', c', by omega, hc', hi', hp⟩

/-- **C143** Everything the service writes to a connection that lasts gets on the wire at some time, if the network takes bytes from it. -/
theorem C143_written {f : Nat → State} (hr : Run f) {a i n : Nat} (hc : ∀ m, n ≤ m → ∃ c, (f m).peers a = some c ∧ c.id = i) (ht : Takes f a i n)
    {m : Nat} (hm : n ≤ m) {c : Conn} (h : (f m).peers a = some c) : ∃ k c', m ≤ k ∧ (f k).peers a = some c' ∧ c'.id = i ∧ c.sent <+: c'.socket.wire :=
  takes_all hr hc ht c.sent c.sent.length m c hm h (List.prefix_refl _) (by omega)

/-- **C143** No event of a socket makes the reactor panic. -/
theorem C143_no_crash {s : State} (h : Reach s) : s.stage ≠ .crashed := fun e => (reach_left h).2.2 _ e trivial

/-! ## Concrete cases -/

namespace Example

/-- The socket takes one byte, and then no more. -/
def one : Sys := ⟨[.ok 1, .err], true, true, false⟩
/-- The socket takes everything. -/
def rest : Sys := ⟨[.ok 2], true, true, false⟩

/-- The client dials a peer and sends three bytes before it is connected.  When it is, one byte is taken, and later the other two. -/
def s1 : State := State.start.output (.connect 7 true)
def s2 : State := s1.output (.write 7 [1, 2, 3])
def s3 : State := { s2 with stage := .polling }
def s4 : State := { s3 with stage := .events [.peer 7 true false one] }
def s5 : State := { (s4.event (.peer 7 true false one)).getD s4 with stage := .events [] }
def s6 : State := { s5 with stage := .process }
def s7 : State := { s6 with stage := .polling }
def s8 : State := { s7 with stage := .events [.peer 7 true true rest] }
def s9 : State := { (s8.event (.peer 7 true true rest)).getD s8 with stage := .events [] }

def f : Nat → State
  | 0 => .start | 1 => s1 | 2 => s2 | 3 => s3 | 4 => s4 | 5 => s5 | 6 => s6 | 7 => s7 | 8 => s8 | _ + 9 => s9

theorem run : Run f where
  start := rfl
  step
    | 0 => .output (s := .start) (.connect 7 true) rfl
    | 1 => .output (s := s1) (.write 7 [1, 2, 3]) rfl
    | 2 => .processed rfl
    | 3 => .poll _ rfl ⟨by decide, by
        intro a w r y h
        simp only [List.mem_singleton, Ev.peer.injEq] at h
        obtain ⟨rfl, rfl, rfl, rfl⟩ := h
        exact ⟨_, rfl, fun _ => rfl⟩⟩
    | 4 => .event (s := s4) rfl rfl
    | 5 => .done rfl
    | 6 => .processed rfl
    | 7 => .poll _ rfl ⟨by decide, by
        intro a w r y h
        simp only [List.mem_singleton, Ev.peer.injEq] at h
        obtain ⟨rfl, rfl, rfl, rfl⟩ := h
        exact ⟨_, rfl, fun _ => rfl⟩⟩
    | 8 => .event (s := s8) rfl rfl
    | _ + 9 => .idle

theorem lasts : ∀ m, 1 ≤ m → ∃ c, (f m).peers 7 = some c ∧ c.id = 0
  | 1, _ => ⟨_, rfl, rfl⟩ | 2, _ => ⟨_, rfl, rfl⟩ | 3, _ => ⟨_, rfl, rfl⟩ | 4, _ => ⟨_, rfl, rfl⟩ | 5, _ => ⟨_, rfl, rfl⟩
  | 6, _ => ⟨_, rfl, rfl⟩ | 7, _ => ⟨_, rfl, rfl⟩ | 8, _ => ⟨_, rfl, rfl⟩ | _ + 9, _ => ⟨_, rfl, rfl⟩

theorem takes : Takes f 7 0 1 := fun m _ => ⟨m + 9, _, _, by omega, rfl, rfl, rfl, rfl, .inl rfl⟩

/-- While a byte is taken two wait in the buffer, and the reactor asks to be told. -/
example : ∃ c, s5.peers 7 = some c ∧ c.socket.wire = [1] ∧ c.socket.buffer = [2, 3] ∧ c.write = true := ⟨_, rfl, rfl, rfl, rfl⟩
/-- In the end all are written. -/
example : ∃ k c', 2 ≤ k ∧ (f k).peers 7 = some c' ∧ c'.id = 0 ∧ [1, 2, 3] <+: c'.socket.wire :=
  C143_written run lasts takes (m := 2) (by omega) rfl

end Example

end Verif.Loop.Sockets
