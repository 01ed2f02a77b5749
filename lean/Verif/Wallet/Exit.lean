/-!
# How the wallet program ends: wallet/src/lib.rs, wallet/src/input.rs, the loops of wallet/src/wallet.rs (C150)

Four threads: the main one, and those for input (`input::run`), for signals (`input::signals`) and for the client.  Their steps interleave in any order.  What is drawn and what is
done with events is not modelled here (see `Verif.Wallet.Screen`); the client is a thread that may fail at any time and ends when it is told to (see `Verif.Loop`).
-/

set_option autoImplicit false

namespace Verif.Wallet.Exit

/-- Keys: `q` or escape, or any other event of the terminal. -/
inductive Key where
  | quit
  | other
  deriving DecidableEq, Repr

/-- `Signal` (input.rs:19-23). -/
inductive Signal where
  | resized
  | interrupted
  deriving DecidableEq, Repr

/-- How threads end. -/
inductive End where
  | ok
  | error
  | panic
  deriving DecidableEq, Repr

/-- Where the main thread is in `run` (lib.rs:31-106). -/
inductive Main where
  /-- Before the loops of `Wallet::run` (wallet.rs:103-141). -/
  | opening
  /-- The first loop of `Wallet::run` (wallet.rs:143-170). -/
  | loading
  /-- The second loop (wallet.rs:174-199). -/
  | running
  /-- Before `exit_tx.send` (lib.rs:95). -/
  | leaving
  /-- Before `handle.shutdown` (lib.rs:99). -/
  | stopping
  /-- At the joins (lib.rs:101-103). -/
  | join1
  | join2
  | join3
  /-- `run` has returned or panicked; when it returns an error, the process ends (main.rs:63-66). -/
  | ended (e : End)
  deriving DecidableEq, Repr

/-- The thread of the client (lib.rs:67-73): in `load`, in `run`, or at its end. -/
inductive Client where
  | loading
  | running
  | ended (e : End)
  deriving DecidableEq, Repr

/-- Everything.  `input`, `signal`: how these threads ended, if they did.  `inputs`, `signals`: what is in the channels; `events`: how many
events of the client (or of its loading) are.  `exit`: whether the exit channel holds a message;
`stop`: whether the client was told to shut down.  `typed`, `sent`: whether the user ever typed `q` or escape, and whether the program ever got an interrupt (only for the statements). -/
structure State where
  offline : Bool
  main : Main
  input : Option End
  signal : Option End
  client : Client
  inputs : List Key
  signals : List Signal
  events : Nat
  exit : Bool
  stop : Bool
  typed : Bool
  sent : Bool
  deriving DecidableEq, Repr

/-- The beginning: all threads run (lib.rs:62-73), but if signals cannot be handled (input.rs:45), their thread ends at once. -/
def State.start (offline signals : Bool) : State :=
  ⟨offline, .opening, none, if signals then none else some .error, .loading, [], [], 0, false, false, false, false⟩

/-- The receivers of inputs and signals exist as long as `Wallet::run` does not return. -/
def State.listening (s : State) : Bool := s.main = .opening ∨ s.main = .loading ∨ s.main = .running

/-- The main thread is in one of the loops. -/
def State.looping (s : State) : Bool := s.main = .loading ∨ s.main = .running

/-- What the user does: type a key, send an interrupt (the terminal is in raw mode, in which Ctrl-C is a key like any other) or resize the window. -/
inductive UserStep : State → State → Prop
  /-- `input::run` gets an event after it was told to exit (input.rs:31-33). -/
  | exit {s : State} (k : Key) (h : s.input = none) (he : s.exit = true) : UserStep s { s with input := some .ok, exit := false, typed := s.typed || k = .quit }
  /-- `q` or escape (input.rs:34-36): nothing is sent. -/
  | quit {s : State} (h : s.input = none) (he : s.exit = false) : UserStep s { s with input := some .ok, typed := true }
  /-- Any other event is sent on (wallet/src/input.rs:37), or fails to be. -/
  | key {s : State} (h : s.input = none) (he : s.exit = false) :
      UserStep s (if s.listening then { s with inputs := s.inputs ++ [.other] } else { s with input := some .error })
  /-- Reading from the terminal fails (wallet/src/input.rs:29), or there is nothing more to read (39). -/
  | eof {s : State} (e : End) (h : s.input = none) (he : e ≠ .panic) : UserStep s { s with input := some e }
  /-- A signal (input.rs:46-50): the loop over signals has no end, so the thread ends only when it fails to send one on. -/
  | signal {s : State} (g : Signal) (h : s.signal = none) :
      UserStep s (if s.listening then { s with signals := s.signals ++ [g], sent := s.sent || g = .interrupted } else { s with signal := some .error, sent := s.sent || g = .interrupted })

/-- Steps of the program that need nothing of the user. -/
inductive Step : State → State → Prop
  /-- The loops begin; offline there is no loading (wallet.rs:136-140). -/
  | opened {s : State} (h : s.main = .opening) : Step s { s with main := if s.offline then .running else .loading }
  /-- Something fails before that: the database, the terminal, or the command to the client (wallet.rs:103-140). -/
  | fails {s : State} (h : s.main = .opening) : Step s { s with main := .ended .error }
  /-- An input is taken (wallet.rs:145-151, 176-182). -/
  | input {s : State} {k : Key} {l : List Key} (h : s.looping = true) (hi : s.inputs = k :: l) : Step s { s with inputs := l }
  /-- There are no more inputs, as their thread has ended: `input?` fails (wallet.rs:146, 177). -/
  | noInput {s : State} (h : s.looping = true) (hi : s.inputs = []) (ht : s.input ≠ none) : Step s { s with main := .ended .error }
  /-- The window was resized (wallet.rs:152-158, 183-189). -/
  | resized {s : State} {l : List Signal} (h : s.looping = true) (hi : s.signals = .resized :: l) : Step s { s with signals := l }
  /-- An interrupt: `Wallet::run` returns (wallet.rs:155-157, 186-188). -/
  | interrupted {s : State} {l : List Signal} (h : s.looping = true) (hi : s.signals = .interrupted :: l) : Step s { s with signals := l, main := .leaving }
  /-- There are no more signals: `signal?` fails (wallet.rs:153, 184). -/
  | noSignal {s : State} (h : s.looping = true) (hi : s.signals = []) (ht : s.signal ≠ none) : Step s { s with main := .ended .error }
  /-- An event of the client (wallet.rs:159-163, 190-196).  The channel is never closed: the handle, which the main thread has, keeps its sending end (net/src/event.rs:64-78). -/
  | event {s : State} {n : Nat} (h : s.looping = true) (hi : s.events = n + 1) : Step s { s with events := n }
  /-- Handling an input, a signal or an event fails: drawing, the database, the hardware device (wallet.rs:143-199). -/
  | breaks {s : State} (h : s.looping = true) (hi : s.inputs ≠ [] ∨ s.signals ≠ [] ∨ s.events ≠ 0) : Step s { s with main := .ended .error }
  /-- The client is loaded, or its loading failed: the loading channel is closed (wallet.rs:159-167). -/
  | loaded {s : State} (h : s.main = .loading) (hc : s.client ≠ .loading) : Step s { s with main := .running }
  /-- `exit_tx.send(()).unwrap()` (lib.rs:95): the receiver is gone when the thread has ended. -/
  | leave {s : State} (h : s.main = .leaving) : Step s (if s.input = none then { s with main := .stopping, exit := true } else { s with main := .ended .panic })
  /-- `handle.shutdown()?` (lib.rs:99): the receiver is gone when the client has ended. -/
  | shutdown {s : State} (h : s.main = .stopping) : Step s (match s.client with | .ended _ => { s with main := .ended .error } | _ => { s with main := .join1, stop := true })
  /-- `t1.join().unwrap()?` (wallet/src/lib.rs:101). -/
  | join1 {s : State} {e : End} (h : s.main = .join1) (ht : s.input = some e) : Step s { s with main := if e = .ok then .join2 else .ended e }
  /-- `t2.join().unwrap()?` (wallet/src/lib.rs:102). -/
  | join2 {s : State} {e : End} (h : s.main = .join2) (ht : s.signal = some e) : Step s { s with main := if e = .ok then .join3 else .ended e }
  /-- `t3.join().unwrap()?` (wallet/src/lib.rs:103), and the end (105). -/
  | join3 {s : State} {e : End} (h : s.main = .join3) (ht : s.client = .ended e) : Step s { s with main := .ended e }
  /-- The client has an event. -/
  | emit {s : State} (h : ∀ e, s.client ≠ .ended e) (ho : s.offline = false) : Step s { s with events := s.events + 1 }
  /-- The client is not started (lib.rs:68-69). -/
  | offline {s : State} (h : s.client = .loading) (ho : s.offline = true) : Step s { s with client := .ended .ok }
  /-- `load` (lib.rs:71). -/
  | load {s : State} (h : s.client = .loading) (ho : s.offline = false) : Step s { s with client := .running }
  /-- `load` or `run` fail (lib.rs:71). -/
  | clientFails {s : State} (e : End) (h : ∀ e, s.client ≠ .ended e) (ho : s.offline = false) (he : e ≠ .ok) : Step s { s with client := .ended e }
  /-- `run` ends when it was told to (see C141). -/
  | clientEnds {s : State} (h : s.client = .running) (hs : s.stop = true) : Step s { s with client := .ended .ok }

/-- The states that are reached.  Nothing happens after the end of the main thread. -/
inductive Reach (offline : Bool) : State → Prop
  | start (signals : Bool) : Reach offline (State.start offline signals)
  | user {s s' : State} (h : Reach offline s) (hr : ∀ e, s.main ≠ .ended e) (hs : UserStep s s') : Reach offline s'
  | step {s s' : State} (h : Reach offline s) (hr : ∀ e, s.main ≠ .ended e) (hs : Step s s') : Reach offline s'

/-- What is always so. -/
structure Inv (offline : Bool) (s : State) : Prop where
  offline : s.offline = offline
  /-- The thread for signals never ends well. -/
  signal : s.signal ≠ some .ok
  /-- So the main thread never gets past it. -/
  main : s.main ≠ .join3 ∧ s.main ≠ .ended .ok
  /-- The main thread waits for the others only after the client was told to stop. -/
  stop : s.main = .join1 ∨ s.main = .join2 → s.stop = true
  /-- The client was told to stop only after an interrupt. -/
  leave : s.main = .leaving ∨ s.main = .stopping ∨ s.stop = true → s.sent = true
  /-- Signals in the channel were sent. -/
  signals : Signal.interrupted ∈ s.signals → s.sent = true
  /-- The client ends well only if it is offline or was told to stop. -/
  client : s.client = .ended .ok → s.offline = true ∨ s.stop = true

theorem looping_iff {s : State} : s.looping = true ↔ s.main = .loading ∨ s.main = .running := by simp [State.looping]

theorem listening_iff {s : State} : s.listening = true ↔ s.main = .opening ∨ s.main = .loading ∨ s.main = .running := by simp [State.listening]

theorem inv_user {offline : Bool} {s s' : State} (h : Inv offline s) (hs : UserStep s s') : Inv offline s' := by
  obtain ⟨h1, h2, h3, h4, h5, h6, h7⟩ := h
  cases hs with
  | exit k => exact ⟨h1, h2, h3, h4, h5, h6, h7⟩
  | quit => exact ⟨h1, h2, h3, h4, h5, h6, h7⟩
  | key => split <;> exact ⟨h1, h2, h3, h4, h5, h6, h7⟩
  | eof => exact ⟨h1, h2, h3, h4, h5, h6, h7⟩
  | signal g hn =>
    have h5' : s.main = .leaving ∨ s.main = .stopping ∨ s.stop = true → (s.sent || decide (g = .interrupted)) = true := fun h => by simp [h5 h]
    split
    · refine ⟨h1, h2, h3, h4, h5', ?_, h7⟩
      intro hm
      rcases List.mem_append.1 hm with hm | hm
      · simp [h6 hm]
      · simp [(List.mem_singleton.1 hm).symm]
    · exact ⟨h1, by simp, h3, h4, h5', fun hm => by simp [h6 hm], h7⟩

theorem inv_step {offline : Bool} {s s' : State} (h : Inv offline s) (hs : Step s s') : Inv offline s' := by
  obtain ⟨h1, h2, h3, h4, h5, h6, h7⟩ := h
  cases hs with
  | opened h => refine ⟨h1, h2, ?_, ?_, ?_, h6, h7⟩ <;> (simp only; split <;> simp_all)
  | fails h => exact ⟨h1, h2, by simp, by simp, fun h => h5 (.inr (.inr (by simpa using h))), h6, h7⟩
  | input h hi => exact ⟨h1, h2, h3, h4, h5, h6, h7⟩
  | noInput h hi ht => exact ⟨h1, h2, by simp, by simp, fun h => h5 (.inr (.inr (by simpa using h))), h6, h7⟩
  | resized h hi => exact ⟨h1, h2, h3, h4, h5, fun hm => h6 (by rw [hi]; exact List.mem_cons_of_mem _ hm), h7⟩
  | interrupted h hi =>
    have hg := h6 (by rw [hi]; exact List.mem_cons_self ..)
    exact ⟨h1, h2, by simp, by simp, fun _ => hg, fun _ => hg, h7⟩
  | noSignal h hi ht => exact ⟨h1, h2, by simp, by simp, fun h => h5 (.inr (.inr (by simpa using h))), h6, h7⟩
  | event h hi => exact ⟨h1, h2, h3, h4, h5, h6, h7⟩
  | breaks h hi => exact ⟨h1, h2, by simp, by simp, fun h => h5 (.inr (.inr (by simpa using h))), h6, h7⟩
  | loaded h hc => exact ⟨h1, h2, by simp, by simp, fun h => h5 (.inr (.inr (by simpa using h))), h6, h7⟩
  | leave h =>
    have hg := h5 (.inl h)
    split
    · exact ⟨h1, h2, by simp, by simp, fun _ => hg, h6, h7⟩
    · exact ⟨h1, h2, by simp, by simp, fun _ => hg, h6, h7⟩
  | shutdown h =>
    have hg := h5 (.inr (.inl h))
    split
    · exact ⟨h1, h2, by simp, by simp, fun _ => hg, h6, h7⟩
    · exact ⟨h1, h2, by simp, by simp, fun _ => hg, h6, fun _ => .inr rfl⟩
  | @join1 e h ht =>
    have hs := h4 (.inl h)
    have hg := h5 (.inr (.inr hs))
    by_cases he : e = .ok
    · simp only [he, if_true]; exact ⟨h1, h2, by simp, fun _ => hs, fun _ => hg, h6, h7⟩
    · simp only [he, if_false]; exact ⟨h1, h2, by simp [he], by simp, fun _ => hg, h6, h7⟩
  | @join2 e h ht =>
    have hg := h5 (.inr (.inr (h4 (.inr h))))
    have he : e ≠ .ok := fun he => h2 (by rw [ht, he])
    simp only [he, if_false]; exact ⟨h1, h2, by simp [he], by simp, fun _ => hg, h6, h7⟩
  | join3 h ht => exact absurd h h3.1
  | emit h ho => exact ⟨h1, h2, h3, h4, h5, h6, h7⟩
  | offline h ho => exact ⟨h1, h2, h3, h4, h5, h6, fun _ => .inl ho⟩
  | load h ho => exact ⟨h1, h2, h3, h4, h5, h6, by simp⟩
  | clientFails e h ho he => exact ⟨h1, h2, h3, h4, h5, h6, fun hc => absurd (by injection hc) he⟩
  | clientEnds h hs => exact ⟨h1, h2, h3, h4, h5, h6, fun _ => .inr hs⟩

theorem reach_inv {offline : Bool} {s : State} (h : Reach offline s) : Inv offline s := by
  induction h with
  | start signals => cases signals <;> exact ⟨rfl, by simp [State.start], by simp [State.start], by simp [State.start], by simp [State.start], by simp [State.start], by simp [State.start]⟩
  | user h _ hs ih => exact inv_user ih hs
  | step h _ hs ih => exact inv_step ih hs

/-- **C150** The program never ends well: whatever the user does, `run` does not return without an error. -/
theorem C150_never_ok {offline : Bool} {s : State} (h : Reach offline s) : s.main ≠ .ended .ok := (reach_inv h).main.2

/-- **C150** After an interrupt, the program goes on until the user types something, and then until there is another signal: no step of its own gets it past the two threads. -/
theorem C150_waits {s s' : State} (hs : Step s s') (h : s.main = .join1 ∧ s.input = none ∨ s.main = .join2 ∧ s.signal = none) :
    s'.main = s.main ∧ s'.input = s.input ∧ s'.signal = s.signal := by
  have hl : s.looping = false := by
    rw [Bool.eq_false_iff]; intro hl
    rw [looping_iff] at hl
    rcases h with ⟨h, _⟩ | ⟨h, _⟩ <;> simp [h] at hl
  cases hs <;> simp_all

/-- **C150** (partial) The client is told to stop only after an interrupt, and always before the program waits for it; and it does not end well without that. -/
theorem C150_told_partial {offline : Bool} {s : State} (h : Reach offline s) :
    (s.stop = true → s.sent = true) ∧ (s.main = .join1 ∨ s.main = .join2 → s.stop = true) ∧ (s.client = .ended .ok → offline = true ∨ s.stop = true) := by
  have hI := reach_inv h
  exact ⟨fun hs => hI.leave (.inr (.inr hs)), hI.stop, fun hc => hI.offline ▸ hI.client hc⟩

/-- **C150** (partial) When the thread for input has ended, by `q`, the main thread does not wait: it takes the inputs that are left, of which there are not more than before, and then
ends with an error. -/
theorem C150_quit_partial {s : State} (ht : s.input ≠ none) (hl : s.looping = true) :
    (∃ s', Step s s' ∧ (s'.main = .ended .error ∧ s.inputs = [] ∨ s'.inputs.length < s.inputs.length)) ∧
    (∀ s', UserStep s s' → s'.inputs = s.inputs ∧ s'.input ≠ none) ∧ ∀ s', Step s s' → s'.inputs.length ≤ s.inputs.length ∧ s'.input ≠ none := by
  refine ⟨?_, ?_, ?_⟩
  · cases hi : s.inputs with
    | nil => exact ⟨_, .noInput hl hi ht, .inl ⟨rfl, rfl⟩⟩
    | cons k l => exact ⟨_, .input hl hi, .inr (by simp)⟩
  · intro s' hs
    cases hs with
    | exit k h he => exact absurd h ht
    | quit h he => exact absurd h ht
    | key h he => exact absurd h ht
    | eof e h he => exact absurd h ht
    | signal g h => split <;> exact ⟨rfl, ht⟩
  · intro s' hs
    cases hs with
    | input h hi => rw [hi]; exact ⟨by simp, ht⟩
    | leave h => split <;> exact ⟨Nat.le_refl _, ht⟩
    | shutdown h => split <;> exact ⟨Nat.le_refl _, ht⟩
    | _ => exact ⟨Nat.le_refl _, ht⟩

/-! ## Cases -/

namespace Scenarios

instance {p : End → Prop} [DecidablePred p] : Decidable (∀ e, p e) :=
  decidable_of_iff (p .ok ∧ p .error ∧ p .panic) ⟨fun h e => match e with | .ok => h.1 | .error => h.2.1 | .panic => h.2.2, fun h => ⟨h _, h _, h _⟩⟩

/-- Online, the client runs. -/
def begun : State := ⟨false, .running, none, none, .running, [], [], 0, false, false, false, false⟩

theorem begun_reach : Reach false begun := by
  have h0 := Reach.start (offline := false) true
  have h1 := Reach.step h0 (by decide) (.opened rfl)
  have h2 := Reach.step h1 (by decide) (.load rfl rfl)
  exact Reach.step h2 (by decide) (.loaded rfl (by decide))

/-- **C150** After an interrupt the program hangs: the client has ended, and there is no step that does not need the user. -/
theorem C150_interrupt_counterexample : ∃ s, Reach false s ∧ s.sent = true ∧ s.client = .ended .ok ∧ (∀ e, s.main ≠ .ended e) ∧ ∀ s', ¬ Step s s' := by
  have h1 := Reach.user begun_reach (by decide) (.signal .interrupted rfl)
  have h2 := Reach.step h1 (by decide) (.interrupted (l := []) (by decide) rfl)
  have h3 := Reach.step h2 (by decide) (.leave rfl)
  have h4 := Reach.step h3 (by decide) (.shutdown rfl)
  have h5 := Reach.step h4 (by decide) (.clientEnds rfl rfl)
  refine ⟨_, h5, rfl, rfl, by decide, ?_⟩
  intro s' hs
  cases hs <;> simp_all [begun, State.listening, State.looping]

/-- **C150** After `q` the program ends with an error, while the client runs and was not told to stop. -/
theorem C150_quit_counterexample : ∃ s, Reach false s ∧ s.typed = true ∧ s.main = .ended .error ∧ s.client = .running ∧ s.stop = false := by
  have h1 := Reach.user begun_reach (by decide) (.quit rfl rfl)
  have h2 := Reach.step h1 (by decide) (.noInput (by decide) rfl (by decide))
  exact ⟨_, h2, rfl, rfl, rfl, rfl⟩

/-- **C150** `q` and an interrupt together make it panic. -/
theorem C150_panic_counterexample : ∃ s, Reach false s ∧ s.main = .ended .panic := by
  have h1 := Reach.user begun_reach (by decide) (.signal .interrupted rfl)
  have h2 := Reach.user h1 (by decide) (.quit rfl rfl)
  have h3 := Reach.step h2 (by decide) (.interrupted (l := []) (by decide) rfl)
  have h4 := Reach.step h3 (by decide) (.leave rfl)
  exact ⟨_, h4, rfl⟩

/-- **C150** When the client fails, the program does not notice: it waits for events that will not come. -/
theorem C150_deaf_counterexample : ∃ s, Reach false s ∧ s.client = .ended .error ∧ s.main = .running ∧ ∀ s', ¬ Step s s' := by
  have h1 := Reach.step begun_reach (by decide) (.clientFails .error (by decide) rfl (by decide))
  refine ⟨_, h1, rfl, rfl, ?_⟩
  intro s' hs
  cases hs <;> simp_all [begun, State.looping]

/-- Offline, and with signals that cannot be handled, the program runs and ends too. -/
example : Reach true { State.start true false with main := .ended .error, client := .ended .ok } := by
  have h1 := Reach.step (Reach.start (offline := true) false) (by decide) (.opened rfl)
  have h2 := Reach.step h1 (by decide) (.offline rfl rfl)
  exact Reach.step h2 (by decide) (.noSignal (by decide) rfl (by decide))

end Scenarios
end Verif.Wallet.Exit
