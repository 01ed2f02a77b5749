import Verif.Loop.Props
import Verif.Loop.PropsTimers

/-!
# Executions that meet the hypotheses of C140, C141 and C142
-/

set_option autoImplicit false

namespace Verif.Loop

/-! ## A command is handled, a shutdown is lost -/

theorem Race.run_ok : Run Race.run := ⟨⟨0, rfl⟩, Race.steps⟩

theorem Race.fair : Fair Race.run := fun n => ⟨n + 15, by omega, .inr (.inl ⟨⟨3600000, rfl, by simp [Race.run, Race.st]⟩, rfl⟩)⟩

theorem Race.only_sends {s s' : State} (h : CallerStep s s') (hs : s.stop = true) (hc : ∀ t, s.callers t = .idle) : s.queue.length < s'.queue.length := by
  cases h with
  | send t c _ _ => simp
  | stop t _ _ h => rw [hs] at h; cases h
  | wake t h => rw [hc t] at h; cases h

/-- C140: the command waits while its call is in progress, and has been handled after eleven steps. -/
example : (Race.run 3).queue = [(1, 7)] ∧ (Race.run 3).callers 1 = .sent ∧ (Race.run 3).flag = false ∧ (Race.run 4).callers 1 = .idle ∧
    (Race.run 4).sent = [(1, 7)] ∧ (Race.run 4).handled = [] ∧ (Race.run 11).handled = [(1, 7)] := by
  refine ⟨rfl, ?_, rfl, rfl, rfl, rfl, rfl⟩
  simp [Race.run, Race.st, Race.one]

example : ∃ m, 4 ≤ m ∧ ([((1 : Nat), (7 : Nat))] <+: (Race.run m).handled.filter (fun x => decide (x.1 = 1)) ∨ ∃ ok, (Race.run m).stage = .ended ok) :=
  C140_handled Race.run_ok Race.fair (n := 4) (t := 1) rfl

/-- C141: the lost shutdown stays lost. -/
example : ∀ m, 15 ≤ m → (Race.run m).stage ≠ .ended true ∧ (Race.run m).stop = true := by
  refine C141_stuck Race.run_ok (n := 15) rfl rfl rfl ?_
  intro m hm h
  obtain ⟨k, rfl⟩ : ∃ k, m = k + 15 := ⟨m - 15, by omega⟩
  have h' : (Race.run (k + 15)).queue.length < (Race.run (k + 15 + 1)).queue.length := Race.only_sends h rfl (fun _ => rfl)
  exact absurd h' (Nat.lt_irrefl 0)

/-! ## A shutdown that works -/

namespace Stops
open Race (st none' one)

/-- Thread 2 calls `shutdown` while the reactor sleeps. -/
def run : Nat → State
  | 0 => st [] false false none' (.process 0) [] []
  | 1 => st [] false false none' .top [] []
  | 2 => st [] false false none' (.waiting 3600000) [] []
  | 3 => st [] true false (one 2) (.waiting 3600000) [] []
  | 4 => st [] true true none' (.waiting 3600000) [] []
  | 5 => st [] true true none' (.events 0 [.waker]) [] []
  | 6 => st [] true true none' (.check 0 []) [] []
  | _ + 7 => st [] false true none' (.ended true) [] []

theorem steps : ∀ n, Step (run n) (run (n + 1))
  | 0 => .reactor (.process (sort := Race.sort) [] Race.sort_ok rfl)
  | 1 => .reactor (.wait rfl)
  | 2 => .caller (.stop 2 rfl (by intro ok; simp [run, st]) rfl)
  | 3 => .caller (by have := CallerStep.wake (s := run 3) 2 (by simp [run, st, one]); simpa [run, st, Race.back] using this)
  | 4 => .reactor (.ready [.waker] rfl (by simp) (by simp [run, st]))
  | 5 => .reactor (.waker rfl)
  | 6 => .reactor (.shutdown rfl rfl)
  | _ + 7 => .clock 0 (Nat.le_refl _) rfl

theorem sent (n : Nat) : (run n).sent = [] := by
  match n with
  | 0 | 1 | 2 | 3 | 4 | 5 | 6 => rfl
  | n + 7 => rfl

/-- C141. -/
example : ∃ m ok, 4 ≤ m ∧ (run m).stage = .ended ok :=
  C141_ends_partial (f := run) ⟨⟨0, rfl⟩, steps⟩ (fun n => ⟨n + 7, by omega, .inr (.inr ⟨true, rfl⟩)⟩) (n := 4) rfl rfl
    (by intro now rest; simp [run, st]) (fun m _ => by rw [sent, sent])

end Stops

/-! ## Timers -/

/-- C142: the request that is dropped, while its neighbour runs, and when the timers are looked at. -/
example : (Early.run 8).calls = [.asked 30000, .other 0] ++ .asked 30500 :: [] ∧ (Early.run 8).stage = .waiting 30000 ∧
    (Early.run 8).timers.timeouts = [((), 30000)] ∧ (Early.run 10).stage = .expired 30000 ∧ ReactorStep (Early.run 10) (Early.run 11) := by
  refine ⟨rfl, rfl, rfl, rfl, ?_⟩
  have := ReactorStep.timers (s := Early.run 10) rfl
  simp only [Early.run, Early.st, Early.woken] at this
  exact this

example : ∀ m, 13 ≤ m → ∀ l, Call.timer l ∈ (Early.run m).calls → Call.timer l ∈ (Early.run 13).calls := by
  refine C142_never (f := Early.run) ⟨⟨0, rfl⟩, Early.steps⟩ (n := 13) rfl ?_
  intro m hm t
  obtain ⟨k, rfl⟩ : ∃ k, m = k + 13 := ⟨m - 13, by omega⟩
  show Call.asked t ∉ Early.calls4.drop Early.calls4.length
  simp

namespace Hourly
open Early (st)

/-- One round of the loop in which nothing happens; round `k` begins `k` hours after the wake-up. -/
def round (k : Nat) : Nat → State
  | 0 => st (1000 + 3600000 * k) .top [] [.asked 1000, .timer 1000]
  | 1 => st (1000 + 3600000 * k) (.waiting (1000 + 3600000 * k + 3600000)) [] [.asked 1000, .timer 1000]
  | 2 => st (1000 + 3600000 * (k + 1)) (.waiting (1000 + 3600000 * k + 3600000)) [] [.asked 1000, .timer 1000]
  | 3 => st (1000 + 3600000 * (k + 1)) (.expired (1000 + 3600000 * (k + 1))) [] [.asked 1000, .timer 1000]
  | _ => st (1000 + 3600000 * (k + 1)) (.process (1000 + 3600000 * (k + 1))) [] [.asked 1000, .timer 1000]

/-- A request to be woken after a second, the wake-up, and nothing else. -/
def run : Nat → State
  | 0 => st 0 (.process 0) [] []
  | 1 => st 0 .top [((), 1000)] [.asked 1000]
  | 2 => st 0 (.waiting 1000) [((), 1000)] [.asked 1000]
  | 3 => st 1000 (.waiting 1000) [((), 1000)] [.asked 1000]
  | 4 => st 1000 (.expired 1000) [((), 1000)] [.asked 1000]
  | 5 => st 1000 (.process 1000) [] [.asked 1000, .timer 1000]
  | n + 6 => round (n / 5) (n % 5)

theorem reg : register Race.sort 0 ⟨[], 1000⟩ [1000] = ⟨[((), 1000)], 1000⟩ := by decide +kernel

theorem woken : (⟨[((), 1000)], 1000⟩ : Time.Timers Unit).wake 1000 = ([()], ⟨[], 1000⟩) := by decide +kernel

theorem next1 : (⟨[((), 1000)], 1000⟩ : Time.Timers Unit).next 0 = some 1000 := by decide +kernel

theorem next2 (t : Nat) : (⟨[], 1000⟩ : Time.Timers Unit).next t = none := rfl

theorem wake2 (t : Nat) : (⟨[], 1000⟩ : Time.Timers Unit).wake t = ([], ⟨[], 1000⟩) := rfl

theorem steps : ∀ n, Step (run n) (run (n + 1))
  | 0 => by
    have := ReactorStep.process (s := run 0) (sort := Race.sort) [1000] Race.sort_ok rfl
    simp only [run, st, reg] at this
    exact .reactor this
  | 1 => by
    have := ReactorStep.wait (s := run 1) rfl
    simp only [run, st, next1] at this
    exact .reactor this
  | 2 => .clock 1000 (by simp [run, st]) rfl
  | 3 => .reactor (.timeout rfl rfl (by simp [run, st]))
  | 4 => by
    have := ReactorStep.timers (s := run 4) rfl
    simp only [run, st, woken] at this
    exact .reactor this
  | 5 => .reactor (.process (sort := Race.sort) [] Race.sort_ok rfl)
  | n + 6 => by
    show Step (round (n / 5) (n % 5)) (round ((n + 1) / 5) ((n + 1) % 5))
    obtain ⟨k, r, hr, rfl⟩ : ∃ k r, r < 5 ∧ n = 5 * k + r := ⟨n / 5, n % 5, Nat.mod_lt _ (by decide), by omega⟩
    rw [show (5 * k + r) / 5 = k by omega, show (5 * k + r) % 5 = r by omega]
    match r, hr with
    | 0, _ =>
      rw [show (5 * k + 0 + 1) / 5 = k by omega, show (5 * k + 0 + 1) % 5 = 1 by omega]
      have := ReactorStep.wait (s := round k 0) rfl
      simp only [round, st, next2, Option.getD_none, waitTimeout] at this
      exact .reactor this
    | 1, _ =>
      rw [show (5 * k + 1 + 1) / 5 = k by omega, show (5 * k + 1 + 1) % 5 = 2 by omega]
      exact .clock (1000 + 3600000 * (k + 1)) (by simp [round, st]; omega) rfl
    | 2, _ =>
      rw [show (5 * k + 2 + 1) / 5 = k by omega, show (5 * k + 2 + 1) % 5 = 3 by omega]
      exact .reactor (.timeout rfl rfl (by simp [round, st]; omega))
    | 3, _ =>
      rw [show (5 * k + 3 + 1) / 5 = k by omega, show (5 * k + 3 + 1) % 5 = 4 by omega]
      have := ReactorStep.timers (s := round k 3) rfl
      simp only [round, st, wake2, if_true] at this
      exact .reactor this
    | 4, _ =>
      rw [show (5 * k + 4 + 1) / 5 = k + 1 by omega, show (5 * k + 4 + 1) % 5 = 0 by omega]
      have := ReactorStep.process (s := round k 4) (sort := Race.sort) [] Race.sort_ok rfl
      simp only [round, st, List.map_nil, List.append_nil, register_none] at this
      exact .reactor this

theorem at_round (k r : Nat) (h : r < 5) : run (5 * k + r + 6) = round k r := by
  show round ((5 * k + r) / 5) ((5 * k + r) % 5) = round k r
  rw [show (5 * k + r) / 5 = k by omega, show (5 * k + r) % 5 = r by omega]

theorem fair : Fair run := by
  intro n
  refine ⟨5 * n + 2 + 6, by omega, .inl ?_⟩
  rw [at_round n 2 (by decide), show 5 * n + 2 + 6 + 1 = 5 * n + 3 + 6 by omega, at_round n 3 (by decide)]
  exact .timeout rfl rfl (by simp [round, st]; omega)

theorem sent (n : Nat) : (run n).sent = [] := by
  match n with
  | 0 | 1 | 2 | 3 | 4 | 5 => rfl
  | n + 6 =>
    show (round (n / 5) (n % 5)).sent = []
    unfold round
    split <;> rfl

theorem quiet : Quiet run 1 := by
  refine ⟨?_, fun m _ => by rw [sent, sent]⟩
  intro m hm d h
  match m with
  | 0 | 1 | 4 | 5 => simp [run, st] at h
  | 2 => exact .inl h
  | 3 => exact .inr ⟨1000, rfl⟩
  | n + 6 =>
    obtain ⟨k, r, hr, rfl⟩ : ∃ k r, r < 5 ∧ n = 5 * k + r := ⟨n / 5, n % 5, Nat.mod_lt _ (by decide), by omega⟩
    rw [at_round k r hr] at h
    match r, hr with
    | 0, _ => simp [round, st] at h
    | 1, _ =>
      rw [show 5 * k + 1 + 6 + 1 = 5 * k + 2 + 6 by omega, at_round k 2 (by decide)]
      exact .inl h
    | 2, _ =>
      rw [show 5 * k + 2 + 6 + 1 = 5 * k + 3 + 6 by omega, at_round k 3 (by decide)]
      exact .inr ⟨_, rfl⟩
    | 3, _ => simp [round, st] at h
    | 4, _ => simp [round, st] at h

/-- C142. -/
example : ∃ m, 1 ≤ m ∧ ((∃ more l, (run m).calls = [] ++ .asked 1000 :: [] ++ more ∧ Call.timer l ∈ [] ++ more ∧ 1000 < l + 1000) ∨ ∃ ok, (run m).stage = .ended ok) := by
  refine C142_fires_partial (f := run) ⟨⟨0, rfl⟩, steps⟩ fair ?_ quiet rfl
  intro t
  refine ⟨5 * t + 0 + 6, ?_⟩
  rw [at_round t 0 (by decide)]
  simp only [round, st]; omega

end Hourly

end Verif.Loop
