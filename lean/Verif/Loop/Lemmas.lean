import Verif.Loop.Model

/-!
# Invariants of the loop
-/

set_option autoImplicit false

namespace Verif.Loop
open Verif.Time (Timers)

theorem Run.reach {f : Nat → State} (h : Run f) : ∀ n, Reach (f n)
  | 0 => by obtain ⟨t, e⟩ := h.start; rw [e]; exact .start t
  | n + 1 => .step (h.reach n) (h.step n)

/-- The reactor is taking commands from the channel. -/
def Stage.draining : Stage → Bool
  | .drain _ _ => true
  | _ => false

/-- What was sent has been handled or is in the channel. -/
theorem handled_queue {s : State} (h : Reach s) : s.handled ++ s.queue = s.sent := by
  induction h with
  | start => rfl
  | step _ hs ih =>
    cases hs with
    | clock t h e => subst e; exact ih
    | caller h => cases h <;> simp_all [State.handled, ← List.append_assoc]
    | reactor h =>
      cases h
      case timers hst => simp only [State.handled] at ih ⊢; split <;> simp_all
      case process asks _ _ => simp_all [State.handled, List.filterMap_map]
      all_goals simp_all [State.handled]

/-- No wake-up is lost: if a command is in the channel, the flag is set, or the commands are being taken, or the call that sent it is about to set the flag. -/
theorem no_lost {s : State} (h : Reach s) : ∀ x ∈ s.queue, s.flag = true ∨ s.stage.draining = true ∨ s.callers x.1 = .sent := by
  induction h with
  | start => intro x hx; cases hx
  | @step s s' _ hs ih =>
    cases hs with
    | clock t h e => subst e; exact ih
    | caller h =>
      cases h with
      | send t c h hr =>
        intro x hx
        by_cases hxt : x.1 = t
        · exact .inr (.inr (by simp [hxt]))
        · have : x ∈ s.queue := by
            rcases List.mem_append.1 hx with h | h
            · exact h
            · simp at h; subst h; exact absurd rfl hxt
          rcases ih x this with h | h | h
          · exact .inl h
          · exact .inr (.inl h)
          · exact .inr (.inr (by simp [Function.update, hxt, h]))
      | stop t h hr hst =>
        intro x hx
        rcases ih x hx with h | h | h
        · exact .inl h
        · exact .inr (.inl h)
        · refine .inr (.inr ?_)
          by_cases hxt : x.1 = t
          · simp [hxt]
          · simp [Function.update, hxt, h]
      | wake t h => intro x hx; exact .inl rfl
    | reactor h =>
      cases h <;> intro x hx
      case command h hq =>
        exact .inr (.inl (by simp only [h, Stage.draining]))
      case reset h => exact .inr (.inl rfl)
      case drained h hq => rw [hq] at hx; cases hx
      case fail h =>
        rcases ih x hx with h' | h' | h'
        · exact .inl h'
        · rcases h with ⟨_, _, _, h⟩ | ⟨_, h⟩ <;> simp [h, Stage.draining] at h'
        · exact .inr (.inr h')
      all_goals
        rename_i h
        rcases ih x hx with h' | h' | h'
        · exact .inl h'
        · simp_all [Stage.draining]
        · exact .inr (.inr h')

/-- Smaller in the lexicographic order. -/
def Less : Nat × Nat → Nat × Nat → Prop := Prod.Lex (· < ·) (· < ·)

theorem less_wf : WellFounded Less := (Prod.lex Nat.lt_wfRel Nat.lt_wfRel).wf

/-- If each step of the reactor gets nearer to a goal, and the others do not lead away from it, it is reached. -/
theorem leads_to {f : Nat → State} (hf : Fair f) (hs : ∀ n, Step (f n) (f (n + 1))) (P G : State → Prop) (rank : State → Nat × Nat) (n0 : Nat)
    (hr : ∀ n, n0 ≤ n → P (f n) → ReactorStep (f n) (f (n + 1)) → G (f (n + 1)) ∨ (P (f (n + 1)) ∧ Less (rank (f (n + 1))) (rank (f n))))
    (hc : ∀ n, n0 ≤ n → P (f n) → CallerStep (f n) (f (n + 1)) → P (f (n + 1)) ∧ rank (f (n + 1)) = rank (f n))
    (ht : ∀ n t, n0 ≤ n → P (f n) → f (n + 1) = { f n with now := t } → P (f (n + 1)) ∧ rank (f (n + 1)) = rank (f n))
    (hb : ∀ n, P (f n) → ¬ (f n).Resting) (he : ∀ n ok, P (f n) → (f n).stage ≠ .ended ok) :
    ∀ n, n0 ≤ n → P (f n) → ∃ m, n ≤ m ∧ G (f m) := by
  suffices H : ∀ r n, rank (f n) = r → n0 ≤ n → P (f n) → ∃ m, n ≤ m ∧ G (f m) from fun n hn hp => H _ n rfl hn hp
  intro r
  induction r using less_wf.induction with
  | _ r ih =>
    intro n hrn hn hp
    obtain ⟨m, hnm, hm⟩ := hf n
    -- until the reactor's next step nothing changes
    have key : ∀ k, n + k ≤ m → (∃ i, n ≤ i ∧ G (f i)) ∨ (P (f (n + k)) ∧ rank (f (n + k)) = r) := by
      intro k
      induction k with
      | zero => intro _; exact .inr ⟨hp, hrn⟩
      | succ k ihk =>
        intro hk
        rcases ihk (by omega) with h | ⟨h1, h2⟩
        · exact .inl h
        · cases hs (n + k) with
          | caller h =>
            have := hc (n + k) (by omega) h1 h
            exact .inr ⟨this.1, this.2.trans h2⟩
          | clock t _ e =>
            have := ht (n + k) t (by omega) h1 e
            exact .inr ⟨this.1, this.2.trans h2⟩
          | reactor h =>
            rcases hr (n + k) (by omega) h1 h with h | ⟨h3, h4⟩
            · exact .inl ⟨n + k + 1, by omega, h⟩
            · rw [h2] at h4
              obtain ⟨i, hi, hg⟩ := ih _ h4 (n + k + 1) rfl (by omega) h3
              exact .inl ⟨i, by omega, hg⟩
    have hk := key (m - n) (by omega)
    rw [show n + (m - n) = m by omega] at hk
    rcases hk with h | ⟨h1, h2⟩
    · exact h
    · rcases hm with h | h | ⟨ok, h⟩
      · rcases hr m (by omega) h1 h with h | ⟨h3, h4⟩
        · exact ⟨m + 1, by omega, h⟩
        · rw [h2] at h4
          obtain ⟨i, hi, hg⟩ := ih _ h4 (m + 1) rfl (by omega) h3
          exact ⟨i, by omega, hg⟩
      · exact absurd h (hb m h1)
      · exact absurd h (he m ok h1)

/-- How far the reactor is from having handled the commands it has to; `left` is their number. -/
def Stage.rank (left : Nat) : Stage → Nat × Nat
  | .drain _ _ => (0, left)
  | .reset _ _ => (1, 0)
  | .check _ _ => (2, 0)
  | .events _ l => if Source.waker ∈ l then (3, l.length) else (7, l.length)
  | .waiting _ => (4, 0)
  | .top => (5, 0)
  | .process _ => (6, 0)
  | .expired _ => (7, 0)
  | .ended _ => (0, 0)

/-- The first `n` commands have not all been handled, and the reactor will see that. -/
structure Due (n : Nat) (s : State) : Prop where
  lt : s.handled.length < n
  le : n ≤ s.sent.length
  all : s.handled ++ s.queue = s.sent
  on : s.flag = true ∨ s.stage.draining = true
  running : ∀ ok, s.stage ≠ .ended ok

theorem Due.queue {n : Nat} {s : State} (h : Due n s) : s.queue ≠ [] := by
  intro e
  have := h.all; rw [e, List.append_nil] at this
  have h1 := h.lt; have h2 := h.le
  rw [this] at h1; omega

theorem due_reactor {n : Nat} {s s' : State} (h : Due n s) (hs : ReactorStep s s') :
    (n ≤ s'.handled.length ∨ ∃ ok, s'.stage = .ended ok) ∨
    (Due n s' ∧ Less (s'.stage.rank (n - s'.handled.length)) (s.stage.rank (n - s.handled.length))) := by
  obtain ⟨hlt, hle, hall, hon, hrun⟩ := id h
  cases hs with
  | wait hst => exact .inr ⟨⟨hlt, hle, hall, by simpa [hst, Stage.draining] using hon, by simp⟩, by rw [hst]; exact .left _ _ (by decide)⟩
  | ready l hst hl hw =>
    have hf : s.flag = true := by simpa [hst, Stage.draining] using hon
    exact .inr ⟨⟨hlt, hle, hall, .inl hf, by simp⟩, by simp only [hst, Stage.rank, if_pos (hw.2 hf)]; exact .left _ _ (by decide)⟩
  | timeout hst hf hd => simp [hst, Stage.draining, hf] at hon
  | @socket now k rest hst =>
    have hf : s.flag = true := by simpa [hst, Stage.draining] using hon
    have hh : State.handled { s with stage := Stage.events now rest, calls := s.calls ++ [.other k] } = s.handled := by simp [State.handled]
    refine .inr ⟨⟨by rw [hh]; exact hlt, hle, by rw [hh]; exact hall, .inl hf, by simp⟩, ?_⟩
    simp only [hst, Stage.rank, List.mem_cons, reduceCtorEq, false_or]
    split
    · exact .right _ (by simp)
    · exact .right _ (by simp)
  | fail _ => exact .inl (.inr ⟨_, rfl⟩)
  | waker hst =>
    have hf : s.flag = true := by simpa [hst, Stage.draining] using hon
    exact .inr ⟨⟨hlt, hle, hall, .inl hf, by simp⟩, by simp only [hst, Stage.rank, List.mem_cons, true_or, if_true]; exact .left _ _ (by decide)⟩
  | shutdown hst hs => exact .inl (.inr ⟨_, rfl⟩)
  | goOn hst hs =>
    have hf : s.flag = true := by simpa [hst, Stage.draining] using hon
    exact .inr ⟨⟨hlt, hle, hall, .inl hf, by simp⟩, by simp only [hst, Stage.rank]; exact .left _ _ (by decide)⟩
  | reset hst => exact .inr ⟨⟨hlt, hle, hall, .inr rfl, by simp⟩, by simp only [hst, Stage.rank]; exact .left _ _ (by decide)⟩
  | @command now rest c q hst hq =>
    have hh : State.handled { s with queue := q, calls := s.calls ++ [.command c] } = s.handled ++ [c] := by simp [State.handled]
    by_cases hn : n ≤ s.handled.length + 1
    · exact .inl (.inl (by rw [hh]; simpa using hn))
    · refine .inr ⟨⟨by rw [hh]; simp; omega, hle, by rw [hh]; simpa [hq] using hall, .inr (by simp [hst, Stage.draining]), hrun⟩, ?_⟩
      rw [hh]
      simp only [hst, Stage.rank]
      exact .right _ (by simp; omega)
  | drained hst hq => exact absurd hq h.queue
  | done hst =>
    have hf : s.flag = true := by simpa [hst, Stage.draining] using hon
    exact .inr ⟨⟨hlt, hle, hall, .inl hf, by simp⟩, by simp only [hst, Stage.rank]; exact .left _ _ (by decide)⟩
  | @timers now hst =>
    have hf : s.flag = true := by simpa [hst, Stage.draining] using hon
    have hh : State.handled { s with stage := .process now, timers := (s.timers.wake now).2, calls := if (s.timers.wake now).1 = [] then s.calls else s.calls ++ [.timer now] } = s.handled := by
      simp only [State.handled]; split <;> simp
    exact .inr ⟨⟨by rw [hh]; exact hlt, hle, by rw [hh]; exact hall, .inl hf, by simp⟩,
      by simp only [hst, Stage.rank]; exact .left _ _ (by decide)⟩
  | @process now sort asks _ hst =>
    have hf : s.flag = true := by simpa [hst, Stage.draining] using hon
    have hh : State.handled { s with stage := .top, timers := register sort now s.timers asks, calls := s.calls ++ asks.map (fun d => .asked (now + d)) } = s.handled := by
      simp [State.handled, List.filterMap_map]
    exact .inr ⟨⟨by rw [hh]; exact hlt, hle, by rw [hh]; exact hall, .inl hf, by simp⟩,
      by simp only [hst, Stage.rank]; exact .left _ _ (by decide)⟩

theorem due_caller {n : Nat} {s s' : State} (h : Due n s) (hs : CallerStep s s') :
    Due n s' ∧ s'.stage.rank (n - s'.handled.length) = s.stage.rank (n - s.handled.length) := by
  obtain ⟨hlt, hle, hall, hon, hrun⟩ := h
  cases hs with
  | send t c _ _ =>
    exact ⟨⟨hlt, by simp; omega, by rw [← List.append_assoc]; exact congrArg (· ++ [(t, c)]) hall, hon, hrun⟩, rfl⟩
  | stop t _ _ _ => exact ⟨⟨hlt, hle, hall, hon, hrun⟩, rfl⟩
  | wake t _ => exact ⟨⟨hlt, hle, hall, .inl rfl, hrun⟩, rfl⟩

/-- What is due gets handled, unless the reactor ends. -/
theorem due_handled {f : Nat → State} (hr : Run f) (hf : Fair f) {n k : Nat} (h : Due k (f n)) :
    ∃ m, n ≤ m ∧ (k ≤ (f m).handled.length ∨ ∃ ok, (f m).stage = .ended ok) := by
  refine leads_to hf hr.step (Due k) (fun s => k ≤ s.handled.length ∨ ∃ ok, s.stage = .ended ok)
    (fun s => s.stage.rank (k - s.handled.length)) n ?_ ?_ ?_ ?_ ?_ n (Nat.le_refl _) h
  · intro i _ hp hs; exact due_reactor hp hs
  · intro i _ hp hs; exact due_caller hp hs
  · intro i t _ hp e
    rw [e]
    exact ⟨⟨hp.lt, hp.le, hp.all, hp.on, hp.running⟩, rfl⟩
  · intro i hp hb
    obtain ⟨⟨d, hd, _⟩, hfl⟩ := hb
    have := hp.on
    simp [hd, hfl, Stage.draining] at this
  · intro i ok hp; exact hp.running ok

theorem step_sent {s s' : State} (h : Step s s') : s.sent <+: s'.sent := by
  cases h with
  | clock t _ e => subst e; exact List.prefix_refl _
  | caller h => cases h <;> first | exact List.prefix_refl _ | exact List.prefix_append _ _
  | reactor h => cases h <;> exact List.prefix_refl _

theorem sent_grows {f : Nat → State} (hr : Run f) {n m : Nat} (h : n ≤ m) : (f n).sent <+: (f m).sent := by
  induction m, h using Nat.le_induction with
  | base => exact List.prefix_refl _
  | succ k _ ih => exact ih.trans (step_sent (hr.step k))

/-- How far the reactor is from looking for a shutdown; `left` is the number of commands in the channel. -/
def Stage.rankStop (left : Nat) : Stage → Nat × Nat
  | .drain _ _ => (8, left)
  | .reset _ _ => (9, 0)
  | .check _ _ => (2, 0)
  | .events _ l => if Source.waker ∈ l then (3, l.length) else (7, l.length)
  | .waiting _ => (4, 0)
  | .top => (5, 0)
  | .process _ => (6, 0)
  | .expired _ => (7, 0)
  | .ended _ => (0, 0)

/-- The reactor will find the shutdown. -/
structure Stopping (s : State) : Prop where
  stop : s.stop = true
  flag : s.flag = true
  reset : ∀ now rest, s.stage ≠ .reset now rest
  running : ∀ ok, s.stage ≠ .ended ok

theorem stopping_reactor {s s' : State} (h : Stopping s) (hs : ReactorStep s s') :
    (∃ ok, s'.stage = .ended ok) ∨ (Stopping s' ∧ Less (s'.stage.rankStop s'.queue.length) (s.stage.rankStop s.queue.length)) := by
  obtain ⟨hst, hfl, hre, hrun⟩ := h
  cases hs with
  | wait h => exact .inr ⟨⟨hst, hfl, by simp, by simp⟩, by simp only [h, Stage.rankStop]; exact .left _ _ (by decide)⟩
  | ready l h hl hw => exact .inr ⟨⟨hst, hfl, by simp, by simp⟩, by simp only [h, Stage.rankStop, if_pos (hw.2 hfl)]; exact .left _ _ (by decide)⟩
  | timeout h hf hd => rw [hfl] at hf; cases hf
  | socket h =>
    refine .inr ⟨⟨hst, hfl, by simp, by simp⟩, ?_⟩
    simp only [h, Stage.rankStop, List.mem_cons, reduceCtorEq, false_or]
    split <;> exact .right _ (by simp)
  | fail _ => exact .inl ⟨_, rfl⟩
  | waker h => exact .inr ⟨⟨hst, hfl, by simp, by simp⟩, by simp only [h, Stage.rankStop, List.mem_cons, true_or, if_true]; exact .left _ _ (by decide)⟩
  | shutdown h hs => exact .inl ⟨_, rfl⟩
  | goOn h hs => rw [hst] at hs; cases hs
  | reset h => exact absurd h (hre _ _)
  | command h hq =>
    exact .inr ⟨⟨hst, hfl, by simp [h], hrun⟩, by simp only [h, hq, Stage.rankStop]; exact .right _ (by simp)⟩
  | drained h hq =>
    refine .inr ⟨⟨hst, hfl, by simp, by simp⟩, ?_⟩
    simp only [h, Stage.rankStop]
    split <;> exact .left _ _ (by decide)
  | done h => exact .inr ⟨⟨hst, hfl, by simp, by simp⟩, by simp only [h, Stage.rankStop]; exact .left _ _ (by decide)⟩
  | timers h => exact .inr ⟨⟨hst, hfl, by simp, by simp⟩, by simp only [h, Stage.rankStop]; exact .left _ _ (by decide)⟩
  | process asks _ h => exact .inr ⟨⟨hst, hfl, by simp, by simp⟩, by simp only [h, Stage.rankStop]; exact .left _ _ (by decide)⟩

theorem stop_ends {f : Nat → State} (hr : Run f) (hf : Fair f) {n : Nat} (hs : (f n).stop = true) (hw : (f n).flag = true)
    (hst : ∀ now rest, (f n).stage ≠ .reset now rest) (hq : ∀ m, n ≤ m → (f m).sent = (f n).sent) :
    ∃ m, n ≤ m ∧ ∃ ok, (f m).stage = .ended ok := by
  by_cases hend : ∃ ok, (f n).stage = .ended ok
  · exact ⟨n, Nat.le_refl _, hend⟩
  refine leads_to hf hr.step Stopping (fun s => ∃ ok, s.stage = .ended ok) (fun s => s.stage.rankStop s.queue.length) n ?_ ?_ ?_ ?_ ?_ n (Nat.le_refl _)
    ⟨hs, hw, hst, fun ok e => hend ⟨ok, e⟩⟩
  · intro i _ hp h; exact stopping_reactor hp h
  · intro i hi hp h
    have e1 := hq i hi
    have e2 := hq (i + 1) (by omega)
    generalize f (i + 1) = s' at h e2
    cases h with
    | send t c _ _ =>
      exfalso
      have := congrArg List.length (e2.trans e1.symm)
      simp at this
    | stop t _ _ h => rw [hp.stop] at h; cases h
    | wake t _ => exact ⟨⟨hp.stop, rfl, hp.reset, hp.running⟩, rfl⟩
  · intro i t _ hp e
    rw [e]
    exact ⟨⟨hp.stop, hp.flag, hp.reset, hp.running⟩, rfl⟩
  · intro i hp hb
    have := hb.2
    rw [hp.flag] at this; cases this
  · intro i ok hp; exact hp.running ok

/-- The reactor has no event of the waker before it, and did not end by a shutdown. -/
def Stage.Deaf : Stage → Prop
  | .events _ l => Source.waker ∉ l
  | .check _ _ => False
  | .reset _ _ => False
  | .drain _ _ => False
  | .ended ok => ok = false
  | _ => True

theorem deaf {f : Nat → State} (hr : Run f) {n d : Nat} (hs : (f n).stop = true) (hw : (f n).flag = false) (hst : (f n).stage = .waiting d)
    (hc : ∀ m, n ≤ m → ¬ CallerStep (f m) (f (m + 1))) : ∀ m, n ≤ m → (f m).stop = true ∧ (f m).flag = false ∧ (f m).stage.Deaf := by
  intro m hm
  induction m, hm using Nat.le_induction with
  | base => exact ⟨hs, hw, by rw [hst]; trivial⟩
  | succ k hk ih =>
    obtain ⟨h1, h2, h3⟩ := ih
    cases hr.step k with
    | caller h => exact absurd h (hc k hk)
    | clock t _ e => rw [e]; exact ⟨h1, h2, h3⟩
    | reactor h =>
      generalize f (k + 1) = s' at h
      cases h with
      | ready l h hl hw => exact ⟨h1, h2, fun hm => by rw [hw.1 hm] at h2; cases h2⟩
      | socket h => rw [h] at h3; exact ⟨h1, h2, fun hm => h3 (List.mem_cons_of_mem _ hm)⟩
      | waker h => rw [h] at h3; exact absurd (List.mem_cons_self) h3
      | shutdown h _ => rw [h] at h3; exact h3.elim
      | goOn h _ => rw [h] at h3; exact h3.elim
      | reset h => rw [h] at h3; exact h3.elim
      | command h _ => rw [h] at h3; exact h3.elim
      | drained h _ => rw [h] at h3; exact h3.elim
      | fail _ => exact ⟨h1, h2, rfl⟩
      | wait _ => exact ⟨h1, h2, trivial⟩
      | timeout _ _ _ => exact ⟨h1, h2, trivial⟩
      | done _ => exact ⟨h1, h2, trivial⟩
      | timers _ => exact ⟨h1, h2, trivial⟩
      | process _ _ _ => exact ⟨h1, h2, trivial⟩

/-! ## An execution in which a shutdown gets lost -/

namespace Race

/-- The channels, the waker and the calls in progress, and where the reactor is; the rest is as at the start. -/
def st (queue : List Cmd) (stop flag : Bool) (callers : Nat → Pc) (stage : Stage) (sent : List Cmd) (calls : List Call) : State :=
  ⟨0, queue, stop, flag, callers, stage, ⟨[], 1000⟩, sent, calls⟩

/-- Nobody is in a call. -/
def none' : Nat → Pc := fun _ => .idle

/-- Thread `t` is in a call. -/
def one (t : Nat) : Nat → Pc := Function.update none' t .sent

/-- Thread 1 sends command 7 and wakes the reactor; the reactor sees that there is no shutdown; thread 2 calls `shutdown` and wakes the reactor; the reactor
resets the waker and handles the command. -/
def run : Nat → State
  | 0 => st [] false false none' (.process 0) [] []
  | 1 => st [] false false none' .top [] []
  | 2 => st [] false false none' (.waiting 3600000) [] []
  | 3 => st [(1, 7)] false false (one 1) (.waiting 3600000) [(1, 7)] []
  | 4 => st [(1, 7)] false true none' (.waiting 3600000) [(1, 7)] []
  | 5 => st [(1, 7)] false true none' (.events 0 [.waker]) [(1, 7)] []
  | 6 => st [(1, 7)] false true none' (.check 0 []) [(1, 7)] []
  | 7 => st [(1, 7)] false true none' (.reset 0 []) [(1, 7)] []
  | 8 => st [(1, 7)] true true (one 2) (.reset 0 []) [(1, 7)] []
  | 9 => st [(1, 7)] true true none' (.reset 0 []) [(1, 7)] []
  | 10 => st [(1, 7)] true false none' (.drain 0 []) [(1, 7)] []
  | 11 => st [] true false none' (.drain 0 []) [(1, 7)] [.command (1, 7)]
  | 12 => st [] true false none' (.events 0 []) [(1, 7)] [.command (1, 7)]
  | 13 => st [] true false none' (.process 0) [(1, 7)] [.command (1, 7)]
  | 14 => st [] true false none' .top [(1, 7)] [.command (1, 7)]
  | _ + 15 => st [] true false none' (.waiting 3600000) [(1, 7)] [.command (1, 7)]

/-- A sort for the timers. -/
def sort (l : List (Unit × Nat)) : List (Unit × Nat) := l.insertionSort (fun a b => b.2 ≤ a.2)

theorem sort_ok : Time.SortsDesc sort := by
  have : Std.Total (fun a b : Unit × Nat => b.2 ≤ a.2) := ⟨fun a b => by omega⟩
  have : IsTrans (Unit × Nat) (fun a b => b.2 ≤ a.2) := ⟨fun a b c => by intro h1 h2; omega⟩
  exact ⟨fun l => List.perm_insertionSort _ l, fun l => List.pairwise_insertionSort _ l⟩

theorem back (t : Nat) : Function.update (one t) t .idle = none' := by
  funext i; by_cases h : i = t <;> simp [one, none', Function.update, h]

theorem steps : ∀ n, Step (run n) (run (n + 1))
  | 0 => .reactor (.process (sort := sort) [] sort_ok rfl)
  | 1 => .reactor (.wait rfl)
  | 2 => .caller (.send 1 7 rfl (by intro ok; simp [run, st]))
  | 3 => .caller (by have := CallerStep.wake (s := run 3) 1 (by simp [run, st, one]); simpa [run, st, back] using this)
  | 4 => .reactor (.ready [.waker] rfl (by simp) (by simp [run, st]))
  | 5 => .reactor (.waker rfl)
  | 6 => .reactor (.goOn rfl rfl)
  | 7 => .caller (.stop 2 rfl (by intro ok; simp [run, st]) rfl)
  | 8 => .caller (by have := CallerStep.wake (s := run 8) 2 (by simp [run, st, one]); simpa [run, st, back] using this)
  | 9 => .reactor (.reset rfl)
  | 10 => .reactor (.command rfl rfl)
  | 11 => .reactor (.drained rfl rfl)
  | 12 => .reactor (.done rfl)
  | 13 => .reactor (.process (sort := sort) [] sort_ok rfl)
  | 14 => .reactor (.wait rfl)
  | _ + 15 => .clock 0 (Nat.le_refl _) rfl

theorem witness : ∃ f, Run f ∧ Fair f ∧ (∃ n t, (f n).callers t = .idle ∧ (f n).stop = false ∧ (f (n + 1)).callers t = .sent ∧ (f (n + 1)).stop = true) ∧
    (∃ n, ∀ m, n ≤ m → ∀ t, (f m).callers t = .idle) ∧ ∀ n ok, (f n).stage ≠ .ended ok := by
  refine ⟨run, ⟨⟨0, rfl⟩, steps⟩, ?_, ⟨7, 2, rfl, rfl, by simp [run, st, one], rfl⟩, ⟨15, ?_⟩, ?_⟩
  · intro n
    exact ⟨n + 15, by omega, .inr (.inl ⟨⟨3600000, rfl, by simp [run, st]⟩, rfl⟩)⟩
  · intro m hm t
    obtain ⟨k, rfl⟩ : ∃ k, m = k + 15 := ⟨m - 15, by omega⟩
    rfl
  · intro n ok
    match n with
    | 0 | 1 | 2 | 3 | 4 | 5 | 6 | 7 | 8 | 9 | 10 | 11 | 12 | 13 | 14 => simp [run, st]
    | n + 15 => simp [run, st]

end Race

end Verif.Loop
