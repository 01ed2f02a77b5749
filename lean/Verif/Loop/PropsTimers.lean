import Verif.Loop.Timers

/-!
# C142: the client is woken when it asked to be

What the words mean: `asked t` in the history `calls` says that the service asked to be woken at time `t` (the time of the request plus the duration it gave),
`timer l` that it was woken at time `l`.  Times are milliseconds.
-/

set_option autoImplicit false

namespace Verif.Loop

/-- **C142** (partial) A request to be woken is kept to within a second: since it was made, the service was woken at most a second before the time it asked for,
or later; or a timer is running that is less than a second away from that time.  Missing: that the service is woken at the time it asked for, or later; see
`C142_early_counterexample`. -/
theorem C142_kept_partial {s : State} (h : Reach s) {pre post : List Call} {t : Nat} (hc : s.calls = pre ++ .asked t :: post) :
    (∃ l, Call.timer l ∈ post ∧ t < l + 1000) ∨ ∃ x ∈ s.timers.timeouts, x.2 < t + 1000 ∧ t < x.2 + 1000 := by
  rcases kept h pre post t hc with ⟨x, hx, hd⟩ | h
  · refine .inr ⟨x, hx, ?_⟩
    unfold Time.diff at hd
    split at hd <;> omega
  · exact .inl h

/-- **C142** The reactor does not sleep past a timer: it waits at most until the time of the earliest, or not at all. -/
theorem C142_sleep {s : State} (h : Reach s) {d : Nat} (hw : s.stage = .waiting d) {x : Unit × Nat} (hx : x ∈ s.timers.timeouts) : d ≤ max x.2 s.now := by
  rcases sleeps h d hw x hx with h | h <;> omega

/-- **C142** After a wait in which nothing else happened, the service is woken if and only if the time of some timer has come, and no such timer is left. -/
theorem C142_looks {s s' : State} (h : Reach s) {l : Nat} (hw : s.stage = .expired l) (hs : ReactorStep s s') :
    ((∃ x ∈ s.timers.timeouts, x.2 ≤ l) → s'.calls = s.calls ++ [.timer l]) ∧ ((∀ x ∈ s.timers.timeouts, l < x.2) → s'.calls = s.calls) ∧
    ∀ x, x ∈ s'.timers.timeouts ↔ x ∈ s.timers.timeouts ∧ l < x.2 := by
  obtain ⟨_, h2, h3⟩ := wake_facts (reach_sorted h) l
  cases hs <;> rename_i hst
  case fail => rcases hst with ⟨_, _, _, e⟩ | ⟨_, e⟩ <;> rw [hw] at e <;> cases e
  case timers =>
    rw [hw] at hst
    injection hst with e
    subst e
    refine ⟨?_, ?_, h2⟩
    · rintro ⟨x, hx, hle⟩
      dsimp only
      rw [if_neg]
      intro e
      have := h3.1 e x hx
      omega
    · intro hall
      dsimp only
      rw [if_pos (h3.2 hall)]
  all_goals simp_all

/-- **C142** (partial) If the reactor gets its turn, the clock goes on, and nothing but timers wakes the reactor any more, then each request to be woken is
followed by the service being woken, at most a second too early, unless the reactor ends.  Missing: requests made while other things happen, see
`C142_busy_counterexample`; and that last second. -/
theorem C142_fires_partial {f : Nat → State} (hr : Run f) (hf : Fair f) (hclock : ∀ t, ∃ m, t ≤ (f m).now) {n : Nat} (hq : Quiet f n)
    {pre post : List Call} {t : Nat} (hc : (f n).calls = pre ++ .asked t :: post) :
    ∃ m, n ≤ m ∧ ((∃ more l, (f m).calls = pre ++ .asked t :: post ++ more ∧ Call.timer l ∈ post ++ more ∧ t < l + 1000) ∨ ∃ ok, (f m).stage = .ended ok) := by
  rcases C142_kept_partial (hr.reach n) hc with ⟨l, hl, hlt⟩ | ⟨x, hx, _, hxt⟩
  · exact ⟨n, Nat.le_refl _, .inl ⟨[], l, by simp [hc], by simpa using hl, hlt⟩⟩
  have nows : ∀ i j, i ≤ j → (f i).now ≤ (f j).now := by
    intro i j hij
    induction j, hij using Nat.le_induction with
    | base => exact Nat.le_refl _
    | succ k _ ih => exact Nat.le_trans ih (now_le (hr.step k))
  obtain ⟨k, hk⟩ := hclock x.2
  have hle : x.2 ≤ (f (max n k)).now := Nat.le_trans hk (nows _ _ (Nat.le_max_right _ _))
  have done : ∀ m, n ≤ m → x ∉ (f m).timers.timeouts →
      ∃ more l, (f m).calls = pre ++ .asked t :: post ++ more ∧ Call.timer l ∈ post ++ more ∧ t < l + 1000 := by
    intro m hm hn
    rcases timer_stays hr hx hm with h | ⟨extra, l, e, hl, hxl⟩
    · exact absurd h hn
    · exact ⟨extra, l, by rw [e, hc], List.mem_append_right _ hl, by omega⟩
  by_cases hx' : x ∈ (f (max n k)).timers.timeouts
  · by_cases hend : ∃ ok, (f (max n k)).stage = .ended ok
    · exact ⟨_, Nat.le_max_left _ _, .inr hend⟩
    have hq' : Quiet f (max n k) :=
      ⟨fun m hm => hq.sockets m (Nat.le_trans (Nat.le_max_left _ _) hm),
       fun m hm => (hq.sent m (Nat.le_trans (Nat.le_max_left _ _) hm)).trans (hq.sent _ (Nat.le_max_left _ _)).symm⟩
    obtain ⟨m, hm, h⟩ := ripe_fires hr hf hq' ⟨hr.reach _, hx', hle, fun ok e => hend ⟨ok, e⟩⟩
    have hnm : n ≤ m := Nat.le_trans (Nat.le_max_left _ _) hm
    rcases h with h | h
    · exact ⟨m, hnm, .inl (done m hnm h)⟩
    · exact ⟨m, hnm, .inr h⟩
  · exact ⟨_, Nat.le_max_left _ _, .inl (done _ (Nat.le_max_left _ _) hx')⟩

/-- **C142** Without timers the service is never woken: as long as it does not ask again, no time that passes makes the reactor wake it. -/
theorem C142_never {f : Nat → State} (hr : Run f) {n : Nat} (ht : (f n).timers.timeouts = [])
    (ha : ∀ m, n ≤ m → ∀ t, Call.asked t ∉ (f m).calls.drop (f n).calls.length) :
    ∀ m, n ≤ m → ∀ l, Call.timer l ∈ (f m).calls → Call.timer l ∈ (f n).calls :=
  fun m hm => (idle_timers hr ht ha m hm).2

/-- **C142** is false, for one: a request is dropped if a timer runs that is less than a second away, also if that one is earlier.  Here the service asks to be woken
at 30 s and, a little later, at 30.5 s; it is woken at 30 s, and then no timer is left. -/
theorem C142_early_counterexample : ∃ f n, Run f ∧ Call.asked 30500 ∈ (f n).calls ∧ (f n).timers.timeouts = [] ∧
    (∀ l, Call.timer l ∈ (f n).calls → l = 30000) ∧ Fair f ∧ (∀ m t, Call.asked t ∈ (f m).calls → t = 30000 ∨ t = 30500) ∧
    ∀ m l, Call.timer l ∈ (f m).calls → l < 30500 :=
  Early.witness

/-- **C142** is false, for another: timers are looked at only when a wait ends without any event.  Here a peer sends something every second; the service asked to be
woken at 1 s and never is, while the clock goes on forever. -/
theorem C142_busy_counterexample : ∃ f, Run f ∧ Fair f ∧ (∀ t, ∃ m, t ≤ (f m).now) ∧ (∃ n, Call.asked 1000 ∈ (f n).calls) ∧
    (∀ n, ∃ d m, n ≤ m ∧ (f m).stage = .waiting d) ∧ ∀ n l, Call.timer l ∉ (f n).calls :=
  Busy.witness

end Verif.Loop
