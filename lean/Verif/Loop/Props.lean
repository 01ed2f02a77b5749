import Verif.Loop.Lemmas

/-!
# C140, C141: commands and shutdown through handles

What the words mean: `sent` lists the commands that calls put in the channel, each with the thread that made the call, and `handled` those that the service was
told, both oldest first.  A call has returned when its thread is `idle` again.
-/

set_option autoImplicit false

namespace Verif.Loop

/-- **C140** The service is told the commands in the order in which they were sent, each once: those it was told, followed by those that still wait, are those
that were sent. -/
theorem C140_order {s : State} (h : Reach s) : s.handled ++ s.queue = s.sent := handled_queue h

/-- **C140** The reactor does not sleep over a command: while it sleeps without a wake-up to come, each command that waits is one whose call has not returned. -/
theorem C140_awake {s : State} (h : Reach s) {d : Nat} (hw : s.stage = .waiting d) (hf : s.flag = false) {x : Cmd} (hx : x ∈ s.queue) :
    s.callers x.1 = .sent := by
  rcases no_lost h x hx with h' | h' | h'
  · rw [hf] at h'; cases h'
  · rw [hw] at h'; cases h'
  · exact h'

/-- **C140** Once a call has returned, its command is handled at some time: in every execution in which the reactor gets its turn, if thread `t` is in no call, then
at some later time all commands it has sent have been handled, in the order it sent them, unless the reactor has ended. -/
theorem C140_handled {f : Nat → State} (hr : Run f) (hf : Fair f) {n t : Nat} (ht : (f n).callers t = .idle) :
    ∃ m, n ≤ m ∧ ((f n).sent.filter (fun x => decide (x.1 = t)) <+: (f m).handled.filter (fun x => decide (x.1 = t)) ∨
      ∃ ok, (f m).stage = .ended ok) := by
  by_cases hend : ∃ ok, (f n).stage = .ended ok
  · exact ⟨n, Nat.le_refl _, .inr hend⟩
  have hall := handled_queue (hr.reach n)
  by_cases hq : ∃ x ∈ (f n).queue, x.1 = t
  · obtain ⟨x, hx, hxt⟩ := hq
    have hon : (f n).flag = true ∨ (f n).stage.draining = true := by
      rcases no_lost (hr.reach n) x hx with h | h | h
      · exact .inl h
      · exact .inr h
      · rw [hxt, ht] at h; cases h
    have hlen := congrArg List.length hall
    have hpos := List.length_pos_of_mem hx
    rw [List.length_append] at hlen
    obtain ⟨m, hm, h⟩ := due_handled hr hf (n := n) (k := (f n).sent.length)
      ⟨by omega, Nat.le_refl _, hall, hon, fun ok e => hend ⟨ok, e⟩⟩
    refine ⟨m, hm, h.imp ?_ id⟩
    intro hle
    -- both are prefixes of what was sent by then
    have hpre : (f n).sent <+: (f m).sent := sent_grows hr hm
    have hpre' : (f m).handled <+: (f m).sent := ⟨_, handled_queue (hr.reach m)⟩
    exact (List.prefix_of_prefix_length_le hpre hpre' hle).filter _
  · refine ⟨n, Nat.le_refl _, .inl ?_⟩
    rw [← hall, List.filter_append]
    have : (f n).queue.filter (fun x => decide (x.1 = t)) = [] := by
      rw [List.filter_eq_nil_iff]
      intro x hx
      simpa using fun e => hq ⟨x, hx, e⟩
    rw [this, List.append_nil]
    exact List.prefix_refl _

/-- **C140** Nothing is handled that was not sent. -/
theorem C140_only {s : State} (h : Reach s) {x : Cmd} (hx : x ∈ s.handled) : x ∈ s.sent := by
  rw [← handled_queue h]; exact List.mem_append_left _ hx

/-- **C141** (partial) If `shutdown` was called and the waker's flag is set, then the reactor ends, in every execution in which it gets its turn and no
further commands are sent - provided it is not just then between looking for a shutdown and resetting the waker.  Missing: that case, see
`C141_counterexample`. -/
theorem C141_ends_partial {f : Nat → State} (hr : Run f) (hf : Fair f) {n : Nat} (hs : (f n).stop = true) (hw : (f n).flag = true)
    (hst : ∀ now rest, (f n).stage ≠ .reset now rest) (hq : ∀ m, n ≤ m → (f m).sent = (f n).sent) :
    ∃ m ok, n ≤ m ∧ (f m).stage = .ended ok := by
  obtain ⟨m, hm, ok, h⟩ := stop_ends hr hf hs hw hst hq
  exact ⟨m, ok, hm, h⟩

/-- **C141** A lost shutdown stays lost: when `shutdown` was called, the reactor sleeps and the waker's flag is not set, then as long as no further call is made
on a handle the reactor does not end (but by an error), whatever peers do and however much time passes. -/
theorem C141_stuck {f : Nat → State} (hr : Run f) {n d : Nat} (hs : (f n).stop = true) (hw : (f n).flag = false) (hst : (f n).stage = .waiting d)
    (hc : ∀ m, n ≤ m → ¬ CallerStep (f m) (f (m + 1))) : ∀ m, n ≤ m → (f m).stage ≠ .ended true ∧ (f m).stop = true := by
  intro m hm
  obtain ⟨h1, h2⟩ := deaf hr hs hw hst hc m hm
  refine ⟨?_, h1⟩
  intro e
  rw [e] at h2
  exact absurd (show true = false from h2.2) (by decide)

/-- **C141** is false: there is an execution in which a command and a `shutdown` are called, both return, nothing fails, the reactor gets its turn, and it
never ends. -/
theorem C141_counterexample : ∃ f, Run f ∧ Fair f ∧ (∃ n t, (f n).callers t = .idle ∧ (f n).stop = false ∧ (f (n + 1)).callers t = .sent ∧ (f (n + 1)).stop = true) ∧
    (∃ n, ∀ m, n ≤ m → ∀ t, (f m).callers t = .idle) ∧ ∀ n ok, (f n).stage ≠ .ended ok :=
  Race.witness

end Verif.Loop
