import Verif.Time.Model

/-!
# Timers: C37
-/

set_option autoImplicit false

namespace Verif.Time

variable {K : Type}

/-! ## Specification -/

/-- Calls on the timer manager. -/
inductive TimerOp (K : Type) where
  | register (key : K) (time : Nat)
  | wake (now : Nat)

/-- What a history of calls shows from outside: the timers that were accepted, and those reported as `(key, clock at the
report)`, in order. -/
structure Seen (K : Type) where
  accepted : List (K × Nat)
  woken : List (K × Nat)

/-- Histories of a timer manager with a given threshold: any calls at any times; each sort may order equal times as it likes. -/
inductive TimerRun (threshold : Nat) : Timers K → Seen K → Prop
  | init : TimerRun threshold ⟨[], threshold⟩ ⟨[], []⟩
  | accept {m m' : Timers K} {s : Seen K} (sort : List (K × Nat) → List (K × Nat)) (k : K) (t : Nat) :
      TimerRun threshold m s → SortsDesc sort → m.register sort k t = (true, m') →
      TimerRun threshold m' { s with accepted := s.accepted ++ [(k, t)] }
  | refuse {m m' : Timers K} {s : Seen K} (sort : List (K × Nat) → List (K × Nat)) (k : K) (t : Nat) :
      TimerRun threshold m s → SortsDesc sort → m.register sort k t = (false, m') → TimerRun threshold m' s
  | wake {m m' : Timers K} {s : Seen K} (now : Nat) (ks : List K) :
      TimerRun threshold m s → m.wake now = (ks, m') →
      TimerRun threshold m' { s with woken := s.woken ++ ks.map (fun k => (k, now)) }

/-! ## Invariant -/

theorem run_sorted {threshold : Nat} {m : Timers K} {s : Seen K} (h : TimerRun threshold m s) :
    m.threshold = threshold ∧ m.timeouts.Pairwise (fun a b => b.2 ≤ a.2) ∧
    m.timeouts.Pairwise (fun a b => threshold ≤ diff a.2 b.2) := by
  induction h with
  | init => exact ⟨rfl, List.Pairwise.nil, List.Pairwise.nil⟩
  | @accept m m' s sort k t _ hs hr ih =>
    obtain ⟨i1, i2, i3⟩ := ih
    unfold Timers.register at hr
    split at hr
    · simp at hr
    · rename_i hany
      simp only [Prod.mk.injEq, true_and] at hr
      subst hr
      refine ⟨i1, hs.sorted _, ?_⟩
      refine ((hs.perm _).pairwise_iff ?_).2 ?_
      · intro a b hab; unfold diff at *; split at hab <;> split <;> omega
      · rw [List.pairwise_append]
        refine ⟨i3, by simp, ?_⟩
        intro a ha b hb
        simp only [List.mem_singleton] at hb
        subst hb
        simp only [List.any_eq_true, decide_eq_true_eq, not_exists, not_and, Nat.not_lt] at hany
        rw [← i1]
        exact hany a ha
  | @refuse m m' s sort k t _ hs hr ih =>
    unfold Timers.register at hr
    split at hr
    · simp only [Prod.mk.injEq, true_and] at hr; subst hr; exact ih
    · simp at hr
  | @wake m m' s now ks _ hw ih =>
    obtain ⟨i1, i2, i3⟩ := ih
    have hsub : ∀ l : List (K × Nat), (wakeLoop now l).2.Sublist l := by
      intro l
      induction l with
      | nil => simp [wakeLoop]
      | cons x l ih =>
        obtain ⟨k, t⟩ := x
        unfold wakeLoop
        split
        · exact ih.cons _
        · exact List.Sublist.refl _
    simp only [Timers.wake, Prod.mk.injEq] at hw
    obtain ⟨rfl, rfl⟩ := hw
    have h := (hsub m.timeouts.reverse).reverse
    rw [List.reverse_reverse] at h
    exact ⟨i1, i2.sublist h, i3.sublist h⟩

theorem wakeLoop_spec (now : Nat) : ∀ l : List (K × Nat), l.Pairwise (fun a b => a.2 ≤ b.2) →
    ∃ ws, (wakeLoop now l).1 = ws.map (·.1) ∧ ws ++ (wakeLoop now l).2 = l ∧ (∀ x ∈ ws, x.2 ≤ now) ∧
      ∀ x ∈ (wakeLoop now l).2, now < x.2
  | [], _ => ⟨[], rfl, rfl, by simp, by simp [wakeLoop]⟩
  | (k, t) :: l, h => by
    rw [List.pairwise_cons] at h
    unfold wakeLoop
    split
    · rename_i ht
      obtain ⟨ws, h1, h2, h3, h4⟩ := wakeLoop_spec now l h.2
      refine ⟨(k, t) :: ws, by simp [h1], by simp [h2], ?_, h4⟩
      intro x hx
      rcases List.mem_cons.1 hx with rfl | hx
      · exact ht
      · exact h3 x hx
    · rename_i ht
      refine ⟨[], rfl, rfl, by simp, ?_⟩
      intro x hx
      rcases List.mem_cons.1 hx with rfl | hx
      · simpa using ht
      · have := h.1 x hx
        simp only at this
        omega

/-! ## Theorems -/

/-- C37, registering.  In every history: a timer is refused exactly if one within less than the threshold exists already; a
refusal changes nothing, otherwise exactly this timer is added. -/
theorem C37_register {threshold : Nat} {m : Timers K} {s : Seen K} (_h : TimerRun threshold m s)
    (sort : List (K × Nat) → List (K × Nat)) (hs : SortsDesc sort) (k : K) (t : Nat) :
    ((m.register sort k t).1 = false ↔ ∃ x ∈ m.timeouts, x.2 < t + threshold ∧ t < x.2 + threshold) ∧
    ((m.register sort k t).1 = false → (m.register sort k t).2 = m) ∧
    ((m.register sort k t).1 = true → (m.register sort k t).2.timeouts.Perm ((k, t) :: m.timeouts)) := by
  obtain ⟨i1, _, _⟩ := run_sorted _h
  have hd : ∀ x : K × Nat, diff x.2 t < threshold ↔ x.2 < t + threshold ∧ t < x.2 + threshold := by
    intro x; unfold diff; split <;> omega
  unfold Timers.register
  split
  · rename_i hany
    simp only [List.any_eq_true, decide_eq_true_eq] at hany
    rw [i1] at hany
    refine ⟨⟨fun _ => ?_, fun _ => rfl⟩, fun _ => rfl, by simp⟩
    obtain ⟨x, hx, hlt⟩ := hany
    exact ⟨x, hx, (hd x).1 hlt⟩
  · rename_i hany
    simp only [List.any_eq_true, decide_eq_true_eq, not_exists, not_and] at hany
    rw [i1] at hany
    refine ⟨⟨by simp, ?_⟩, by simp, fun _ => ?_⟩
    · rintro ⟨x, hx, hlt⟩
      exact absurd ((hd x).2 hlt) (hany x hx)
    · exact (hs.perm _).trans List.perm_append_comm

/-- C37, waking.  In every history: waking at time `now` reports exactly the timers whose time has been reached (`ws`), earliest
first, and keeps exactly the others. -/
theorem C37_wake {threshold : Nat} {m : Timers K} {s : Seen K} (h : TimerRun threshold m s) (now : Nat) :
    ∃ ws, (m.wake now).1 = ws.map (·.1) ∧ ws.Pairwise (fun a b => a.2 ≤ b.2) ∧
      (ws ++ (m.wake now).2.timeouts).Perm m.timeouts ∧ (∀ x ∈ ws, x.2 ≤ now) ∧
      ∀ x ∈ (m.wake now).2.timeouts, now < x.2 := by
  obtain ⟨_, i2, _⟩ := run_sorted h
  have hr : m.timeouts.reverse.Pairwise (fun a b => a.2 ≤ b.2) := List.pairwise_reverse.2 i2
  obtain ⟨ws, h1, h2, h3, h4⟩ := wakeLoop_spec now _ hr
  refine ⟨ws, h1, ?_, ?_, h3, ?_⟩
  · rw [← h2, List.pairwise_append] at hr; exact hr.1
  · refine (List.Perm.append_left ws (List.reverse_perm _)).trans ?_
    rw [h2]
    exact List.reverse_perm _
  · intro x hx
    exact h4 x (by simpa [Timers.wake] using hx)

/-- C37, the time to wait.  In every history: there is none exactly without timers; otherwise it is the time left until the
earliest one (zero if that is past), and waking after it reports at least one. -/
theorem C37_next {threshold : Nat} {m : Timers K} {s : Seen K} (h : TimerRun threshold m s) (now : Nat) :
    (m.next now = none ↔ m.timeouts = []) ∧
    ∀ d, m.next now = some d → (∃ x ∈ m.timeouts, (∀ y ∈ m.timeouts, x.2 ≤ y.2) ∧ d = x.2 - now) ∧
      (m.wake (now + d)).1 ≠ [] := by
  obtain ⟨_, i2, _⟩ := run_sorted h
  refine ⟨by simp [Timers.next], ?_⟩
  intro d hd
  simp only [Timers.next, Option.map_eq_some_iff] at hd
  obtain ⟨x, hx, hd⟩ := hd
  have hxm := List.mem_of_getLast? hx
  have hmin : ∀ y ∈ m.timeouts, x.2 ≤ y.2 := by
    obtain ⟨ys, hys⟩ := List.getLast?_eq_some_iff.1 hx
    rw [hys, List.pairwise_append] at i2
    intro y hy
    rw [hys, List.mem_append] at hy
    rcases hy with hy | hy
    · exact i2.2.2 y hy x (by simp)
    · simp at hy; rw [hy]
  have hd' : d = x.2 - now := by subst hd; split <;> omega
  refine ⟨⟨x, hxm, hmin, hd'⟩, ?_⟩
  obtain ⟨ws, w1, _, w3, _, w5⟩ := C37_wake h (now + d)
  intro hnil
  rw [hnil] at w1
  have hws : ws = [] := by
    cases ws with
    | nil => rfl
    | cons _ _ => simp at w1
  subst hws
  have := w5 x (w3.symm.subset hxm)
  omega

/-- C37, whole histories: no timer is lost, invented or reported twice.  The timers accepted are, as a multiset, those reported
and those still waiting; every report came at or after the timer's time. -/
theorem C37_history {threshold : Nat} {m : Timers K} {s : Seen K} (h : TimerRun threshold m s) :
    ∃ fired : List ((K × Nat) × Nat), s.woken = fired.map (fun x => (x.1.1, x.2)) ∧
      s.accepted.Perm (fired.map (·.1) ++ m.timeouts) ∧ ∀ x ∈ fired, x.1.2 ≤ x.2 := by
  induction h with
  | init => exact ⟨[], rfl, by simp, by simp⟩
  | @accept m m' s sort k t hm hs hr ih =>
    obtain ⟨f, f1, f2, f3⟩ := ih
    have := (C37_register hm sort hs k t).2.2 (by rw [hr])
    rw [hr] at this
    refine ⟨f, f1, ?_, f3⟩
    simp only at this
    have h1 : (s.accepted ++ [(k, t)]).Perm ((k, t) :: (f.map (·.1) ++ m.timeouts)) :=
      List.perm_append_comm.trans (f2.cons _)
    refine h1.trans (List.perm_middle.symm.trans ?_)
    exact List.Perm.append_left _ this.symm
  | @refuse m m' s sort k t hm hs hr ih =>
    have := (C37_register hm sort hs k t).2.1 (by rw [hr])
    rw [hr] at this
    simp only at this
    subst this
    exact ih
  | @wake m m' s now ks hm hw ih =>
    obtain ⟨f, f1, f2, f3⟩ := ih
    obtain ⟨ws, w1, _, w3, w4, _⟩ := C37_wake hm now
    rw [hw] at w1 w3
    simp only at w1 w3
    refine ⟨f ++ ws.map (fun x => (x, now)), ?_, ?_, ?_⟩
    · simp [f1, w1]
    · simp only [List.map_append, List.map_map]
      have : ws.map ((fun x => x.1) ∘ fun x : K × Nat => (x, now)) = ws := by simp [Function.comp_def]
      rw [this, List.append_assoc]
      exact f2.trans (List.Perm.append_left _ w3.symm)
    · intro x hx
      rw [List.mem_append] at hx
      rcases hx with hx | hx
      · exact f3 x hx
      · rw [List.mem_map] at hx
        obtain ⟨y, hy, rfl⟩ := hx
        exact w4 y hy

/-- Timers are at least the threshold apart. -/
theorem C37_apart {threshold : Nat} {m : Timers K} {s : Seen K} (h : TimerRun threshold m s) :
    m.timeouts.Pairwise (fun a b => a.2 + threshold ≤ b.2 ∨ b.2 + threshold ≤ a.2) := by
  refine (run_sorted h).2.2.imp ?_
  intro a b hab
  unfold diff at hab
  split at hab <;> omega

/-! ## A concrete history -/

/-- Sorting as the code does it (here: insertion sort). -/
def descSort (l : List (Nat × Nat)) : List (Nat × Nat) := l.insertionSort (fun a b => b.2 ≤ a.2)

theorem descSort_ok : SortsDesc descSort := by
  have : Std.Total (fun a b : Nat × Nat => b.2 ≤ a.2) := ⟨fun a b => by omega⟩
  have : IsTrans (Nat × Nat) (fun a b => b.2 ≤ a.2) := ⟨fun a b c => by intro h1 h2; omega⟩
  exact ⟨fun l => List.perm_insertionSort _ l, fun l => List.pairwise_insertionSort _ l⟩

example : ∃ m s, TimerRun (K := Nat) 5 m s ∧ m.timeouts = [(3, 40)] ∧ s.woken = [(2, 25), (1, 25)] ∧ m.next 30 = some 10 := by
  have h1 := TimerRun.accept (K := Nat) descSort 1 20 (.init (threshold := 5)) descSort_ok rfl
  have h2 := TimerRun.accept descSort 2 10 h1 descSort_ok rfl
  have h3 := TimerRun.accept descSort 3 40 h2 descSort_ok rfl
  have h4 := TimerRun.refuse descSort 4 44 h3 descSort_ok rfl
  exact ⟨_, _, TimerRun.wake 25 _ h4 rfl, by decide, by decide, by decide⟩

end Verif.Time
