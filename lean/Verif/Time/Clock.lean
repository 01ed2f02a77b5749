import Mathlib.Logic.Function.Basic
import Mathlib.Data.List.Basic

/-!
# The local clock: `LocalTime::now` of net/src/time.rs (C149)

Any number of threads call `LocalTime::now`.  The steps of all calls interleave; each is one operation on what they share: the clock of the system, and `LAST`.
-/

set_option autoImplicit false

namespace Verif.Time.Clock

/-- Where a thread is in a call of `now` (time.rs:21-34): in none; after it read the clock of the system (24), after it read `LAST` (25).  `start`: how many calls had
returned when this one began (only for the statements). -/
inductive Pc where
  | idle
  | read (start now : Nat)
  | loaded (start now last : Nat)
  deriving DecidableEq, Repr

/-- What a call returned, in seconds, the number of calls that had returned when it began, and what it read off the clock of the system. -/
structure Ret where
  start : Nat
  value : Nat
  now : Nat
  deriving DecidableEq, Repr

/-- The clock of the system (milliseconds since the epoch), `LAST` (net/src/time.rs:22), all threads, and what calls returned so far, oldest first.  `most`: the most that the clock of the
system has shown so far, in seconds (the last two only for the statements). -/
structure State where
  clock : Nat
  last : Nat
  pcs : Nat → Pc
  returned : List Ret
  most : Nat

/-- The beginning: `LAST` is zero (net/src/time.rs:22). -/
def State.start (clock : Nat) : State := ⟨clock, 0, fun _ => .idle, [], clock / 1000⟩

/-- The last part of `now` (net/src/time.rs:28-33): what is stored in `LAST`, and what is returned. -/
def result (now last : Nat) (stored : Nat) : Nat × Nat := if now < last then (stored, last) else (now, now)

/-- Steps of threads. -/
inductive ThreadStep : State → State → Prop
  /-- `SystemTime::now` (net/src/time.rs:24), in whole seconds (`as_secs`, 44-46; that they fit into 64 bits is taken for granted, and so is that the clock is not before the epoch, 81). -/
  | read {s : State} (i : Nat) (h : s.pcs i = .idle) :
      ThreadStep s { s with pcs := Function.update s.pcs i (.read s.returned.length (s.clock / 1000)) }
  /-- `LAST.load` (net/src/time.rs:25). -/
  | load {s : State} (i : Nat) {k n : Nat} (h : s.pcs i = .read k n) :
      ThreadStep s { s with pcs := Function.update s.pcs i (.loaded k n s.last) }
  /-- The comparison, and `LAST.store` (net/src/time.rs:28-33). -/
  | done {s : State} (i : Nat) {k n l : Nat} (h : s.pcs i = .loaded k n l) :
      ThreadStep s { s with pcs := Function.update s.pcs i .idle, last := (result n l s.last).1, returned := s.returned ++ [⟨k, (result n l s.last).2, n⟩] }

/-- The states that are reached.  `back`: the clock of the system may be set back; `overlap`: calls may begin while others have not returned. -/
inductive Reach (back overlap : Bool) : State → Prop
  | start (clock : Nat) : Reach back overlap (State.start clock)
  | clock {s : State} (t : Nat) (h : Reach back overlap s) (hb : back = false → s.clock ≤ t) :
      Reach back overlap { s with clock := t, most := max s.most (t / 1000) }
  | thread {s s' : State} (h : Reach back overlap s) (hs : ThreadStep s s') (ho : overlap = false → (∀ i, s.pcs i = .idle) ∨ ∃ i, s.pcs i ≠ .idle ∧ s'.pcs i ≠ s.pcs i) :
      Reach back overlap s'

/-- The clock is monotonic: a call that begins after another has returned does not return less. -/
def State.Monotonic (s : State) : Prop := ∀ (i j : Nat) (x y : Ret), s.returned[i]? = some x → s.returned[j]? = some y → i < y.start → x.value ≤ y.value

theorem result_ge (n l k : Nat) : n ≤ (result n l k).2 := by unfold result; split <;> simp only <;> omega

theorem result_le {n l k m : Nat} (hn : n ≤ m) (hl : l ≤ m) : (result n l k).2 ≤ m := by unfold result; split <;> assumption

theorem last_le {n l k m : Nat} (hn : n ≤ m) (hk : k ≤ m) : (result n l k).1 ≤ m := by unfold result; split <;> assumption

/-- Nothing is more than the clock of the system has shown. -/
structure Bound (s : State) : Prop where
  clock : s.clock / 1000 ≤ s.most
  last : s.last ≤ s.most
  read : ∀ i k n, s.pcs i = .read k n → n ≤ s.most
  loaded : ∀ i k n l, s.pcs i = .loaded k n l → n ≤ s.most ∧ l ≤ s.most
  returned : ∀ x ∈ s.returned, x.now ≤ x.value ∧ x.value ≤ s.most

theorem reach_bound {back overlap : Bool} {s : State} (h : Reach back overlap s) : Bound s := by
  induction h with
  | start c => exact ⟨Nat.le_refl _, Nat.zero_le _, by simp [State.start], by simp [State.start], by simp [State.start]⟩
  | @clock s t h hb ih =>
    refine ⟨Nat.le_max_right .., Nat.le_trans ih.last (Nat.le_max_left ..), ?_, ?_, ?_⟩
    · exact fun i k n e => Nat.le_trans (ih.read i k n e) (Nat.le_max_left ..)
    · exact fun i k n l e => ⟨Nat.le_trans (ih.loaded i k n l e).1 (Nat.le_max_left ..), Nat.le_trans (ih.loaded i k n l e).2 (Nat.le_max_left ..)⟩
    · exact fun x hx => ⟨(ih.returned x hx).1, Nat.le_trans (ih.returned x hx).2 (Nat.le_max_left ..)⟩
  | @thread s s' h hs ho ih =>
    cases hs with
    | read i hi =>
      refine ⟨ih.clock, ih.last, ?_, ?_, ih.returned⟩
      · intro j k n e
        simp only [Function.update_apply] at e
        split at e
        · injection e with _ e; subst e; exact ih.clock
        · exact ih.read j k n e
      · intro j k n l e
        simp only [Function.update_apply] at e
        split at e
        · cases e
        · exact ih.loaded j k n l e
    | @load i k0 n0 hi =>
      refine ⟨ih.clock, ih.last, ?_, ?_, ih.returned⟩
      · intro j k n e
        simp only [Function.update_apply] at e
        split at e
        · cases e
        · exact ih.read j k n e
      · intro j k n l e
        simp only [Function.update_apply] at e
        split at e
        · injection e with _ e1 e2; subst e1 e2
          exact ⟨ih.read i _ _ hi, ih.last⟩
        · exact ih.loaded j k n l e
    | @done i k0 n0 l0 hi =>
      obtain ⟨hn, hl⟩ := ih.loaded i _ _ _ hi
      refine ⟨ih.clock, last_le hn ih.last, ?_, ?_, ?_⟩
      · intro j k n e
        simp only [Function.update_apply] at e
        split at e
        · cases e
        · exact ih.read j k n e
      · intro j k n l e
        simp only [Function.update_apply] at e
        split at e
        · cases e
        · exact ih.loaded j k n l e
      · intro x hx
        rcases List.mem_append.1 hx with hx | hx
        · exact ih.returned x hx
        · rw [List.mem_singleton] at hx; subst hx
          exact ⟨result_ge .., result_le hn hl⟩

/-- **C149** Each call returns at least what the clock of the system showed when it was read, and no more than it has ever shown. -/
theorem C149_current {back overlap : Bool} {s : State} (h : Reach back overlap s) {x : Ret} (hx : x ∈ s.returned) : x.now ≤ x.value ∧ x.value ≤ s.most :=
  (reach_bound h).returned x hx

/-- A property of the returned values with their positions, kept when a value is added at the end. -/
theorem mono_snoc {l : List Ret} {y : Ret} (h : ∀ (i j : Nat) (x z : Ret), l[i]? = some x → l[j]? = some z → i < z.start → x.value ≤ z.value)
    (hs : ∀ z ∈ l, z.start ≤ l.length) (hy : y.start ≤ l.length) (hv : ∀ (i : Nat) (x : Ret), l[i]? = some x → i < y.start → x.value ≤ y.value) :
    ∀ (i j : Nat) (x z : Ret), (l ++ [y])[i]? = some x → (l ++ [y])[j]? = some z → i < z.start → x.value ≤ z.value := by
  intro i j x z hi hj hlt
  have hz : z ∈ l ∨ (z = y) := by
    rcases List.mem_append.1 (List.mem_of_getElem? hj) with h | h
    · exact .inl h
    · exact .inr (List.mem_singleton.1 h)
  have hil : i < l.length := by
    rcases hz with h | rfl
    · have := hs z h; omega
    · omega
  rw [List.getElem?_append_left hil] at hi
  by_cases hjl : j < l.length
  · rw [List.getElem?_append_left hjl] at hj
    exact h i j x z hi hj hlt
  · rw [List.getElem?_append_right (by omega)] at hj
    have : z = y := List.mem_singleton.1 (List.mem_of_getElem? hj)
    subst this
    exact hv i x hi hlt

/-- If the clock is not set back: a call under way reads no less than what had been returned when it began. -/
structure Steady (s : State) : Prop where
  most : s.most = s.clock / 1000
  read : ∀ i k n, s.pcs i = .read k n → k ≤ s.returned.length ∧ ∀ (j : Nat) (x : Ret), s.returned[j]? = some x → j < k → x.value ≤ n
  loaded : ∀ i k n l, s.pcs i = .loaded k n l → k ≤ s.returned.length ∧ ∀ (j : Nat) (x : Ret), s.returned[j]? = some x → j < k → x.value ≤ n
  starts : ∀ x ∈ s.returned, x.start ≤ s.returned.length
  mono : s.Monotonic

theorem steady_old {l : List Ret} {y : Ret} {k n : Nat} (h : k ≤ l.length ∧ ∀ (j : Nat) (x : Ret), l[j]? = some x → j < k → x.value ≤ n) :
    k ≤ (l ++ [y]).length ∧ ∀ (j : Nat) (x : Ret), (l ++ [y])[j]? = some x → j < k → x.value ≤ n := by
  refine ⟨by simp; omega, ?_⟩
  intro j x hj hlt
  rw [List.getElem?_append_left (by omega)] at hj
  exact h.2 j x hj hlt

theorem reach_steady {overlap : Bool} {s : State} (h : Reach false overlap s) : Steady s := by
  induction h with
  | start c => exact ⟨rfl, by simp [State.start], by simp [State.start], by simp [State.start], by simp [State.start, State.Monotonic]⟩
  | @clock s t h hb ih =>
    refine ⟨?_, ih.read, ih.loaded, ih.starts, ih.mono⟩
    have := hb rfl
    simp only [ih.most]
    exact Nat.max_eq_right (Nat.div_le_div_right this)
  | @thread s s' h hs ho ih =>
    cases hs with
    | read i hi =>
      refine ⟨ih.most, ?_, ?_, ih.starts, ih.mono⟩
      · intro j k n e
        simp only [Function.update_apply] at e
        split at e
        · injection e with e1 e2; subst e1 e2
          refine ⟨Nat.le_refl _, ?_⟩
          intro j x hx _
          have := (reach_bound h).returned x (List.mem_of_getElem? hx)
          rw [ih.most] at this; exact this.2
        · exact ih.read j k n e
      · intro j k n l e
        simp only [Function.update_apply] at e
        split at e
        · cases e
        · exact ih.loaded j k n l e
    | @load i k0 n0 hi =>
      refine ⟨ih.most, ?_, ?_, ih.starts, ih.mono⟩
      · intro j k n e
        simp only [Function.update_apply] at e
        split at e
        · cases e
        · exact ih.read j k n e
      · intro j k n l e
        simp only [Function.update_apply] at e
        split at e
        · injection e with e0 e1 e2; subst e0 e1 e2
          exact ih.read i _ _ hi
        · exact ih.loaded j k n l e
    | @done i k0 n0 l0 hi =>
      have hd := ih.loaded i _ _ _ hi
      refine ⟨ih.most, ?_, ?_, ?_, ?_⟩
      · intro j k n e
        simp only [Function.update_apply] at e
        split at e
        · cases e
        · exact steady_old (ih.read j k n e)
      · intro j k n l e
        simp only [Function.update_apply] at e
        split at e
        · cases e
        · exact steady_old (ih.loaded j k n l e)
      · intro x hx
        rcases List.mem_append.1 hx with hx | hx
        · have := ih.starts x hx; simp; omega
        · rw [List.mem_singleton] at hx; subst hx
          have := hd.1; simp; omega
      · refine mono_snoc ih.mono ih.starts hd.1 ?_
        intro j x hx hlt
        exact Nat.le_trans (hd.2 j x hx hlt) (result_ge ..)

/-- **C149** (partial) If the clock of the system is not set back, then the local clock is monotonic, whatever threads use it.  Missing: clocks that are set back while
threads use the local clock at the same time; see `C149_counterexample`. -/
theorem C149_steady_partial {overlap : Bool} {s : State} (h : Reach false overlap s) : s.Monotonic := (reach_steady h).mono

/-- If calls do not overlap: `LAST` is at least everything returned, and is still what a call that has read it found. -/
structure Single (s : State) : Prop where
  one : ∀ i j, s.pcs i ≠ .idle → s.pcs j ≠ .idle → i = j
  last : ∀ x ∈ s.returned, x.value ≤ s.last
  read : ∀ i k n, s.pcs i = .read k n → k ≤ s.returned.length
  loaded : ∀ i k n l, s.pcs i = .loaded k n l → k ≤ s.returned.length ∧ l = s.last
  starts : ∀ x ∈ s.returned, x.start ≤ s.returned.length
  mono : s.Monotonic

theorem reach_single {back : Bool} {s : State} (h : Reach back false s) : Single s := by
  induction h with
  | start c => exact ⟨by simp [State.start], by simp [State.start], by simp [State.start], by simp [State.start], by simp [State.start], by simp [State.start, State.Monotonic]⟩
  | @clock s t h hb ih => exact ⟨ih.one, ih.last, ih.read, ih.loaded, ih.starts, ih.mono⟩
  | @thread s s' h hs ho ih =>
    have hone : ∀ i p, s'.pcs = Function.update s.pcs i p → ∀ a b, s'.pcs a ≠ .idle → s'.pcs b ≠ .idle → a = b := by
      intro i p e a b ha hb
      rw [e] at ha hb
      simp only [Function.update_apply] at ha hb
      rcases ho rfl with hi | ⟨j, hj, hne⟩
      · by_cases h1 : a = i
        · by_cases h2 : b = i
          · rw [h1, h2]
          · rw [if_neg h2] at hb; exact absurd (hi b) hb
        · rw [if_neg h1] at ha; exact absurd (hi a) ha
      · have hji : j = i := by
          by_cases h1 : j = i
          · exact h1
          · rw [e, Function.update_apply, if_neg h1] at hne; exact absurd rfl hne
        subst hji
        have : ∀ c, (if c = j then p else s.pcs c) ≠ .idle → c = j := by
          intro c hc
          by_cases h1 : c = j
          · exact h1
          · rw [if_neg h1] at hc; exact ih.one c j hc hj
        rw [this a ha, this b hb]
    cases hs with
    | read i hi =>
      refine ⟨hone i _ rfl, ih.last, ?_, ?_, ih.starts, ih.mono⟩
      · intro j k n e
        simp only [Function.update_apply] at e
        split at e
        · injection e with e1 e2; subst e1; exact Nat.le_refl _
        · exact ih.read j k n e
      · intro j k n l e
        simp only [Function.update_apply] at e
        split at e
        · cases e
        · exact ih.loaded j k n l e
    | @load i k0 n0 hi =>
      refine ⟨hone i _ rfl, ih.last, ?_, ?_, ih.starts, ih.mono⟩
      · intro j k n e
        simp only [Function.update_apply] at e
        split at e
        · cases e
        · exact ih.read j k n e
      · intro j k n l e
        simp only [Function.update_apply] at e
        split at e
        · injection e with e0 e1 e2; subst e0 e1 e2
          exact ⟨ih.read i _ _ hi, rfl⟩
        · exact ih.loaded j k n l e
    | @done i k0 n0 l0 hi =>
      obtain ⟨hk, hl⟩ := ih.loaded i _ _ _ hi
      subst hl
      have hidle : ∀ j, j ≠ i → s.pcs j = .idle := by
        intro j hj
        by_contra hne
        exact hj (ih.one j i hne (by rw [hi]; simp))
      have hr : (result n0 s.last s.last).1 = (result n0 s.last s.last).2 ∧ s.last ≤ (result n0 s.last s.last).2 := by
        unfold result; split <;> simp only [true_and] <;> omega
      refine ⟨hone i _ rfl, ?_, ?_, ?_, ?_, ?_⟩
      · intro x hx
        simp only [hr.1]
        rcases List.mem_append.1 hx with hx | hx
        · exact Nat.le_trans (ih.last x hx) hr.2
        · rw [List.mem_singleton] at hx; subst hx; exact Nat.le_refl _
      · intro j k n e
        simp only [Function.update_apply] at e
        split at e
        · cases e
        · rename_i hj; rw [hidle j hj] at e; cases e
      · intro j k n l e
        simp only [Function.update_apply] at e
        split at e
        · cases e
        · rename_i hj; rw [hidle j hj] at e; cases e
      · intro x hx
        rcases List.mem_append.1 hx with hx | hx
        · have := ih.starts x hx; simp; omega
        · rw [List.mem_singleton] at hx; subst hx; simp; omega
      · refine mono_snoc ih.mono ih.starts hk ?_
        intro j x hx _
        exact Nat.le_trans (ih.last x (List.mem_of_getElem? hx)) hr.2

/-- **C149** (partial) If no two threads use the local clock at the same time, it is monotonic, also when the clock of the system is set back. -/
theorem C149_single_partial {back : Bool} {s : State} (h : Reach back false s) : s.Monotonic := (reach_single h).mono

/-! ## Cases -/

namespace Scenarios

/-- One step of thread `i` of a call. -/
def go (s : State) (i : Nat) : State :=
  match s.pcs i with
  | .idle => { s with pcs := Function.update s.pcs i (.read s.returned.length (s.clock / 1000)) }
  | .read k n => { s with pcs := Function.update s.pcs i (.loaded k n s.last) }
  | .loaded k n l => { s with pcs := Function.update s.pcs i .idle, last := (result n l s.last).1, returned := s.returned ++ [⟨k, (result n l s.last).2, n⟩] }

theorem go_step (s : State) (i : Nat) : ThreadStep s (go s i) := by
  unfold go
  split
  · rename_i h; exact .read i h
  · rename_i h; exact .load i h
  · rename_i h; exact .done i h

/-- Steps of threads, and of the clock. -/
def goes (s : State) : List (Nat ⊕ Nat) → State
  | [] => s
  | .inl i :: l => goes (go s i) l
  | .inr t :: l => goes { s with clock := t, most := max s.most (t / 1000) } l

theorem goes_reach : ∀ (l : List (Nat ⊕ Nat)) {s : State}, Reach true true s → Reach true true (goes s l)
  | [], _, h => h
  | .inl i :: l, s, h => goes_reach l (.thread h (go_step s i) (by simp))
  | .inr t :: l, _, h => goes_reach l (.clock t h (by simp))

/-- Thread 0 reads the clock and `LAST` and is then held up; thread 1 calls `now` ten seconds later, which returns 20; thread 0 goes on and stores 10 in `LAST`; the clock of the system
is set back to 10 seconds, and the next call of thread 1 returns 10. -/
def race : State := goes (State.start 10000) [.inl 0, .inl 0, .inr 20000, .inl 1, .inl 1, .inl 1, .inl 0, .inr 10000, .inl 1, .inl 1, .inl 1]

/-- **C149** With two threads, and a clock that is set back, a thread's own next call returns less. -/
theorem C149_counterexample : Reach true true race ∧ race.returned = [⟨0, 20, 20⟩, ⟨0, 10, 10⟩, ⟨2, 10, 10⟩] ∧ ¬ race.Monotonic := by
  have hr : race.returned = [⟨0, 20, 20⟩, ⟨0, 10, 10⟩, ⟨2, 10, 10⟩] := by decide +kernel
  refine ⟨goes_reach _ (.start 10000), hr, ?_⟩
  intro h
  have := h 0 2 ⟨0, 20, 20⟩ ⟨2, 10, 10⟩ (by rw [hr]; rfl) (by rw [hr]; rfl) (by decide)
  exact absurd this (by decide)

/-- One thread, the clock set back between two calls: both return 20. -/
def single : State := go (go (go { (go (go (go (State.start 20500) 0) 0) 0) with clock := 10000, most := 20 } 0) 0) 0

/-- The hypotheses of `C149_single_partial` are met. -/
example : Reach true false single ∧ single.returned = [⟨0, 20, 20⟩, ⟨1, 20, 10⟩] := by
  have hr : single.returned = [⟨0, 20, 20⟩, ⟨1, 20, 10⟩] := by decide +kernel
  refine ⟨?_, hr⟩
  have step : ∀ s, Reach true false s → ((s.pcs 0 = .idle ∧ ∀ i, s.pcs i = .idle) ∨ (s.pcs 0 ≠ .idle ∧ (go s 0).pcs 0 ≠ s.pcs 0)) → Reach true false (go s 0) := by
    intro s h hs
    refine .thread h (go_step s 0) fun _ => ?_
    rcases hs with hs | hs
    · exact .inl hs.2
    · exact .inr ⟨0, hs⟩
  have a1 := step _ (.start 20500) (.inl ⟨rfl, fun _ => rfl⟩)
  have a2 := step _ a1 (.inr ⟨by decide, by decide⟩)
  have a3 := step _ a2 (.inr ⟨by decide, by decide⟩)
  have hi : ∀ i, (go (go (go (State.start 20500) 0) 0) 0).pcs i = .idle := by
    intro i
    by_cases h : i = 0
    · subst h; decide
    · simp [go, State.start]
  have a4 := Reach.clock (back := true) 10000 a3 (by simp)
  have a5 := step _ a4 (.inl ⟨hi 0, hi⟩)
  have a6 := step _ a5 (.inr ⟨by decide, by decide⟩)
  exact step _ a6 (.inr ⟨by decide, by decide⟩)

end Scenarios
end Verif.Time.Clock
