import Verif.Loop.Lemmas
import Verif.Time.PropsTimers

/-!
# The timers in the loop
-/

set_option autoImplicit false

namespace Verif.Loop
open Verif.Time (Timers)

/-- The timers: latest first, a second apart from each other at least when registered. -/
structure Sorted (m : Timers Unit) : Prop where
  threshold : m.threshold = 1000
  order : m.timeouts.Pairwise (fun a b => b.2 ≤ a.2)

theorem sorted_register {m : Timers Unit} {sort : List (Unit × Nat) → List (Unit × Nat)} (hs : Time.SortsDesc sort) (h : Sorted m) (t : Nat) :
    Sorted (m.register sort () t).2 ∧ (∀ x ∈ m.timeouts, x ∈ (m.register sort () t).2.timeouts) ∧
    ∃ x ∈ (m.register sort () t).2.timeouts, Time.diff x.2 t < 1000 := by
  unfold Timers.register
  split
  · rename_i hany
    refine ⟨h, fun _ hx => hx, ?_⟩
    obtain ⟨x, hx, hd⟩ := List.any_eq_true.1 hany
    exact ⟨x, hx, by have := of_decide_eq_true hd; rw [h.threshold] at this; exact this⟩
  · refine ⟨⟨h.threshold, hs.sorted _⟩, fun x hx => (hs.perm _).mem_iff.2 (List.mem_append_left _ hx), ((), t), (hs.perm _).mem_iff.2 (by simp), ?_⟩
    simp [Time.diff]

theorem sorted_registers {sort : List (Unit × Nat) → List (Unit × Nat)} (hs : Time.SortsDesc sort) (now : Nat) : ∀ (asks : List Nat) (m : Timers Unit), Sorted m →
    Sorted (register sort now m asks) ∧ (∀ x ∈ m.timeouts, x ∈ (register sort now m asks).timeouts) ∧
    ∀ d ∈ asks, ∃ x ∈ (register sort now m asks).timeouts, Time.diff x.2 (now + d) < 1000
  | [], m, h => ⟨h, fun _ hx => hx, fun _ hd => by cases hd⟩
  | a :: asks, m, h => by
    obtain ⟨h1, h2, h3⟩ := sorted_register hs h (now + a)
    obtain ⟨i1, i2, i3⟩ := sorted_registers hs now asks _ h1
    refine ⟨i1, fun x hx => i2 x (h2 x hx), ?_⟩
    intro d hd
    rcases List.mem_cons.1 hd with rfl | hd
    · obtain ⟨x, hx, hxd⟩ := h3
      exact ⟨x, i2 x hx, hxd⟩
    · exact i3 d hd

/-- `wake` takes exactly the timers whose time has come. -/
theorem wake_facts {m : Timers Unit} (h : Sorted m) (now : Nat) :
    Sorted (m.wake now).2 ∧ (∀ x, x ∈ (m.wake now).2.timeouts ↔ x ∈ m.timeouts ∧ now < x.2) ∧
    ((m.wake now).1 = [] ↔ ∀ x ∈ m.timeouts, now < x.2) := by
  have hp : m.timeouts.reverse.Pairwise (fun a b => a.2 ≤ b.2) := List.pairwise_reverse.2 h.order
  obtain ⟨ws, h1, h2, h3, h4⟩ := Time.wakeLoop_spec now _ hp
  have hmem : ∀ x, x ∈ m.timeouts ↔ x ∈ ws ∨ x ∈ (Time.wakeLoop now m.timeouts.reverse).2 := by
    intro x
    rw [← List.mem_reverse, ← List.mem_append, h2]
  refine ⟨⟨h.threshold, ?_⟩, ?_, ?_⟩
  · have : (Time.wakeLoop now m.timeouts.reverse).2.Pairwise (fun a b => a.2 ≤ b.2) := by
      rw [← h2] at hp; exact (List.pairwise_append.1 hp).2.1
    exact List.pairwise_reverse.2 this
  · intro x
    simp only [Timers.wake, List.mem_reverse, hmem]
    constructor
    · intro hx; exact ⟨.inr hx, h4 x hx⟩
    · rintro ⟨hx | hx, hlt⟩
      · have := h3 x hx; omega
      · exact hx
  · simp only [Timers.wake, h1, List.map_eq_nil_iff]
    constructor
    · rintro rfl x hx
      rcases (hmem x).1 hx with hx | hx
      · cases hx
      · exact h4 x hx
    · intro hall
      rw [List.eq_nil_iff_forall_not_mem]
      intro x hx
      have := hall x ((hmem x).2 (.inl hx)); have := h3 x hx; omega

theorem reach_sorted {s : State} (h : Reach s) : Sorted s.timers := by
  induction h with
  | start => exact ⟨rfl, .nil⟩
  | step _ hs ih =>
    cases hs with
    | clock t h e => subst e; exact ih
    | caller h => cases h <;> exact ih
    | reactor h =>
      cases h
      case timers hst => exact (wake_facts ih _).1
      case process asks hs hst => exact (sorted_registers hs _ asks _ ih).1
      all_goals exact ih

/-- A request to be woken at time `t`, made before the calls `post`, is kept to within a second: a timer runs, or the service has been woken. -/
def Kept (m : Timers Unit) (post : List Call) (t : Nat) : Prop :=
  (∃ x ∈ m.timeouts, Time.diff x.2 t < 1000) ∨ ∃ l, Call.timer l ∈ post ∧ t < l + 1000

theorem split_append {α : Type} {pre post l extra : List α} {a : α} (h : l ++ extra = pre ++ a :: post) :
    (∃ post', l = pre ++ a :: post' ∧ post = post' ++ extra) ∨ a ∈ extra := by
  rcases List.append_eq_append_iff.1 h with ⟨bs, h1, h2⟩ | ⟨as, h1, h2⟩
  · exact .inr (by rw [h2]; simp)
  · cases as with
    | nil => exact .inr (by rw [← List.nil_append extra, ← h2]; simp)
    | cons b as =>
      obtain ⟨rfl, rfl⟩ := List.cons.inj h2
      exact .inl ⟨as, h1, rfl⟩

theorem kept {s : State} (h : Reach s) : ∀ pre post t, s.calls = pre ++ .asked t :: post → Kept s.timers post t := by
  induction h with
  | start => intro pre post t e; simp [State.start] at e
  | @step s s' hr hs ih =>
    cases hs with
    | clock t h e => subst e; exact ih
    | caller h => cases h <;> exact ih
    | reactor h =>
      have more : ∀ extra, (∀ t, Call.asked t ∉ extra) → ∀ pre post t, s.calls ++ extra = pre ++ .asked t :: post → Kept s.timers post t := by
        intro extra hx pre post t e
        rcases split_append e with ⟨post', e', rfl⟩ | h
        · rcases ih pre post' t e' with h | ⟨l, hl, hlt⟩
          · exact .inl h
          · exact .inr ⟨l, List.mem_append_left _ hl, hlt⟩
        · exact absurd h (hx t)
      cases h
      case socket => exact more _ (by simp)
      case command => exact more _ (by simp)
      case timers now hst =>
        obtain ⟨_, hw2, hw3⟩ := wake_facts (reach_sorted hr) now
        intro pre post t e
        by_cases hn : (s.timers.wake now).1 = []
        · simp only [if_pos hn] at e
          rcases ih pre post t e with ⟨x, hx, hd⟩ | h
          · exact .inl ⟨x, (hw2 x).2 ⟨hx, hw3.1 hn x hx⟩, hd⟩
          · exact .inr h
        · simp only [if_neg hn] at e
          rcases split_append e with ⟨post', e', rfl⟩ | h
          · rcases ih pre post' t e' with ⟨x, hx, hd⟩ | ⟨l, hl, hlt⟩
            · by_cases hxn : now < x.2
              · exact .inl ⟨x, (hw2 x).2 ⟨hx, hxn⟩, hd⟩
              · refine .inr ⟨now, by simp, ?_⟩
                unfold Time.diff at hd
                split at hd <;> omega
            · exact .inr ⟨l, List.mem_append_left _ hl, hlt⟩
          · simp at h
      case process now sort asks hs hst =>
        obtain ⟨_, h2, h3⟩ := sorted_registers hs now asks _ (reach_sorted hr)
        intro pre post t e
        rcases split_append e with ⟨post', e', rfl⟩ | h
        · rcases ih pre post' t e' with ⟨x, hx, hd⟩ | ⟨l, hl, hlt⟩
          · exact .inl ⟨x, h2 x hx, hd⟩
          · exact .inr ⟨l, List.mem_append_left _ hl, hlt⟩
        · obtain ⟨d, hd, he⟩ := List.mem_map.1 h
          injection he with he
          subst he
          exact .inl (h3 d hd)
      all_goals exact ih

/-- The reactor does not sleep longer than until the next timer, unless its time has come already. -/
theorem sleeps {s : State} (h : Reach s) : ∀ d, s.stage = .waiting d → ∀ x ∈ s.timers.timeouts, d ≤ x.2 ∨ d ≤ s.now := by
  induction h with
  | start => intro d e; cases e
  | @step s s' hr hs ih =>
    cases hs with
    | clock t h e =>
      subst e
      intro d e x hx
      rcases ih d e x hx with h' | h'
      · exact .inl h'
      · exact .inr (Nat.le_trans h' h)
    | caller h => cases h <;> exact ih
    | reactor h =>
      cases h
      case wait hst =>
        intro d e x hx
        injection e with e
        have hs := (reach_sorted hr).order
        obtain ⟨l, y, hl⟩ : ∃ l y, s.timers.timeouts = l ++ [y] := by
          rcases List.eq_nil_or_concat s.timers.timeouts with h | ⟨l, y, h⟩
          · rw [h] at hx; cases hx
          · exact ⟨l, y, by simpa using h⟩
        have hy : y.2 ≤ x.2 := by
          rw [hl] at hx hs
          rcases List.mem_append.1 hx with hx | hx
          · exact (List.pairwise_append.1 hs).2.2 x hx y (by simp)
          · simp at hx; rw [hx]
        have hn : s.timers.next s.now = some (if s.now ≤ y.2 then y.2 - s.now else 0) := by simp [Timers.next, hl]
        rw [hn] at e
        simp only [Option.getD_some] at e
        show d ≤ x.2 ∨ d ≤ s.now
        split at e <;> omega
      case command h hq => intro d e; rw [h] at e; cases e
      all_goals intro d e; cases e

/-- From `n` on only timers wake the reactor, and no commands are sent. -/
structure Quiet (f : Nat → State) (n : Nat) : Prop where
  sockets : ∀ m, n ≤ m → ∀ d, (f m).stage = .waiting d → (f (m + 1)).stage = .waiting d ∨ ∃ l, (f (m + 1)).stage = .expired l
  sent : ∀ m, n ≤ m → (f m).sent = (f n).sent

theorem step_calls {s s' : State} (h : Step s s') : s.calls <+: s'.calls := by
  cases h with
  | clock t _ e => subst e; exact List.prefix_refl _
  | caller h => cases h <;> exact List.prefix_refl _
  | reactor h =>
    cases h
    case timers => dsimp only; split <;> simp
    all_goals simp

theorem now_le {s s' : State} (h : Step s s') : s.now ≤ s'.now := by
  cases h with
  | clock t h e => subst e; exact h
  | caller h => cases h <;> exact Nat.le_refl _
  | reactor h => cases h <;> exact Nat.le_refl _

/-- A timer stays until its time has come and the service is told. -/
theorem timer_stays {f : Nat → State} (hr : Run f) {n : Nat} {x : Unit × Nat} (hx : x ∈ (f n).timers.timeouts) {m : Nat} (hm : n ≤ m) :
    x ∈ (f m).timers.timeouts ∨ ∃ extra l, (f m).calls = (f n).calls ++ extra ∧ Call.timer l ∈ extra ∧ x.2 ≤ l := by
  have grow : ∀ m, n ≤ m → (f n).calls <+: (f m).calls := by
    intro m hm
    induction m, hm using Nat.le_induction with
    | base => exact List.prefix_refl _
    | succ k _ ih => exact ih.trans (step_calls (hr.step k))
  induction m, hm using Nat.le_induction with
  | base => exact .inl hx
  | succ k hk ih =>
    rcases ih with ih | ⟨extra, l, e, hl, hle⟩
    · have hs := reach_sorted (hr.reach k)
      obtain ⟨ex, hex⟩ := grow k hk
      cases hr.step k with
      | clock t _ e => rw [e]; exact .inl ih
      | caller h =>
        generalize f (k + 1) = s' at h
        cases h <;> exact .inl ih
      | reactor h =>
        generalize f (k + 1) = s' at h
        cases h
        case timers now hst =>
          by_cases hlt : now < x.2
          · exact .inl (((wake_facts hs now).2.1 x).2 ⟨ih, hlt⟩)
          · have hn : (((f k).timers.wake now).1 ≠ []) := fun e => hlt ((wake_facts hs now).2.2.1 e x ih)
            refine .inr ⟨ex ++ [.timer now], now, ?_, by simp, by omega⟩
            simp only [if_neg hn]
            rw [← hex, List.append_assoc]
        case process now sort asks hso hst => exact .inl ((sorted_registers hso now asks _ hs).2.1 x ih)
        all_goals exact .inl ih
    · obtain ⟨ex, hex⟩ := step_calls (hr.step k)
      exact .inr ⟨extra ++ ex, l, by rw [← hex, e, List.append_assoc], List.mem_append_left _ hl, hle⟩

/-- How far the reactor is from looking at a timer for time `t`; `left` is the number of commands in the channel. -/
def Stage.rankTimer (t left : Nat) : Stage → Nat × Nat
  | .events _ l => (7, left + 5 * l.length)
  | .check _ l => (7, left + 5 * l.length + 4)
  | .reset _ l => (7, left + 5 * l.length + 3)
  | .drain _ l => (7, left + 5 * l.length + 2)
  | .process _ => (6, 0)
  | .top => (5, 0)
  | .waiting _ => (4, 0)
  | .expired l => if t ≤ l then (1, 0) else (7, 0)
  | .ended _ => (0, 0)

/-- The time of the timer has come. -/
structure Ripe (x : Unit × Nat) (s : State) : Prop where
  reach : Reach s
  mem : x ∈ s.timers.timeouts
  le : x.2 ≤ s.now
  running : ∀ ok, s.stage ≠ .ended ok

theorem ripe_fires {f : Nat → State} (hr : Run f) (hf : Fair f) {n : Nat} (hq : Quiet f n) {x : Unit × Nat} (h : Ripe x (f n)) :
    ∃ m, n ≤ m ∧ (x ∉ (f m).timers.timeouts ∨ ∃ ok, (f m).stage = .ended ok) := by
  refine leads_to hf hr.step (Ripe x) (fun s => x ∉ s.timers.timeouts ∨ ∃ ok, s.stage = .ended ok)
    (fun s => s.stage.rankTimer x.2 s.queue.length) n ?_ ?_ ?_ ?_ ?_ n (Nat.le_refl _) h
  · intro i hi hp hs
    have hso := reach_sorted hp.reach
    have hre := hr.reach (i + 1)
    have hqs := hq.sockets i hi
    obtain ⟨h1, h2, h3, h4⟩ := hp
    generalize f (i + 1) = s' at hs hre hqs
    cases hs with
    | wait h => exact .inr ⟨⟨hre, h2, h3, by simp⟩, by simp only [h, Stage.rankTimer]; exact .left _ _ (by decide)⟩
    | ready l h hl hw => rcases hqs _ h with e | ⟨_, e⟩ <;> cases e
    | timeout h hfl hd =>
      exact .inr ⟨⟨hre, h2, h3, by simp⟩, by simp only [h, Stage.rankTimer, if_pos h3]; exact .left _ _ (by decide)⟩
    | socket h => exact .inr ⟨⟨hre, h2, h3, by simp⟩, by simp only [h, Stage.rankTimer]; exact .right _ (by simp)⟩
    | fail _ => exact .inl (.inr ⟨_, rfl⟩)
    | waker h => exact .inr ⟨⟨hre, h2, h3, by simp⟩, by simp only [h, Stage.rankTimer]; exact .right _ (by simp; omega)⟩
    | shutdown h _ => exact .inl (.inr ⟨_, rfl⟩)
    | goOn h _ => exact .inr ⟨⟨hre, h2, h3, by simp⟩, by simp only [h, Stage.rankTimer]; exact .right _ (by simp)⟩
    | reset h => exact .inr ⟨⟨hre, h2, h3, by simp⟩, by simp only [h, Stage.rankTimer]; exact .right _ (by simp)⟩
    | command h hq' => exact .inr ⟨⟨hre, h2, h3, by simp [h]⟩, by simp only [h, hq', Stage.rankTimer]; exact .right _ (by simp)⟩
    | drained h hq' => exact .inr ⟨⟨hre, h2, h3, by simp⟩, by simp only [h, hq', Stage.rankTimer]; exact .right _ (by simp)⟩
    | done h => exact .inr ⟨⟨hre, h2, h3, by simp⟩, by simp only [h, Stage.rankTimer]; exact .left _ _ (by decide)⟩
    | @timers now h =>
      by_cases hle : x.2 ≤ now
      · exact .inl (.inl (fun hm => by have := (((wake_facts hso now).2.1 x).1 hm).2; omega))
      · exact .inr ⟨⟨hre, ((wake_facts hso now).2.1 x).2 ⟨h2, by omega⟩, h3, by simp⟩,
          by simp only [h, Stage.rankTimer, if_neg hle]; exact .left _ _ (by decide)⟩
    | @process now sort asks hsd h =>
      exact .inr ⟨⟨hre, (sorted_registers hsd now asks _ hso).2.1 x h2, h3, by simp⟩, by simp only [h, Stage.rankTimer]; exact .left _ _ (by decide)⟩
  · intro i hi hp h
    have e1 := hq.sent i hi
    have e2 := hq.sent (i + 1) (by omega)
    have hre := hr.reach (i + 1)
    generalize f (i + 1) = s' at h e2 hre
    cases h with
    | send t c _ _ =>
      exfalso
      have := congrArg List.length (e2.trans e1.symm)
      simp at this
    | stop t _ _ h => exact ⟨⟨hre, hp.mem, hp.le, hp.running⟩, rfl⟩
    | wake t _ => exact ⟨⟨hre, hp.mem, hp.le, hp.running⟩, rfl⟩
  · intro i t _ hp e
    have hre := hr.reach (i + 1)
    have hle : (f i).now ≤ (f (i + 1)).now := now_le (hr.step i)
    exact ⟨⟨hre, by rw [e]; exact hp.mem, Nat.le_trans hp.le hle, by rw [e]; exact hp.running⟩, by rw [e]⟩
  · intro i hp hb
    obtain ⟨⟨d, hd, hlt⟩, _⟩ := hb
    have h1 := hp.le
    rcases sleeps hp.reach d hd x hp.mem with h | h <;> omega
  · intro i ok hp; exact hp.running ok

theorem register_none (sort : List (Unit × Nat) → List (Unit × Nat)) (now : Nat) (m : Timers Unit) : register sort now m [] = m := rfl

/-- Without timers and requests nothing wakes the service. -/
theorem idle_timers {f : Nat → State} (hr : Run f) {n : Nat} (ht : (f n).timers.timeouts = [])
    (ha : ∀ m, n ≤ m → ∀ t, Call.asked t ∉ (f m).calls.drop (f n).calls.length) :
    ∀ m, n ≤ m → (f m).timers.timeouts = [] ∧ ∀ l, Call.timer l ∈ (f m).calls → Call.timer l ∈ (f n).calls := by
  have grow : ∀ m, n ≤ m → (f n).calls <+: (f m).calls := by
    intro m hm
    induction m, hm using Nat.le_induction with
    | base => exact List.prefix_refl _
    | succ k _ ih => exact ih.trans (step_calls (hr.step k))
  intro m hm
  induction m, hm using Nat.le_induction with
  | base => exact ⟨ht, fun _ h => h⟩
  | succ k hk ih =>
    obtain ⟨ih1, ih2⟩ := ih
    have hso := reach_sorted (hr.reach k)
    have hno := ha (k + 1) (by omega)
    obtain ⟨ex, hex⟩ := grow k hk
    cases hr.step k with
    | clock t _ e => rw [e]; exact ⟨ih1, ih2⟩
    | caller h =>
      generalize f (k + 1) = s' at h
      cases h <;> exact ⟨ih1, ih2⟩
    | reactor h =>
      generalize f (k + 1) = s' at h hno
      cases h
      case timers now hst =>
        obtain ⟨_, h2, h3⟩ := wake_facts hso now
        have he : ((f k).timers.wake now).1 = [] := h3.2 (by rw [ih1]; simp)
        refine ⟨?_, by simpa only [if_pos he] using ih2⟩
        rw [List.eq_nil_iff_forall_not_mem]
        intro x hx
        have := ((h2 x).1 hx).1
        rw [ih1] at this; cases this
      case process now sort asks hso hst =>
        cases asks with
        | nil => exact ⟨ih1, by simpa using ih2⟩
        | cons a asks =>
          refine absurd ?_ (hno (now + a))
          simp [← hex, List.append_assoc]
      case socket hst => exact ⟨ih1, by simpa using ih2⟩
      case command hst _ => exact ⟨ih1, by simpa using ih2⟩
      all_goals exact ⟨ih1, ih2⟩

/-! ## A request that is dropped -/

namespace Early

/-- The clock, where the reactor is, the timers and the history; no calls on handles. -/
def st (now : Nat) (stage : Stage) (timers : List (Unit × Nat)) (calls : List Call) : State :=
  ⟨now, [], false, false, fun _ => .idle, stage, ⟨timers, 1000⟩, [], calls⟩

/-- The first request, then both, then the wake-up. -/
def calls1 : List Call := [.asked 30000]
def calls2 : List Call := [.asked 30000, .other 0]
def calls3 : List Call := [.asked 30000, .other 0, .asked 30500]
def calls4 : List Call := [.asked 30000, .other 0, .asked 30500, .timer 30000]

/-- The requests at 0 s and 0.1 s, and the only wake-up. -/
def run : Nat → State
  | 0 => st 0 (.process 0) [] []
  | 1 => st 0 .top [((), 30000)] calls1
  | 2 => st 0 (.waiting 30000) [((), 30000)] calls1
  | 3 => st 100 (.waiting 30000) [((), 30000)] calls1
  | 4 => st 100 (.events 100 [.other 0]) [((), 30000)] calls1
  | 5 => st 100 (.events 100 []) [((), 30000)] calls2
  | 6 => st 100 (.process 100) [((), 30000)] calls2
  | 7 => st 100 .top [((), 30000)] calls3
  | 8 => st 100 (.waiting 30000) [((), 30000)] calls3
  | 9 => st 30000 (.waiting 30000) [((), 30000)] calls3
  | 10 => st 30000 (.expired 30000) [((), 30000)] calls3
  | 11 => st 30000 (.process 30000) [] calls4
  | 12 => st 30000 .top [] calls4
  | _ + 13 => st 30000 (.waiting 3630000) [] calls4

theorem reg1 : register Race.sort 0 ⟨[], 1000⟩ [30000] = ⟨[((), 30000)], 1000⟩ := by decide +kernel

theorem reg2 : register Race.sort 100 ⟨[((), 30000)], 1000⟩ [30400] = ⟨[((), 30000)], 1000⟩ := by decide +kernel

theorem woken : (⟨[((), 30000)], 1000⟩ : Timers Unit).wake 30000 = ([()], ⟨[], 1000⟩) := by decide +kernel

theorem next1 : (⟨[((), 30000)], 1000⟩ : Timers Unit).next 0 = some 30000 := by decide +kernel

theorem next2 : (⟨[((), 30000)], 1000⟩ : Timers Unit).next 100 = some 29900 := by decide +kernel

theorem steps : ∀ n, Step (run n) (run (n + 1))
  | 0 => by
    have := ReactorStep.process (s := run 0) (sort := Race.sort) [30000] Race.sort_ok rfl
    simp only [run, st, reg1] at this
    exact .reactor this
  | 1 => by
    have := ReactorStep.wait (s := run 1) rfl
    simp only [run, st, next1] at this
    exact .reactor this
  | 2 => .clock 100 (by simp [run, st]) rfl
  | 3 => .reactor (.ready [.other 0] rfl (by simp) (by simp [run, st]))
  | 4 => .reactor (.socket rfl)
  | 5 => .reactor (.done rfl)
  | 6 => by
    have := ReactorStep.process (s := run 6) (sort := Race.sort) [30400] Race.sort_ok rfl
    simp only [run, st, reg2] at this
    exact .reactor this
  | 7 => by
    have := ReactorStep.wait (s := run 7) rfl
    simp only [run, st, next2] at this
    exact .reactor this
  | 8 => .clock 30000 (by simp [run, st]) rfl
  | 9 => .reactor (.timeout rfl rfl (by simp [run, st]))
  | 10 => by
    have := ReactorStep.timers (s := run 10) rfl
    simp only [run, st, woken] at this
    exact .reactor this
  | 11 => .reactor (.process (sort := Race.sort) [] Race.sort_ok rfl)
  | 12 => .reactor (.wait rfl)
  | _ + 13 => .clock 30000 (Nat.le_refl _) rfl

theorem calls (n : Nat) : (run n).calls <+: calls4 := by
  match n with
  | 0 => exact ⟨_, rfl⟩
  | 1 | 2 | 3 | 4 => exact ⟨[.other 0, .asked 30500, .timer 30000], rfl⟩
  | 5 | 6 => exact ⟨[.asked 30500, .timer 30000], rfl⟩
  | 7 | 8 | 9 | 10 => exact ⟨[.timer 30000], rfl⟩
  | 11 | 12 => exact ⟨[], rfl⟩
  | _ + 13 => exact ⟨[], rfl⟩

theorem witness : ∃ f n, Run f ∧ Call.asked 30500 ∈ (f n).calls ∧ (f n).timers.timeouts = [] ∧
    (∀ l, Call.timer l ∈ (f n).calls → l = 30000) ∧ Fair f ∧ (∀ m t, Call.asked t ∈ (f m).calls → t = 30000 ∨ t = 30500) ∧
    ∀ m l, Call.timer l ∈ (f m).calls → l < 30500 := by
  have ht : ∀ m l, Call.timer l ∈ (run m).calls → l = 30000 := by
    intro m l h
    have := (calls m).subset h
    simpa [calls4] using this
  refine ⟨run, 13, ⟨⟨0, rfl⟩, steps⟩, by simp [run, st, calls4], rfl, ht 13, ?_, ?_, fun m l h => by rw [ht m l h]; decide⟩
  · intro n
    exact ⟨n + 13, by omega, .inr (.inl ⟨⟨3630000, rfl, by simp [run, st]⟩, rfl⟩)⟩
  · intro m t h
    have := (calls m).subset h
    simpa [calls4] using this

end Early

/-! ## A timer that is never looked at -/

namespace Busy
open Early (st)

/-- One round of the loop: round `k` begins at `k` seconds. -/
def round (k : Nat) : Nat → State
  | 0 => st (1000 * k) .top [((), 1000)] (.asked 1000 :: List.replicate k (.other 0))
  | 1 => st (1000 * k) (.waiting (1000 * k + (if 1000 * k ≤ 1000 then 1000 - 1000 * k else 0))) [((), 1000)] (.asked 1000 :: List.replicate k (.other 0))
  | 2 => st (1000 * k) (.events (1000 * k) [.other 0]) [((), 1000)] (.asked 1000 :: List.replicate k (.other 0))
  | 3 => st (1000 * k) (.events (1000 * k) []) [((), 1000)] (.asked 1000 :: List.replicate (k + 1) (.other 0))
  | 4 => st (1000 * k) (.process (1000 * k)) [((), 1000)] (.asked 1000 :: List.replicate (k + 1) (.other 0))
  | _ => st (1000 * k) .top [((), 1000)] (.asked 1000 :: List.replicate (k + 1) (.other 0))

/-- The start, then the rounds. -/
def run : Nat → State
  | 0 => State.start 0
  | n + 1 => round (n / 6) (n % 6)

theorem more (k : Nat) : (Call.asked 1000 :: List.replicate k (Call.other 0)) ++ [.other 0] = .asked 1000 :: List.replicate (k + 1) (.other 0) := by
  rw [List.replicate_succ']; rfl

theorem steps : ∀ n, Step (run n) (run (n + 1))
  | 0 => .reactor (.process (sort := Race.sort) [1000] Race.sort_ok rfl)
  | n + 1 => by
    show Step (round (n / 6) (n % 6)) (round ((n + 1) / 6) ((n + 1) % 6))
    obtain ⟨k, r, hr, rfl⟩ : ∃ k r, r < 6 ∧ n = 6 * k + r := ⟨n / 6, n % 6, Nat.mod_lt _ (by decide), by omega⟩
    rw [show (6 * k + r) / 6 = k by omega, show (6 * k + r) % 6 = r by omega]
    match r, hr with
    | 0, _ =>
      rw [show (6 * k + 0 + 1) / 6 = k by omega, show (6 * k + 0 + 1) % 6 = 1 by omega]
      exact .reactor (.wait rfl)
    | 1, _ =>
      rw [show (6 * k + 1 + 1) / 6 = k by omega, show (6 * k + 1 + 1) % 6 = 2 by omega]
      exact .reactor (.ready [.other 0] rfl (by simp) (by simp [round, st]))
    | 2, _ =>
      rw [show (6 * k + 2 + 1) / 6 = k by omega, show (6 * k + 2 + 1) % 6 = 3 by omega]
      have := ReactorStep.socket (s := round k 2) rfl
      simp only [round, st] at this ⊢
      rw [more] at this
      exact .reactor this
    | 3, _ =>
      rw [show (6 * k + 3 + 1) / 6 = k by omega, show (6 * k + 3 + 1) % 6 = 4 by omega]
      exact .reactor (.done rfl)
    | 4, _ =>
      rw [show (6 * k + 4 + 1) / 6 = k by omega, show (6 * k + 4 + 1) % 6 = 5 by omega]
      have := ReactorStep.process (s := round k 4) (sort := Race.sort) [] Race.sort_ok rfl
      simp only [round, st, List.map_nil, List.append_nil, register_none] at this ⊢
      exact .reactor this
    | 5, _ =>
      rw [show (6 * k + 5 + 1) / 6 = k + 1 by omega, show (6 * k + 5 + 1) % 6 = 0 by omega]
      exact .clock (1000 * (k + 1)) (by simp [round, st]; omega) rfl

theorem at_round (k r : Nat) (h : r < 6) : run (6 * k + r + 1) = round k r := by
  show round ((6 * k + r) / 6) ((6 * k + r) % 6) = round k r
  rw [show (6 * k + r) / 6 = k by omega, show (6 * k + r) % 6 = r by omega]

theorem witness : ∃ f, Run f ∧ Fair f ∧ (∀ t, ∃ m, t ≤ (f m).now) ∧ (∃ n, Call.asked 1000 ∈ (f n).calls) ∧
    (∀ n, ∃ d m, n ≤ m ∧ (f m).stage = .waiting d) ∧ ∀ n l, Call.timer l ∉ (f n).calls := by
  refine ⟨run, ⟨⟨0, rfl⟩, steps⟩, ?_, ?_, ⟨1, by simp [run, round, st]⟩, ?_, ?_⟩
  · intro n
    refine ⟨6 * n + 0 + 1, by omega, .inl ?_⟩
    rw [at_round n 0 (by decide), at_round n 1 (by decide)]
    exact .wait rfl
  · intro t
    refine ⟨6 * t + 0 + 1, ?_⟩
    rw [at_round t 0 (by decide)]
    simp only [round, st]; omega
  · intro n
    refine ⟨1000 * n + (if 1000 * n ≤ 1000 then 1000 - 1000 * n else 0), 6 * n + 1 + 1, by omega, ?_⟩
    rw [at_round n 1 (by decide)]
    rfl
  · intro n l
    match n with
    | 0 => simp [run, State.start]
    | n + 1 =>
      show Call.timer l ∉ (round (n / 6) (n % 6)).calls
      unfold round
      split <;> simp [st, List.mem_replicate]

end Busy

end Verif.Loop
