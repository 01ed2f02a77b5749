import Mathlib.Tactic.Tauto
import Verif.Sim.Model

/-!
# Lemmas about the simulator
-/

set_option autoImplicit false

namespace Verif.Sim

/-! ## The inbox -/

/-- The entries are in the order of their times, one for each. -/
def Sorted (l : Inbox) : Prop := l.Pairwise (fun x y => x.1 < y.1)

theorem le_free : ∀ (l : Inbox) (t : Nat), t ≤ free l t
  | [], _ => Nat.le_refl _
  | (k, _) :: l, t => by
    unfold free
    split
    · exact le_free l t
    · split
      · exact Nat.le_trans (Nat.le_succ t) (le_free l (t + minLatency))
      · exact Nat.le_refl _

theorem free_not_mem : ∀ {l : Inbox}, Sorted l → ∀ t, ∀ x ∈ l, x.1 ≠ free l t
  | (k, y) :: l, h, t, x, hx => by
    have hs := List.pairwise_cons.1 h
    unfold free
    split
    · rename_i hk
      rcases List.mem_cons.1 hx with rfl | hx
      · have := le_free l t; simp only at *; omega
      · exact free_not_mem hs.2 t x hx
    · split
      · rename_i hk
        rcases List.mem_cons.1 hx with rfl | hx
        · have := le_free l (t + minLatency); simp only [minLatency] at *; omega
        · exact free_not_mem hs.2 _ x hx
      · rcases List.mem_cons.1 hx with rfl | hx
        · simp only; omega
        · have := hs.1 x hx; simp only at this; omega

/-- The time found is the first one without an entry. -/
theorem free_least : ∀ {l : Inbox}, Sorted l → ∀ t u, t ≤ u → u < free l t → ∃ x ∈ l, x.1 = u
  | [], _, t, u, h1, h2 => by simp only [free] at h2; omega
  | (k, y) :: l, h, t, u, h1, h2 => by
    have hs := List.pairwise_cons.1 h
    unfold free at h2
    split at h2
    · obtain ⟨x, hx, e⟩ := free_least hs.2 t u h1 h2
      exact ⟨x, List.mem_cons_of_mem _ hx, e⟩
    · split at h2
      · by_cases hu : u = k
        · exact ⟨_, List.mem_cons_self .., hu.symm⟩
        · obtain ⟨x, hx, e⟩ := free_least hs.2 (t + minLatency) u (by simp only [minLatency]; omega) h2
          exact ⟨x, List.mem_cons_of_mem _ hx, e⟩
      · omega

theorem mem_put {t : Nat} {m : Sched} {x : Nat × Sched} : ∀ {l : Inbox}, x ∈ put t m l ↔ x = (t, m) ∨ x ∈ l
  | [] => by simp [put]
  | (k, y) :: l => by
    unfold put
    split
    · simp
    · rw [List.mem_cons, mem_put, List.mem_cons]; tauto

theorem put_sorted {t : Nat} {m : Sched} : ∀ {l : Inbox}, Sorted l → (∀ x ∈ l, x.1 ≠ t) → Sorted (put t m l)
  | [], _, _ => by simp [put, Sorted]
  | (k, y) :: l, h, hn => by
    have hs := List.pairwise_cons.1 h
    have hk := hn _ (List.mem_cons_self ..)
    unfold put
    split
    · rename_i hlt
      refine List.pairwise_cons.2 ⟨?_, h⟩
      intro x hx
      rcases List.mem_cons.1 hx with rfl | hx
      · exact hlt
      · exact Nat.lt_trans hlt (hs.1 x hx)
    · refine List.pairwise_cons.2 ⟨?_, put_sorted hs.2 fun x hx => hn x (List.mem_cons_of_mem _ hx)⟩
      intro x hx
      rcases mem_put.1 hx with rfl | hx
      · simp only at *; omega
      · exact hs.1 x hx

theorem insert_sorted {l : Inbox} (h : Sorted l) (t : Nat) (m : Sched) : Sorted (insert l t m) := put_sorted h (free_not_mem h t)

theorem mem_insert {l : Inbox} {t : Nat} {m : Sched} {x : Nat × Sched} : x ∈ insert l t m ↔ x = (free l t, m) ∨ x ∈ l := mem_put

theorem remove_sorted {l : Inbox} (h : Sorted l) (t : Nat) : Sorted (remove l t) := List.Pairwise.filter _ h

theorem put_filterMap_none {α : Type} {g : Nat × Sched → Option α} {t : Nat} {m : Sched} (hg : g (t, m) = none) :
    ∀ l : Inbox, (put t m l).filterMap g = l.filterMap g
  | [] => by simp [put, hg]
  | (k, y) :: l => by
    unfold put
    split
    · rw [List.filterMap_cons, hg]
    · rw [List.filterMap_cons, List.filterMap_cons, put_filterMap_none hg l]

theorem put_filterMap_last {α : Type} {g : Nat × Sched → Option α} {t : Nat} {m : Sched} {v : α} (hg : g (t, m) = some v) :
    ∀ l : Inbox, Sorted l → (∀ x ∈ l, g x ≠ none → x.1 < t) → (put t m l).filterMap g = l.filterMap g ++ [v]
  | [], _, _ => by simp [put, hg]
  | (k, y) :: l, h, hl => by
    have hs := List.pairwise_cons.1 h
    unfold put
    split
    · rename_i hlt
      have hn : ((k, y) :: l).filterMap g = [] := by
        rw [List.filterMap_eq_nil_iff]
        intro x hx
        by_contra hne
        have h1 := hl x hx hne
        rcases List.mem_cons.1 hx with rfl | hx
        · simp only at h1; omega
        · have := hs.1 x hx; simp only at this; omega
      rw [List.filterMap_cons, hg, hn]
      rfl
    · rw [List.filterMap_cons, List.filterMap_cons, put_filterMap_last hg l hs.2 fun x hx => hl x (List.mem_cons_of_mem _ hx)]
      split <;> rfl

theorem le_last {l : Inbox} (h : Sorted l) {n : Nat} {a : Addr} {x : Nat × Sched} (hx : x ∈ l) (hn : x.2.node = n) (ha : x.2.remote = a) :
    ∃ k, last l n a = some k ∧ x.1 ≤ k := by
  unfold last
  have hrev : l.reverse.Pairwise (fun x y => y.1 < x.1) := List.pairwise_reverse.2 h
  have hx' : x ∈ l.reverse := List.mem_reverse.2 hx
  generalize l.reverse = r at hrev hx'
  induction r with
  | nil => cases hx'
  | cons y r ih =>
    have hs := List.pairwise_cons.1 hrev
    by_cases hy : y.2.node = n ∧ y.2.remote = a
    · refine ⟨y.1, by rw [List.find?_cons_of_pos (by simpa using hy)]; rfl, ?_⟩
      rcases List.mem_cons.1 hx' with rfl | hx'
      · exact Nat.le_refl _
      · exact Nat.le_of_lt (hs.1 x hx')
    · rcases List.mem_cons.1 hx' with rfl | hx'
      · exact absurd ⟨hn, ha⟩ hy
      · rw [List.find?_cons_of_neg (by simpa using hy)]
        exact ih hs.2 hx'

theorem remove_head {x : Nat × Sched} {l : Inbox} (h : Sorted (x :: l)) : remove (x :: l) x.1 = l := by
  have hs := List.pairwise_cons.1 h
  unfold remove
  rw [List.filter_cons_of_neg (by simp), List.filter_eq_self]
  intro y hy
  have := hs.1 y hy
  simp; omega

/-! ## Induction -/

/-- What holds at the start and is kept by the parts of a step holds in all states. -/
theorem reach_inv {P : Out → Prop} {I : State → Prop} (hnew : ∀ t o, I (State.new t o)) (hconf : ∀ s nodes c, I s → I (s.configure nodes c))
    (hpart : ∀ s nodes c, I s → I (s.partition nodes c)) (hsched : ∀ s s' node o r, P o → I s → s.schedule node o r = .ok s' → I s')
    (hnext : ∀ s s' t x l, I s → s.due = some (t, x, l) → s.time ≤ t → (s.pop t l).give x.node x.input = .ok s' → I s')
    {s : State} (h : Reach P s) : I s ∧ ∀ nodes c s', (∀ n, ∀ x ∈ c.before n, P x.1) → ((s.configure nodes c).partition nodes c).pipes c.before nodes = .ok s' → I s' := by
  have hss : ∀ (l : List (Out × Rand)) (s s' : State) (node : Nat), (∀ x ∈ l, P x.1) → I s → s.schedules node l = .ok s' → I s' := by
    intro l
    induction l with
    | nil => intro s s' node _ hI e; injection e with e; subst e; exact hI
    | cons x l ih =>
      intro s s' node hP hI e
      obtain ⟨o, r⟩ := x
      unfold State.schedules at e
      split at e
      · rename_i t ht
        exact ih t s' node (fun x hx => hP x (List.mem_cons_of_mem _ hx)) (hsched s t node o r (hP _ (List.mem_cons_self ..)) hI ht) e
      · cases e
  have hpipes : ∀ (l : List Nat) (s s' : State) (outs : Nat → List (Out × Rand)), (∀ n, ∀ x ∈ outs n, P x.1) → I s → s.pipes outs l = .ok s' → I s' := by
    intro l
    induction l with
    | nil => intro s s' outs _ hI e; injection e with e; subst e; exact hI
    | cons n l ih =>
      intro s s' outs hP hI e
      unfold State.pipes at e
      split at e
      · rename_i t ht
        exact ih t s' outs hP (hss _ s t n (hP n) hI ht) e
      · cases e
  have hmid : ∀ s, I s → ∀ nodes c s', (∀ n, ∀ x ∈ c.before n, P x.1) → ((s.configure nodes c).partition nodes c).pipes c.before nodes = .ok s' → I s' :=
    fun s hI nodes c s' hP e => hpipes _ _ _ _ hP (hpart _ _ _ (hconf _ _ _ hI)) e
  suffices hI : I s from ⟨hI, hmid s hI⟩
  induction h with
  | new t o => exact hnew t o
  | schedule node o r _ ho hs ih => exact hsched _ _ node o r ho ih hs
  | @step s s' nodes c _ hb ha hs ih =>
    unfold State.step at hs
    split at hs
    · rename_i t ht
      have hI := hmid s ih nodes c t hb ht
      unfold State.next at hs
      split at hs
      · injection hs with hs; subst hs; exact hI
      · rename_i k x l hd
        split at hs
        · cases hs
        · rename_i hk
          split at hs
          · split at hs
            · rename_i u hu
              exact hss _ u s' _ ha (hnext t u k x l hI hd (Nat.le_of_not_lt hk) hu) hs
            · cases hs
          · cases hs
    · cases hs

/-- What is due is at the front of the inbox, or has priority. -/
theorem due_cases {s : State} {t : Nat} {x : Sched} {l : List Sched} (h : s.due = some (t, x, l)) :
    (s.priority = x :: l ∧ t = s.time) ∨ (s.priority = [] ∧ l = [] ∧ ∃ rest, s.inbox = (t, x) :: rest) := by
  unfold State.due at h
  split at h
  · injection h with h; injection h with h1 h; injection h with h2 h3
    subst h1 h2 h3
    exact .inl ⟨by assumption, rfl⟩
  · split at h
    · rename_i k y rest e
      injection h with h; injection h with h1 h; injection h with h2 h3
      subst h1 h2 h3
      exact .inr ⟨by assumption, rfl, rest, e⟩
    · cases h

/-- The parts of the state that giving an input does not touch. -/
theorem give_same {s s' : State} {n : Nat} {i : Input} (h : s.give n i = .ok s') :
    s'.inbox = s.inbox ∧ s'.priority = s.priority ∧ s'.time = s.time ∧ s'.sent = s.sent ∧ s'.asked = s.asked ∧ s'.latencies = s.latencies ∧ s'.opts = s.opts ∧
    (s'.told = s.told ∨ s'.told = s.told ++ [(s.time, n, i)]) := by
  unfold State.give at h
  split at h
  · split at h <;> (injection h with h; subst h; simp [State.tell])
  · split at h
    · injection h with h; subst h; unfold State.link; split <;> simp [State.tell]
    · split at h
      · injection h with h; subst h; unfold State.link; split <;> simp [State.tell]
      · injection h with h; subst h; simp
  · simp only at h
    split at h
    · cases h
    · injection h with h; subst h; split <;> simp [State.tell]
  · injection h with h; subst h; simp [State.tell]
  · injection h with h; subst h; simp [State.tell]

end Verif.Sim
