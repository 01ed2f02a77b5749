import Verif.Sim.Inv

/-!
# Simulations: messages (C144), wake-ups (C145), assertions (C146), connections (C147), latencies (C148)

What the words mean.  `told` is what state machines were told, oldest first.  `sent` are the messages that state machines sent to nodes they were connected to and not
partitioned from; `asked` the wake-ups they asked for.
-/

set_option autoImplicit false

namespace Verif.Sim

/-- The messages from `a` that node `n` was given, oldest first. -/
def State.got (s : State) (n : Nat) (a : Addr) : List Nat :=
  s.told.filterMap fun x => match x.2.2 with | .received b m => if x.2.1 = n ∧ b = a then some m else none | _ => none

/-- The messages that were sent from `a` to node `n`, oldest first. -/
def State.sentTo (s : State) (n : Nat) (a : Addr) : List Nat :=
  s.sent.filterMap fun x => if x.1 = n ∧ x.2.1 = a then some x.2.2 else none

/-- The message from `a` to `n` in an entry of the inbox. -/
def flight (n : Nat) (a : Addr) (x : Nat × Sched) : Option Nat :=
  match x.2.input with | .received b m => if x.2.node = n ∧ b = a then some m else none | _ => none

/-- The messages from `a` to `n` that are under way, in the order of their times. -/
def State.under (s : State) (n : Nat) (a : Addr) : List Nat := s.inbox.filterMap (flight n a)

theorem flight_none {n : Nat} {a : Addr} {x : Nat × Sched} (h : ∀ b m, x.2.input ≠ .received b m) : flight n a x = none := by
  unfold flight
  split
  · rename_i b m e; exact absurd e (h b m)
  · rfl

theorem flight_some {n : Nat} {a : Addr} {x : Nat × Sched} (h : flight n a x ≠ none) : x.2.node = n ∧ ∃ m, x.2.input = .received a m := by
  unfold flight at h
  split at h
  · rename_i b m e
    split at h
    · rename_i hc; exact ⟨hc.1, m, by rw [e, hc.2]⟩
    · exact absurd rfl h
  · exact absurd rfl h

theorem inserts_under {n : Nat} {a : Addr} : ∀ (xs : List (Nat × Sched)) (l : Inbox), (∀ x ∈ xs, ∀ b m, x.2.input ≠ .received b m) →
    (inserts l xs).filterMap (flight n a) = l.filterMap (flight n a)
  | [], _, _ => rfl
  | x :: xs, l, h => by
    rw [show inserts l (x :: xs) = inserts (insert l x.1 x.2) xs from rfl, inserts_under xs _ fun y hy => h y (List.mem_cons_of_mem _ hy)]
    exact put_filterMap_none (t := free l x.1) (flight_none (x := (free l x.1, x.2)) fun b m => h x (List.mem_cons_self ..) b m) l

theorem schedule_under {s s' : State} {node : Nat} {o : Out} {r : Rand} (h : Inv s) (e : s.schedule node o r = .ok s') (n : Nat) (a : Addr) :
    (s'.under n a = s.under n a ∧ s'.sentTo n a = s.sentTo n a) ∨ ∃ m, s'.under n a = s.under n a ++ [m] ∧ s'.sentTo n a = s.sentTo n a ++ [m] := by
  cases schedule_cases e with
  | none _ hi hs => exact .inl ⟨by unfold State.under; rw [hi], by unfold State.sentTo; rw [hs]⟩
  | clash d x _ _ _ _ hi hs => exact .inl ⟨by unfold State.under; rw [hi], by unfold State.sentTo; rw [hs]⟩
  | timer d _ hi hs =>
    refine .inl ⟨?_, by unfold State.sentTo; rw [hs]⟩
    unfold State.under; rw [hi]
    exact put_filterMap_none (flight_none (by simp)) _
  | other xs _ hx hi hs =>
    refine .inl ⟨?_, by unfold State.sentTo; rw [hs]⟩
    unfold State.under; rw [hi]
    exact inserts_under xs _ fun x hm => (hx x hm).2.2
  | message to m port _ _ hi hs =>
    by_cases hc : to.1 = n ∧ (node, port) = a
    · refine .inr ⟨m, ?_, ?_⟩
      · unfold State.under; rw [hi]
        refine put_filterMap_last (by simp [flight, hc]) _ h.sorted ?_
        intro x hx hne
        obtain ⟨h1, m', h2⟩ := flight_some hne
        obtain ⟨k, hk, hle⟩ := le_last h.sorted hx (h1.trans hc.1.symm) ((h.remote x hx _ _ h2).trans hc.2.symm)
        have h3 := le_free s.inbox ((last s.inbox to.1 (node, port)).getD s.time + s.latency node to.1 r)
        have h4 := free_not_mem h.sorted ((last s.inbox to.1 (node, port)).getD s.time + s.latency node to.1 r) x hx
        rw [hk] at h3 h4 ⊢
        simp only [Option.getD_some] at h3 h4 ⊢
        omega
      · unfold State.sentTo; rw [hs]; simp [hc]
    · refine .inl ⟨?_, ?_⟩
      · unfold State.under; rw [hi]
        refine put_filterMap_none ?_ _
        simp only [flight]; exact if_neg hc
      · unfold State.sentTo; rw [hs, List.filterMap_append]
        simp [hc]

theorem give_got {s s' : State} {k : Nat} {i : Input} (e : s.give k i = .ok s') (n : Nat) (a : Addr) :
    (∀ m, i = .received a m → k = n → s'.got n a = s.got n a ++ [m]) ∧ ((∀ m, i = .received a m → k ≠ n) → s'.got n a = s.got n a) := by
  cases i with
  | received b m =>
    injection e with e; subst e
    refine ⟨?_, ?_⟩
    · intro m' hm hk
      injection hm with h1 h2
      subst h1 h2 hk
      simp [State.got, State.tell]
    · intro hne
      by_cases hb : b = a
      · subst hb
        have := hne m rfl
        simp [State.got, State.tell, this]
      · simp [State.got, State.tell, hb]
  | _ =>
    refine ⟨by simp, fun _ => ?_⟩
    rcases (give_same e).2.2.2.2.2.2.2 with h | h <;> simp [State.got, h]

theorem pop_under {s : State} {t : Nat} {x : Sched} {l : List Sched} (h : Inv s) (hd : s.due = some (t, x, l)) (n : Nat) (a : Addr) :
    (∃ m, x.input = .received a m ∧ x.node = n ∧ s.under n a = m :: (s.pop t l).under n a) ∨
    ((∀ m, x.input = .received a m → x.node ≠ n) ∧ ((s.pop t l).under n a).Sublist (s.under n a) ∧ ((∀ y ∈ s.inbox, s.time < y.1) → (s.pop t l).under n a = s.under n a)) := by
  rcases due_cases hd with ⟨hp, rfl⟩ | ⟨_, _, rest, e⟩
  · obtain ⟨b, k, hx⟩ := h.prio x (by rw [hp]; exact List.mem_cons_self ..)
    refine .inr ⟨by rw [hx]; simp, List.Sublist.filterMap _ List.filter_sublist, ?_⟩
    intro hlt
    have : remove s.inbox s.time = s.inbox := by
      unfold remove
      rw [List.filter_eq_self]
      intro y hy
      have := hlt y hy
      simp; omega
    show (remove s.inbox s.time).filterMap (flight n a) = _
    rw [this]; rfl
  · have hs := h.sorted
    rw [e] at hs
    have hrem : (s.pop t l).inbox = rest := by
      show remove s.inbox t = rest
      rw [e]; exact remove_head hs
    have hu : s.under n a = (flight n a (t, x)).toList ++ (s.pop t l).under n a := by
      unfold State.under
      rw [hrem, e, List.filterMap_cons]
      cases flight n a (t, x) <;> rfl
    cases hf : flight n a (t, x) with
    | none =>
      rw [hf] at hu
      refine .inr ⟨?_, by rw [hu]; exact List.Sublist.refl _, fun _ => by rw [hu]; rfl⟩
      intro m hm hk
      simp [flight, hm, hk] at hf
    | some m =>
      rw [hf] at hu
      obtain ⟨h1, m', h2⟩ := flight_some (x := (t, x)) (by rw [hf]; simp)
      simp only at h1 h2
      have : m' = m := by simpa [flight, h1, h2] using hf
      subst this
      exact .inl ⟨m', h2, h1, hu⟩

theorem next_messages {s s' : State} {t : Nat} {x : Sched} {l : List Sched} (h : Inv s) (hd : s.due = some (t, x, l)) (e : (s.pop t l).give x.node x.input = .ok s') (n : Nat) (a : Addr) :
    (s'.got n a ++ s'.under n a).Sublist (s.got n a ++ s.under n a) ∧ s'.sentTo n a = s.sentTo n a ∧
    ((∀ y ∈ s.inbox, s.time < y.1) → s'.got n a ++ s'.under n a = s.got n a ++ s.under n a) := by
  obtain ⟨hi, _, _, hs, _⟩ := give_same e
  have hu : s'.under n a = (s.pop t l).under n a := by unfold State.under; rw [hi]
  have hs' : s'.sentTo n a = s.sentTo n a := by unfold State.sentTo; rw [hs]; rfl
  obtain ⟨g1, g2⟩ := give_got e n a
  have hg : (s.pop t l).got n a = s.got n a := rfl
  rw [hg] at g1 g2
  rcases pop_under h hd n a with ⟨m, hm, hk, hp⟩ | ⟨hne, hsub, heq⟩
  · have : s'.got n a ++ s'.under n a = s.got n a ++ s.under n a := by rw [g1 m hm hk, hu, hp]; simp
    exact ⟨by rw [this]; exact List.Sublist.refl _, hs', fun _ => this⟩
  · refine ⟨?_, hs', fun hlt => by rw [g2 hne, hu, heq hlt]⟩
    rw [g2 hne, hu]
    exact List.Sublist.append (List.Sublist.refl _) hsub

/-- **C144** (partial) Messages are given to nodes in the order in which they were sent, and none twice.  Missing: that none is lost; see `C144_lost_counterexample`. -/
theorem C144_order_partial {P : Out → Prop} {s : State} (h : Reach P s) (n : Nat) (a : Addr) : (s.got n a ++ s.under n a).Sublist (s.sentTo n a) := by
  refine (reach_inv (P := P) (I := fun s => Inv s ∧ (s.got n a ++ s.under n a).Sublist (s.sentTo n a)) ?_ ?_ ?_ ?_ ?_ h).1.2
  · exact fun t o => ⟨inv_new t o, List.Sublist.refl _⟩
  · rintro s nodes c ⟨h1, h2⟩
    refine ⟨inv_configure nodes c h1, ?_⟩
    unfold State.configure; split <;> exact h2
  · rintro s nodes c ⟨h1, h2⟩
    refine ⟨inv_partition nodes c h1, ?_⟩
    unfold State.partition; split <;> exact h2
  · rintro s s' node o r _ ⟨h1, h2⟩ e
    refine ⟨inv_schedule h1 e, ?_⟩
    have hg : s'.got n a = s.got n a := by unfold State.got; rw [(schedule_same e).2.1]
    rcases schedule_under h1 e n a with ⟨hu, hs⟩ | ⟨m, hu, hs⟩
    · rw [hg, hu, hs]; exact h2
    · rw [hg, hu, hs, ← List.append_assoc]; exact List.Sublist.append h2 (List.Sublist.refl _)
  · rintro s s' t x l ⟨h1, h2⟩ hd _ e
    obtain ⟨hsub, hs, _⟩ := next_messages h1 hd e n a
    exact ⟨inv_give (inv_pop h1 hd) e, by rw [hs]; exact hsub.trans h2⟩

/-- **C144** (partial) If no latency is zero, and no node asks to be woken at once, then no message is lost either: what was sent was given to the node or is under way,
in this order. -/
theorem C144_all_partial {s : State} (h : Reach (· ≠ .timer 0) s) (hp : s.opts.Positive) (n : Nat) (a : Addr) : s.sentTo n a = s.got n a ++ s.under n a := by
  refine (reach_inv (P := (· ≠ .timer 0)) (I := fun s => Strict s ∧ (s.opts.Positive → s.sentTo n a = s.got n a ++ s.under n a)) ?_ ?_ ?_ ?_ ?_ h).1.2 hp
  · exact fun t o => ⟨strict_new t o, fun _ => rfl⟩
  · rintro s nodes c ⟨h1, h2⟩
    refine ⟨strict_configure nodes c h1, ?_⟩
    unfold State.configure; split <;> exact h2
  · rintro s nodes c ⟨h1, h2⟩
    refine ⟨strict_partition nodes c h1, ?_⟩
    unfold State.partition; split <;> exact h2
  · rintro s s' node o r ho ⟨h1, h2⟩ e
    refine ⟨strict_schedule ho h1 e, ?_⟩
    rw [(schedule_same e).2.2.1]
    intro hp
    have hg : s'.got n a = s.got n a := by unfold State.got; rw [(schedule_same e).2.1]
    rcases schedule_under h1.inv e n a with ⟨hu, hs⟩ | ⟨m, hu, hs⟩
    · rw [hg, hu, hs, h2 hp]
    · rw [hg, hu, hs, h2 hp, List.append_assoc]
  · rintro s s' t x l ⟨h1, h2⟩ hd _ e
    refine ⟨strict_next h1 hd e, ?_⟩
    rw [(give_same e).2.2.2.2.2.2.1]
    intro hp
    obtain ⟨_, hs, heq⟩ := next_messages h1.inv hd e n a
    rw [hs, heq (h1.later hp)]
    exact h2 hp

/-- **C144** (partial) So when such a simulation is done, all messages have been given to their receivers. -/
theorem C144_done_partial {s : State} (h : Reach (· ≠ .timer 0) s) (hp : s.opts.Positive) (hd : s.inbox = []) (n : Nat) (a : Addr) : s.got n a = s.sentTo n a := by
  rw [C144_all_partial h hp n a]; simp [State.under, hd]

theorem schedule_error {s : State} {n : Nat} {o : Out} {r : Rand} {p : Panic} (e : s.schedule n o r = .error p) : p = .self := by
  cases o with
  | connect to =>
    simp only [State.schedule] at e
    split at e
    · injection e with e; exact e.symm
    · split at e <;> cases e
  | write to m =>
    simp only [State.schedule] at e
    split at e
    · cases e
    · split at e <;> cases e
  | disconnect to k => simp only [State.schedule] at e; split at e <;> cases e
  | timer d => simp only [State.schedule] at e; split at e <;> cases e
  | event v => simp only [State.schedule] at e; split at e <;> cases e

theorem schedules_error : ∀ (l : List (Out × Rand)) (s : State) (n : Nat), s.schedules n l ≠ .error .backwards
  | [], _, _, e => by cases e
  | (o, r) :: l, s, n, e => by
    unfold State.schedules at e
    split at e
    · exact schedules_error l _ n e
    · rename_i p hp
      injection e with e; subst e
      cases schedule_error hp

theorem pipes_error : ∀ (l : List Nat) (s : State) (outs : Nat → List (Out × Rand)), s.pipes outs l ≠ .error .backwards
  | [], _, _, e => by cases e
  | n :: l, s, outs, e => by
    unfold State.pipes at e
    split at e
    · exact pipes_error l _ outs e
    · rename_i p hp
      injection e with e; subst e
      exact schedules_error _ _ _ hp

theorem give_error {s : State} {n : Nat} {i : Input} (e : s.give n i = .error .backwards) : False := by
  cases i with
  | connecting a => simp only [State.give] at e; split at e <;> cases e
  | connected a l b =>
    simp only [State.give] at e
    split at e
    · cases e
    · split at e <;> cases e
  | disconnected a k => simp only [State.give] at e; split at e <;> cases e
  | received a m => cases e
  | wake => cases e

/-- **C146** (partial) The time of a simulation does not go backwards, and the assertion about it does not fail.  Missing: the other assertions; see `C146_both_counterexample`. -/
theorem C146_backwards_partial {P : Out → Prop} {s : State} (h : Reach P s) {nodes : List Nat} {c : Choice} (hb : ∀ n, ∀ x ∈ c.before n, P x.1) : s.step nodes c ≠ .error .backwards := by
  intro e
  unfold State.step at e
  split at e
  · rename_i t ht
    have hI := (reach_Inv h).2 nodes c t hb ht
    unfold State.next at e
    split at e
    · cases e
    · rename_i k x l hd
      split at e
      · rename_i hlt
        rcases due_cases hd with ⟨_, rfl⟩ | ⟨_, _, rest, hi⟩
        · exact Nat.lt_irrefl _ hlt
        · exact Nat.not_lt.2 (hI.future _ (by rw [hi]; exact List.mem_cons_self ..)) hlt
      · split at e
        · split at e
          · rename_i u _
            exact schedules_error _ _ _ e
          · rename_i hg
            injection e with e; subst e
            exact give_error hg
        · cases e
  · rename_i p hp
    injection e with e; subst e
    exact pipes_error _ _ _ hp

end Verif.Sim
