import Verif.Sim.Lemmas

/-!
# Invariants of the simulator
-/

set_option autoImplicit false

namespace Verif.Sim

/-- Several entries put into the inbox. -/
def inserts (l : Inbox) (xs : List (Nat × Sched)) : Inbox := xs.foldl (fun b x => insert b x.1 x.2) l

/-- What scheduling an output does to messages, wake-ups and the inbox. -/
inductive Scheduled (s : State) (node : Nat) (o : Out) (r : Rand) (s' : State) : Prop
  | none (ho : ∀ d, o ≠ .timer d) (hi : s'.inbox = s.inbox) (hs : s'.sent = s.sent) (ha : s'.asked = s.asked)
  | message (to : Addr) (m port : Nat) (ho : o = .write to m) (hc : s.connections node to.1 = some port)
      (hi : s'.inbox = insert s.inbox ((last s.inbox to.1 (node, port)).getD s.time + s.latency node to.1 r) ⟨to.1, (node, port), .received (node, port) m⟩)
      (hs : s'.sent = s.sent ++ [(to.1, (node, port), m)]) (ha : s'.asked = s.asked)
  | other (xs : List (Nat × Sched)) (ho : ∀ d, o ≠ .timer d) (hx : ∀ x ∈ xs, (x.1 = s.time + 1 ∨ ∃ a b, x.1 = s.time + s.latency a b r) ∧ x.2.input ≠ .wake ∧ ∀ b m, x.2.input ≠ .received b m)
      (hi : s'.inbox = inserts s.inbox xs) (hs : s'.sent = s.sent) (ha : s'.asked = s.asked)
  | timer (d : Nat) (ho : o = .timer d) (hi : s'.inbox = insert s.inbox (s.time + d) ⟨node, (0, 0), .wake⟩) (hs : s'.sent = s.sent)
      (ha : s'.asked = s.asked ++ [(node, s.time + d)])
  | clash (d : Nat) (x : Nat × Sched) (ho : o = .timer d) (hx : x ∈ s.inbox) (hk : x.1 = s.time + d) (hw : x.2.input = .wake) (hi : s'.inbox = s.inbox) (hs : s'.sent = s.sent)
      (ha : s'.asked = s.asked ++ [(node, s.time + d)])

theorem schedule_same {s s' : State} {node : Nat} {o : Out} {r : Rand} (h : s.schedule node o r = .ok s') :
    s'.time = s.time ∧ s'.told = s.told ∧ s'.opts = s.opts ∧ s'.latencies = s.latencies ∧ s'.connections = s.connections ∧ s'.attempts = s.attempts ∧
    (s'.priority = s.priority ∨ ∃ a k, s'.priority = s.priority ++ [⟨node, a, .disconnected a k⟩]) := by
  cases o with
  | write to m =>
    simp only [State.schedule] at h
    split at h
    · injection h with h; subst h; simp
    · split at h <;> (injection h with h; subst h; simp)
  | connect to =>
    simp only [State.schedule] at h
    split at h
    · cases h
    · split at h <;> (injection h with h; subst h; simp)
  | disconnect to k =>
    simp only [State.schedule] at h
    split at h <;> (injection h with h; subst h; simp)
  | timer d =>
    simp only [State.schedule] at h
    split at h <;> (injection h with h; subst h; simp)
  | event e =>
    simp only [State.schedule] at h
    split at h <;> (injection h with h; subst h; simp)

theorem schedule_cases {s s' : State} {node : Nat} {o : Out} {r : Rand} (h : s.schedule node o r = .ok s') : Scheduled s node o r s' := by
  cases o with
  | write to m =>
    simp only [State.schedule] at h
    split at h
    · injection h with h; subst h; exact .none (by simp) rfl rfl rfl
    · rename_i port hc
      split at h
      · injection h with h; subst h; exact .none (by simp) rfl rfl rfl
      · injection h with h; subst h; exact .message to m port rfl hc rfl rfl rfl
  | connect to =>
    simp only [State.schedule] at h
    split at h
    · cases h
    · split at h
      · injection h with h; subst h
        by_cases ht : r.tell = true
        · refine .other [(s.time + 1, ⟨node, to, .connecting to⟩), (s.time + 1, ⟨node, to, .disconnected to 0⟩)] (by simp) ?_ ?_ rfl rfl
          · intro x hx
            simp only [List.mem_cons, List.not_mem_nil, or_false] at hx
            rcases hx with rfl | rfl <;> simp
          · simp [ht, inserts, minLatency]
        · refine .other [(s.time + 1, ⟨node, to, .connecting to⟩)] (by simp) ?_ ?_ rfl rfl
          · intro x hx
            simp only [List.mem_cons, List.not_mem_nil, or_false] at hx
            subst hx; simp
          · simp [ht, inserts, minLatency]
      · injection h with h; subst h
        refine .other [(s.time + 1, ⟨node, to, .connecting to⟩),
          (s.time + s.latency node to.1 r, ⟨to.1, (node, 8192 + r.port % (65536 - 8192)), .connected (node, 8192 + r.port % (65536 - 8192)) to true⟩),
          (s.time + s.latency node to.1 r, ⟨node, to, .connected to (node, 8192 + r.port % (65536 - 8192)) false⟩)] (by simp) ?_ rfl rfl rfl
        intro x hx
        simp only [List.mem_cons, List.not_mem_nil, or_false] at hx
        rcases hx with rfl | rfl | rfl
        · simp
        · exact ⟨.inr ⟨_, _, rfl⟩, by simp, by simp⟩
        · exact ⟨.inr ⟨_, _, rfl⟩, by simp, by simp⟩
  | disconnect to k =>
    simp only [State.schedule] at h
    split at h
    · injection h with h; subst h; exact .none (by simp) rfl rfl rfl
    · rename_i port hc
      injection h with h; subst h
      refine .other [(s.time + s.latency node to.1 r, ⟨to.1, (node, port), .disconnected (node, port) 0⟩)] (by simp) ?_ rfl rfl rfl
      intro x hx
      simp only [List.mem_cons, List.not_mem_nil, or_false] at hx
      subst hx
      exact ⟨.inr ⟨_, _, rfl⟩, by simp, by simp⟩
  | timer d =>
    simp only [State.schedule] at h
    split at h
    · rename_i ha
      injection h with h; subst h
      rw [Option.any_eq_true] at ha
      obtain ⟨x, hf, hw⟩ := ha
      have h1 := List.find?_some hf
      exact .clash d x rfl (List.mem_of_find?_eq_some hf) (by simpa using h1) (by simpa using hw) rfl rfl rfl
    · injection h with h; subst h; exact .timer d rfl rfl rfl rfl
  | event e =>
    simp only [State.schedule] at h
    split at h <;> (injection h with h; subst h; exact .none (by simp) rfl rfl rfl)

/-- The inbox is in order and about the future; messages are filed under their senders; only disconnects have priority. -/
structure Inv (s : State) : Prop where
  sorted : Sorted s.inbox
  future : ∀ x ∈ s.inbox, s.time ≤ x.1
  remote : ∀ x ∈ s.inbox, ∀ b m, x.2.input = .received b m → x.2.remote = b
  prio : ∀ x ∈ s.priority, ∃ a k, x.input = .disconnected a k

theorem inserts_inv {l : Inbox} (h : Sorted l) : ∀ xs : List (Nat × Sched), Sorted (inserts l xs) ∧ (∀ x ∈ inserts l xs, x ∈ l ∨ ∃ y ∈ xs, x.2 = y.2 ∧ y.1 ≤ x.1) ∧
    ∀ x ∈ l, x ∈ inserts l xs := by
  intro xs
  induction xs generalizing l with
  | nil => exact ⟨h, fun x hx => .inl hx, fun _ hx => hx⟩
  | cons y xs ih =>
    obtain ⟨h1, h2, h3⟩ := ih (insert_sorted h y.1 y.2)
    refine ⟨h1, ?_, fun x hx => h3 x (mem_insert.2 (.inr hx))⟩
    intro x hx
    rcases h2 x hx with hm | ⟨z, hz, e, hle⟩
    · rcases mem_insert.1 hm with rfl | hm
      · exact .inr ⟨y, List.mem_cons_self .., rfl, le_free _ _⟩
      · exact .inl hm
    · exact .inr ⟨z, List.mem_cons_of_mem _ hz, e, hle⟩

theorem le_last_getD {s : State} (h : ∀ x ∈ s.inbox, s.time ≤ x.1) (n : Nat) (a : Addr) : s.time ≤ (last s.inbox n a).getD s.time := by
  unfold last
  cases hf : s.inbox.reverse.find? (fun x => x.2.node = n ∧ x.2.remote = a) with
  | none => exact Nat.le_refl _
  | some x => exact h x (List.mem_reverse.1 (List.mem_of_find?_eq_some hf))

theorem inv_new (t : Nat) (o : Opts) : Inv (State.new t o) :=
  ⟨List.Pairwise.nil, by simp [State.new], by simp [State.new], by simp [State.new]⟩

theorem inv_configure {s : State} (nodes : List Nat) (c : Choice) (h : Inv s) : Inv (s.configure nodes c) := by
  unfold State.configure; split
  · exact ⟨h.sorted, h.future, h.remote, h.prio⟩
  · exact h

theorem inv_partition {s : State} (nodes : List Nat) (c : Choice) (h : Inv s) : Inv (s.partition nodes c) := by
  unfold State.partition; split
  · exact ⟨h.sorted, h.future, h.remote, h.prio⟩
  · exact h

theorem inv_schedule {s s' : State} {node : Nat} {o : Out} {r : Rand} (h : Inv s) (e : s.schedule node o r = .ok s') : Inv s' := by
  obtain ⟨ht, _, _, _, _, _, hp⟩ := schedule_same e
  have hprio : ∀ x ∈ s'.priority, ∃ a k, x.input = .disconnected a k := by
    rcases hp with hp | ⟨a, k, hp⟩
    · rw [hp]; exact h.prio
    · rw [hp]
      intro x hx
      rcases List.mem_append.1 hx with hx | hx
      · exact h.prio x hx
      · rw [List.mem_singleton] at hx; subst hx; exact ⟨a, k, rfl⟩
  cases schedule_cases e with
  | none _ hi => exact ⟨by rw [hi]; exact h.sorted, by rw [hi, ht]; exact h.future, by rw [hi]; exact h.remote, hprio⟩
  | clash d x _ _ _ _ hi => exact ⟨by rw [hi]; exact h.sorted, by rw [hi, ht]; exact h.future, by rw [hi]; exact h.remote, hprio⟩
  | message to m port _ _ hi =>
    refine ⟨by rw [hi]; exact insert_sorted h.sorted _ _, ?_, ?_, hprio⟩
    · rw [hi, ht]
      intro x hx
      rcases mem_insert.1 hx with rfl | hx
      · exact Nat.le_trans (Nat.le_trans (le_last_getD h.future _ _) (Nat.le_add_right _ _)) (le_free _ _)
      · exact h.future x hx
    · rw [hi]
      intro x hx b m' hb
      rcases mem_insert.1 hx with rfl | hx
      · injection hb with hb
      · exact h.remote x hx b m' hb
  | timer d _ hi =>
    refine ⟨by rw [hi]; exact insert_sorted h.sorted _ _, ?_, ?_, hprio⟩
    · rw [hi, ht]
      intro x hx
      rcases mem_insert.1 hx with rfl | hx
      · exact Nat.le_trans (Nat.le_add_right _ _) (le_free _ _)
      · exact h.future x hx
    · rw [hi]
      intro x hx b m' hb
      rcases mem_insert.1 hx with rfl | hx
      · cases hb
      · exact h.remote x hx b m' hb
  | other xs _ hx hi =>
    obtain ⟨h1, h2, _⟩ := inserts_inv h.sorted xs
    refine ⟨by rw [hi]; exact h1, ?_, ?_, hprio⟩
    · rw [hi, ht]
      intro x hm
      rcases h2 x hm with hm | ⟨y, hy, _, hle⟩
      · exact h.future x hm
      · refine Nat.le_trans ?_ hle
        rcases (hx y hy).1 with e | ⟨a, b, e⟩ <;> rw [e] <;> exact Nat.le_add_right _ _
    · rw [hi]
      intro x hm b m' hb
      rcases h2 x hm with hm | ⟨y, hy, e, _⟩
      · exact h.remote x hm b m' hb
      · rw [e] at hb; exact absurd hb ((hx y hy).2.2 b m')

theorem mem_remove {l : Inbox} {t : Nat} {x : Nat × Sched} : x ∈ remove l t ↔ x ∈ l ∧ x.1 ≠ t := by simp [remove]

theorem inv_pop {s : State} {t : Nat} {x : Sched} {l : List Sched} (h : Inv s) (hd : s.due = some (t, x, l)) : Inv (s.pop t l) := by
  refine ⟨remove_sorted h.sorted t, ?_, fun y hy => h.remote y (mem_remove.1 hy).1, ?_⟩
  · intro y hy
    have hm : y ∈ s.inbox := (mem_remove.1 hy).1
    rcases due_cases hd with ⟨_, rfl⟩ | ⟨_, _, rest, e⟩
    · exact h.future y hm
    · have hs := h.sorted
      rw [e] at hs hm
      rcases List.mem_cons.1 hm with rfl | hm
      · exact Nat.le_refl _
      · exact Nat.le_of_lt ((List.pairwise_cons.1 hs).1 y hm)
  · rcases due_cases hd with ⟨hp, _⟩ | ⟨_, rfl, _⟩
    · intro y hy; exact h.prio y (by rw [hp]; exact List.mem_cons_of_mem _ hy)
    · intro y hy; cases hy

theorem inv_give {s s' : State} {n : Nat} {i : Input} (h : Inv s) (e : s.give n i = .ok s') : Inv s' := by
  obtain ⟨h1, h2, h3, _⟩ := give_same e
  exact ⟨by rw [h1]; exact h.sorted, by rw [h1, h3]; exact h.future, by rw [h1]; exact h.remote, by rw [h2]; exact h.prio⟩

theorem reach_Inv {P : Out → Prop} {s : State} (h : Reach P s) : Inv s ∧ ∀ nodes c s', (∀ n, ∀ x ∈ c.before n, P x.1) →
    ((s.configure nodes c).partition nodes c).pipes c.before nodes = .ok s' → Inv s' :=
  reach_inv inv_new (fun _ n c h => inv_configure n c h) (fun _ n c h => inv_partition n c h) (fun _ _ _ _ _ _ h e => inv_schedule h e)
    (fun _ _ _ _ _ h hd _ e => inv_give (inv_pop h hd) e) h

/-! ## Latencies -/

/-- The latencies are in the range of the options, the same in both directions. -/
structure Lat (s : State) : Prop where
  range : ∀ a b l, s.latencies a b = some l → s.opts.latency.1 * 1000 ≤ l ∧ l < s.opts.latency.2 * 1000
  symm : ∀ a b, s.latencies a b = s.latencies b a

theorem lat_configure {s : State} (nodes : List Nat) (c : Choice) (h : Lat s) : Lat (s.configure nodes c) := by
  unfold State.configure
  split
  · rename_i hr
    refine ⟨?_, ?_⟩
    · intro a b l hl
      simp only at hl ⊢
      split at hl
      · rename_i e
        injection hl with hl; subst hl
        exact h.range a b _ e
      · split at hl
        · injection hl with hl; subst hl
          have := Nat.mod_lt (c.latency (min a b) (max a b)) (show 0 < s.opts.latency.2 * 1000 - s.opts.latency.1 * 1000 by omega)
          omega
        · cases hl
    · intro a b
      simp only
      rw [h.symm a b, Nat.min_comm, Nat.max_comm]
      split
      · rfl
      · by_cases hc : a ∈ nodes ∧ b ∈ nodes ∧ a ≠ b
        · rw [if_pos hc, if_pos ⟨hc.2.1, hc.1, hc.2.2.symm⟩]
        · rw [if_neg hc, if_neg (fun hc' => hc ⟨hc'.2.1, hc'.1, hc'.2.2.symm⟩)]
  · exact h

theorem reach_lat {P : Out → Prop} {s : State} (h : Reach P s) : Lat s ∧ ∀ nodes c s', (∀ n, ∀ x ∈ c.before n, P x.1) →
    ((s.configure nodes c).partition nodes c).pipes c.before nodes = .ok s' → Lat s' := by
  have copy : ∀ {s s' : State}, s'.latencies = s.latencies → s'.opts = s.opts → Lat s → Lat s' := by
    intro s s' h1 h2 h
    exact ⟨by rw [h1, h2]; exact h.range, by rw [h1]; exact h.symm⟩
  refine reach_inv (fun t o => ⟨by simp [State.new], fun _ _ => rfl⟩) (fun _ n c h => lat_configure n c h) ?_ ?_ ?_ h
  · intro s nodes c h
    unfold State.partition; split
    · exact copy (s := s) rfl rfl h
    · exact h
  · intro s s' _ _ _ _ h e
    obtain ⟨_, _, h3, h4, _⟩ := schedule_same e
    exact copy h4 h3 h
  · intro s s' t x l h _ _ e
    obtain ⟨_, _, _, _, _, h6, h7, _⟩ := give_same e
    exact copy (s := s) h6 h7 h

/-- The options give no latency of zero. -/
def Opts.Positive (o : Opts) : Prop := o.latency.1 < o.latency.2 → 1 ≤ o.latency.1

theorem latency_pos {s : State} (h : Lat s) (hp : s.opts.Positive) (a b : Nat) (r : Rand) : 1 ≤ s.latency a b r := by
  unfold State.latency
  split
  · rename_i l e
    have := h.range a b l e
    have hp := hp (by omega)
    split
    · omega
    · split
      · omega
      · rename_i hl _
        have : r.n % (l / 2) < l / 2 := Nat.mod_lt _ (by simp only [minLatency] at hl; omega)
        omega
  · exact Nat.le_refl 1

/-- The inbox is about times to come. -/
structure Strict (s : State) : Prop where
  inv : Inv s
  lat : Lat s
  later : s.opts.Positive → ∀ x ∈ s.inbox, s.time < x.1

theorem strict_new (t : Nat) (o : Opts) : Strict (State.new t o) := ⟨inv_new t o, ⟨by simp [State.new], fun _ _ => rfl⟩, by simp [State.new]⟩

theorem strict_configure {s : State} (nodes : List Nat) (c : Choice) (h : Strict s) : Strict (s.configure nodes c) := by
  refine ⟨inv_configure nodes c h.inv, lat_configure nodes c h.lat, ?_⟩
  unfold State.configure; split <;> exact h.later

theorem strict_partition {s : State} (nodes : List Nat) (c : Choice) (h : Strict s) : Strict (s.partition nodes c) := by
  refine ⟨inv_partition nodes c h.inv, ?_, ?_⟩
  · unfold State.partition; split
    · exact ⟨h.lat.range, h.lat.symm⟩
    · exact h.lat
  · unfold State.partition; split <;> exact h.later

theorem strict_schedule {s s' : State} {node : Nat} {o : Out} {r : Rand} (ho : o ≠ .timer 0) (h : Strict s) (e : s.schedule node o r = .ok s') : Strict s' := by
  obtain ⟨h1, h2, h3⟩ := h
  obtain ⟨ht, _, hopt, hlat, _⟩ := schedule_same e
  refine ⟨inv_schedule h1 e, ⟨by rw [hlat, hopt]; exact h2.range, by rw [hlat]; exact h2.symm⟩, ?_⟩
  rw [hopt, ht]
  intro hp x hx
  have lp := latency_pos h2 hp
  cases schedule_cases e with
  | none _ hi => rw [hi] at hx; exact h3 hp x hx
  | clash d y _ _ _ _ hi => rw [hi] at hx; exact h3 hp x hx
  | message to m port _ _ hi =>
    rw [hi] at hx
    rcases mem_insert.1 hx with rfl | hx
    · have h4 := le_free s.inbox ((last s.inbox to.1 (node, port)).getD s.time + s.latency node to.1 r)
      have h5 := le_last_getD h1.future to.1 (node, port)
      have h6 := lp node to.1 r
      simp only
      omega
    · exact h3 hp x hx
  | timer d hd hi =>
    rw [hi] at hx
    have : d ≠ 0 := fun e => ho (by rw [hd, e])
    rcases mem_insert.1 hx with rfl | hx
    · have h4 := le_free s.inbox (s.time + d)
      simp only
      omega
    · exact h3 hp x hx
  | other xs _ hxs hi =>
    rw [hi] at hx
    rcases (inserts_inv h1.sorted xs).2.1 x hx with hx | ⟨y, hy, _, hle⟩
    · exact h3 hp x hx
    · rcases (hxs y hy).1 with e | ⟨a, b, e⟩
      · omega
      · have := lp a b r; omega

theorem strict_next {s s' : State} {t : Nat} {x : Sched} {l : List Sched} (h : Strict s) (hd : s.due = some (t, x, l))
    (e : (s.pop t l).give x.node x.input = .ok s') : Strict s' := by
  obtain ⟨h1, h2, h3⟩ := h
  obtain ⟨hi, _, ht, _, _, h6, h7, _⟩ := give_same e
  refine ⟨inv_give (inv_pop h1 hd) e, ⟨by rw [h6, h7]; exact h2.range, by rw [h6]; exact h2.symm⟩, ?_⟩
  rw [h7, hi, ht]
  intro hp y hy
  have hy : y ∈ s.inbox ∧ y.1 ≠ t := mem_remove.1 hy
  show t < y.1
  rcases due_cases hd with ⟨_, rfl⟩ | ⟨_, _, rest, e⟩
  · exact h3 hp y hy.1
  · have hs := h1.sorted
    rw [e] at hs hy
    rcases List.mem_cons.1 hy.1 with rfl | hm
    · exact absurd rfl hy.2
    · exact (List.pairwise_cons.1 hs).1 y hm

end Verif.Sim
