import Verif.Sim.Scenarios

/-!
# C144: failures of the network in simulations
-/

set_option autoImplicit false

namespace Verif.Sim

theorem schedule_partitions {s s' : State} {node : Nat} {o : Out} {r : Rand} (h : s.schedule node o r = .ok s') : s'.partitions = s.partitions := by
  cases o <;> simp only [State.schedule] at h <;> repeat' split at h
  all_goals first | (cases h; done) | (cases h; rfl)

theorem give_partitions {s s' : State} {n : Nat} {i : Input} (h : s.give n i = .ok s') : s'.partitions = s.partitions := by
  unfold State.give at h
  split at h
  · split at h <;> (injection h with h; subst h; rfl)
  · split at h
    · injection h with h; subst h; unfold State.link; split <;> rfl
    · split at h
      · injection h with h; subst h; unfold State.link; split <;> rfl
      · injection h with h; subst h; rfl
  · simp only at h
    split at h
    · cases h
    · injection h with h; subst h; split <;> rfl
  · injection h with h; subst h; rfl
  · injection h with h; subst h; rfl

/-- Nothing is partitioned, if the options have no failures. -/
def Whole (s : State) : Prop := s.opts.fallible = false → ∀ a b, s.partitions a b = false

theorem reach_whole {P : Out → Prop} {s : State} (h : Reach P s) : Whole s := by
  have copy : ∀ {s s' : State}, s'.partitions = s.partitions → s'.opts = s.opts → Whole s → Whole s' := by
    intro s s' h1 h2 h
    unfold Whole
    rw [h1, h2]; exact h
  refine (reach_inv (I := Whole) (fun _ _ _ _ _ => rfl) ?_ ?_ ?_ ?_ h).1
  · intro s nodes c h
    unfold State.configure; split
    · exact copy (s := s) rfl rfl h
    · exact h
  · intro s nodes c h
    unfold State.partition; split
    · intro hf a b
      have hf : s.opts.fallible = false := hf
      simp [hf, h hf a b]
    · exact h
  · intro s s' _ _ _ _ h e
    exact copy (schedule_partitions e) (schedule_same e).2.2.1 h
  · intro s s' t x l h _ _ e
    obtain ⟨_, _, _, _, _, _, h7, _⟩ := give_same e
    exact copy (s := s.pop t l) (give_partitions e) h7 h

/-- **C144** (partial) With options that have no failures, each message that a node puts out for a node it was told to be connected to counts as sent. -/
theorem C144_reliable_partial {P : Out → Prop} {s : State} (h : Reach P s) (hf : s.opts.fallible = false) {node : Nat} {to : Addr} (m : Nat) (r : Rand)
    (hu : up s.told node to.1 = true) : ∃ s' port, s.schedule node (.write to m) r = .ok s' ∧ s'.sent = s.sent ++ [(to.1, (node, port), m)] :=
  C144_sent_partial h m r hu (by simp [State.partitioned, reach_whole h hf])

/-- **C144** (partial) The converse: once the link between two nodes failed, nothing is sent over it in either direction.  Links are drawn anew in seconds that are multiples of ten. -/
theorem C144_failed_partial (s : State) (nodes : List Nat) (c : Choice) (hf : s.opts.fallible = true) (ht : s.time / 1000 % 10 = 0) {a : Nat} {b : Addr} (ha : a ∈ nodes)
    (hb : b.1 ∈ nodes) (hab : a ≠ b.1) (hc : c.fails (min a b.1) (max a b.1) = true) (m : Nat) (r : Rand) :
    (s.partition nodes c).schedule a (.write b m) r = .ok (s.partition nodes c) := by
  have hp : (s.partition nodes c).partitioned a b.1 = true := by
    unfold State.partition State.partitioned
    rw [if_pos ht]
    rcases Nat.lt_or_gt_of_ne hab with h | h
    · rw [Nat.min_eq_left (Nat.le_of_lt h), Nat.max_eq_right (Nat.le_of_lt h)] at hc
      simp [ha, hb, h, hf, hc]
    · rw [Nat.min_eq_right (Nat.le_of_lt h), Nat.max_eq_left (Nat.le_of_lt h)] at hc
      simp [ha, hb, h, hf, hc]
  simp only [State.schedule, hp]
  split <;> rfl

/-! ## Outputs -/

/-- What an output is if it is a message for a node that the sender was told to be connected to: receiver, sender and message. -/
def puts (told : List (Nat × Nat × Input)) (n : Nat) : Out × Rand → Option (Nat × Nat × Nat)
  | (.write to m, _) => if up told n to.1 then some (to.1, n, m) else none
  | _ => none

/-- What was sent: receiver, sender and message. -/
def State.wrote (s : State) : List (Nat × Nat × Nat) := s.sent.map fun x => (x.1, x.2.1.1, x.2.2)

/-- No link failed, and the connections are those that nodes were told of. -/
structure Open (s : State) : Prop where
  links : ∀ a b, s.partitions a b = false
  conns : Conns s

theorem schedule_wrote {s s' : State} {node : Nat} {o : Out} {r : Rand} (ho : Open s) (h : s.schedule node o r = .ok s') :
    Open s' ∧ s'.told = s.told ∧ s'.wrote = s.wrote ++ (puts s.told node (o, r)).toList := by
  obtain ⟨-, h2, -, -, h5, h6, -⟩ := schedule_same h
  refine ⟨⟨by rw [schedule_partitions h]; exact ho.links, ⟨by rw [h5, h2]; exact ho.conns.up, by rw [h6, h2]; exact ho.conns.tried, by rw [h2]; exact ho.conns.fits⟩⟩, h2, ?_⟩
  cases o with
  | write to m =>
    have hu := ho.conns.up node to.1
    simp only [State.schedule, State.partitioned, ho.links] at h
    split at h
    · rename_i hn
      rw [hn] at hu
      cases h
      simp [puts, ← hu]
    · rename_i port hp
      rw [hp] at hu
      cases h
      simp [puts, ← hu, State.wrote]
  | connect to => simp only [State.schedule] at h; repeat' split at h
                  all_goals first | (cases h; done) | (cases h; simp [State.wrote, puts])
  | disconnect to k => simp only [State.schedule] at h; split at h <;> (cases h; simp [State.wrote, puts])
  | timer d => simp only [State.schedule] at h; split at h <;> (cases h; simp [State.wrote, puts])
  | event e => simp only [State.schedule] at h; split at h <;> (cases h; simp [State.wrote, puts])

theorem schedules_wrote {node : Nat} : ∀ (l : List (Out × Rand)) {s s' : State}, Open s → s.schedules node l = .ok s' →
    Open s' ∧ s'.told = s.told ∧ s'.wrote = s.wrote ++ l.filterMap (puts s.told node)
  | [], s, s', ho, h => by cases h; exact ⟨ho, rfl, by simp⟩
  | (o, r) :: l, s, s', ho, h => by
    unfold State.schedules at h
    split at h
    · rename_i t ht
      obtain ⟨h1, h2, h3⟩ := schedule_wrote ho ht
      obtain ⟨h4, h5, h6⟩ := schedules_wrote l h1 h
      refine ⟨h4, h5.trans h2, ?_⟩
      rw [h6, h3, h2, List.append_assoc]
      cases e : puts s.told node (o, r) <;> simp [e]
    · cases h

theorem pipes_wrote (outs : Nat → List (Out × Rand)) : ∀ (l : List Nat) {s s' : State}, Open s → s.pipes outs l = .ok s' →
    Open s' ∧ s'.told = s.told ∧ s'.wrote = s.wrote ++ l.flatMap fun n => (outs n).filterMap (puts s.told n)
  | [], s, s', ho, h => by cases h; exact ⟨ho, rfl, by simp⟩
  | n :: l, s, s', ho, h => by
    unfold State.pipes at h
    split at h
    · rename_i t ht
      obtain ⟨h1, h2, h3⟩ := schedules_wrote _ ho ht
      obtain ⟨h4, h5, h6⟩ := pipes_wrote outs l h1 h
      refine ⟨h4, h5.trans h2, ?_⟩
      rw [h6, h3, h2]; simp
    · cases h

/-- **C144** (partial) What is sent in a step of a simulation whose options have no failures: for one node after the other all that it put out for nodes it was told to be connected to, in
the order in which it did; then the same for the node `n` that is told something in this step. -/
theorem C144_outputs_partial {P : Out → Prop} {s s' : State} (h : Reach P s) (hf : s.opts.fallible = false) {nodes : List Nat} {c : Choice} (e : s.step nodes c = .ok s') :
    ∃ rest n, s'.wrote = s.wrote ++ (nodes.flatMap fun n => (c.before n).filterMap (puts s.told n)) ++ rest ∧ (s'.told = s.told ∨ ∃ t i, s'.told = s.told ++ [(t, n, i)]) ∧
      (rest = c.after.filterMap (puts s'.told n) ∨ rest = [] ∧ s'.inbox = [] ∧ s'.priority = []) := by
  have ho : Open ((s.configure nodes c).partition nodes c) ∧ ((s.configure nodes c).partition nodes c).told = s.told ∧
      ((s.configure nodes c).partition nodes c).wrote = s.wrote ∧ ((s.configure nodes c).partition nodes c).connections = s.connections := by
    have hw := reach_whole h hf
    have hc := reach_conns h
    unfold State.partition State.configure
    refine ⟨⟨?_, ?_⟩, ?_, ?_, ?_⟩ <;> split <;> split <;> first | rfl | exact ⟨hc.up, hc.tried, hc.fits⟩ | exact hw | (intro a b; simp [hf, hw])
  obtain ⟨ho, o1, o2, -⟩ := ho
  unfold State.step at e
  split at e
  · rename_i t ht
    obtain ⟨h1, h2, h3⟩ := pipes_wrote _ _ ho ht
    rw [o1] at h2 h3
    rw [o2] at h3
    unfold State.next at e
    split at e
    · rename_i hd
      cases e
      refine ⟨[], 0, by simp [h3], .inl h2, .inr ⟨rfl, ?_⟩⟩
      unfold State.due at hd
      split at hd
      · cases hd
      · rename_i hp
        split at hd
        · cases hd
        · rename_i hi; exact ⟨hi, hp⟩
    · rename_i k x l hd
      split at e
      · cases e
      · split at e
        · split at e
          · rename_i u hu
            have hc : Conns u := conns_give (s := t.pop k l) ⟨h1.conns.up, h1.conns.tried, h1.conns.fits⟩ hu
            obtain ⟨-, -, -, g4, -, -, -, g8⟩ := give_same hu
            have hou : Open u := ⟨by rw [give_partitions hu]; exact h1.links, hc⟩
            obtain ⟨h4, h5, h6⟩ := schedules_wrote _ hou e
            refine ⟨c.after.filterMap (puts s'.told x.node), x.node, ?_, ?_, .inl rfl⟩
            · rw [h6, h5, ← h3]
              simp only [State.wrote, g4]; rfl
            · rw [h5, ← h2]
              rcases g8 with g8 | g8
              · exact .inl g8
              · exact .inr ⟨_, _, g8⟩
          · cases e
        · cases e
  · cases e

namespace Scenarios

/-- The hypotheses of `C144_outputs_partial` are met: once connected, node 1 puts out two messages for node 2, and node 2 one for node 1; all are sent in the next step. -/
example : (match run [1, 2] (State.new 0 plain) (connect.map fun x => outs x.1 x.2) with
    | .ok s => match s.step [1, 2] (outs [.write (2, 80) 5, .write (2, 80) 6] [.write (1, 8192) 7]) with
      | .ok s' => decide (s.opts.fallible = false ∧ s.wrote = [] ∧ s'.wrote = [(2, 1, 5), (2, 1, 6), (1, 2, 7)])
      | .error _ => false
    | .error _ => false) = true := by decide +kernel

/-- The hypotheses of `C144_reliable_partial` are met: node 1 is connected to node 2. -/
example : ∃ s, Reach (fun _ => True) s ∧ decide (s.opts.fallible = false ∧ up s.told 1 2 = true ∧ up s.told 2 1 = true) = true :=
  of_outs (t := 0) (o := plain) connect _ (by decide) (by decide +kernel)

/-- The hypotheses of `C144_failed_partial` are met, in both directions: the link between nodes 1 and 2 fails when the simulation begins. -/
example : let s := State.new 0 ⟨(1, 5), true⟩
    let c : Choice := ⟨fun _ _ => 0, fun _ _ => true, fun _ => [], []⟩
    s.opts.fallible = true ∧ s.time / 1000 % 10 = 0 ∧ c.fails (min 1 2) (max 1 2) = true ∧ c.fails (min 2 1) (max 2 1) = true := by decide

end Scenarios

end Verif.Sim
