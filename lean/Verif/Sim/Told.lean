import Verif.Sim.Props

/-!
# Simulations: wake-ups (C145), connections (C147), latencies (C148)
-/

set_option autoImplicit false

namespace Verif.Sim

/-! ## Wake-ups -/

/-- Node `m` was woken at time `t` or later, or will be. -/
def State.Wakes (s : State) (m t : Nat) : Prop := (∃ k, t ≤ k ∧ (k, m, Input.wake) ∈ s.told) ∨ ∃ x ∈ s.inbox, x.2.node = m ∧ x.2.input = .wake ∧ t ≤ x.1

/-- All entries are kept by a schedule, wake-ups are added only for nodes that asked. -/
theorem schedule_keeps {s s' : State} {node : Nat} {o : Out} {r : Rand} (h : Inv s) (e : s.schedule node o r = .ok s') :
    (∀ x ∈ s.inbox, x ∈ s'.inbox) ∧ (∀ y ∈ s.asked, y ∈ s'.asked) ∧
    ∀ x ∈ s'.inbox, x.2.input = .wake → x ∈ s.inbox ∨ ∃ u ≤ x.1, (x.2.node, u) ∈ s'.asked := by
  cases schedule_cases e with
  | none _ hi _ ha => rw [hi, ha]; exact ⟨fun _ h => h, fun _ h => h, fun _ h _ => .inl h⟩
  | clash d x _ _ _ _ hi _ ha => rw [hi, ha]; exact ⟨fun _ h => h, fun _ h => List.mem_append_left _ h, fun _ h _ => .inl h⟩
  | message to m port _ _ hi _ ha =>
    rw [hi, ha]
    refine ⟨fun _ h => mem_insert.2 (.inr h), fun _ h => h, ?_⟩
    intro x hx hw
    rcases mem_insert.1 hx with rfl | hx
    · cases hw
    · exact .inl hx
  | timer d _ hi _ ha =>
    rw [hi, ha]
    refine ⟨fun _ h => mem_insert.2 (.inr h), fun _ h => List.mem_append_left _ h, ?_⟩
    intro x hx hw
    rcases mem_insert.1 hx with rfl | hx
    · exact .inr ⟨_, le_free _ _, List.mem_append_right _ (List.mem_singleton.2 rfl)⟩
    · exact .inl hx
  | other xs _ hxs hi _ ha =>
    rw [hi, ha]
    obtain ⟨_, h2, h3⟩ := inserts_inv h.sorted xs
    refine ⟨h3, fun _ h => h, ?_⟩
    intro x hx hw
    rcases h2 x hx with hx | ⟨y, hy, e, _⟩
    · exact .inl hx
    · rw [e] at hw; exact absurd hw (hxs y hy).2.1

/-- Wake-ups that come or came were asked for, for that time or earlier. -/
structure Asked (s : State) : Prop where
  inbox : ∀ x ∈ s.inbox, x.2.input = .wake → ∃ u ≤ x.1, (x.2.node, u) ∈ s.asked
  told : ∀ k m, (k, m, Input.wake) ∈ s.told → ∃ u ≤ k, (m, u) ∈ s.asked

theorem asked_schedule {s s' : State} {node : Nat} {o : Out} {r : Rand} (hI : Inv s) (h : Asked s) (e : s.schedule node o r = .ok s') : Asked s' := by
  obtain ⟨_, h2, h3⟩ := schedule_keeps hI e
  refine ⟨?_, ?_⟩
  · intro x hx hw
    rcases h3 x hx hw with hx | h
    · obtain ⟨u, hu, ha⟩ := h.inbox x hx hw
      exact ⟨u, hu, h2 _ ha⟩
    · exact h
  · rw [(schedule_same e).2.1]
    intro k m hm
    obtain ⟨u, hu, ha⟩ := h.told k m hm
    exact ⟨u, hu, h2 _ ha⟩

theorem asked_next {s s' : State} {t : Nat} {x : Sched} {l : List Sched} (hI : Inv s) (h : Asked s) (hd : s.due = some (t, x, l))
    (e : (s.pop t l).give x.node x.input = .ok s') : Asked s' := by
  obtain ⟨h1, _, h3, _, h5, _, _, h8⟩ := give_same e
  refine ⟨?_, ?_⟩
  · rw [h1, h5]
    exact fun y hy => h.inbox y (mem_remove.1 hy).1
  · rw [h5]
    intro k m hm
    rcases h8 with h8 | h8 <;> rw [h8] at hm
    · exact h.told k m hm
    · rcases List.mem_append.1 hm with hm | hm
      · exact h.told k m hm
      · rw [List.mem_singleton] at hm
        injection hm with e1 e2; injection e2 with e2 e3
        rcases due_cases hd with ⟨hp, _⟩ | ⟨_, _, rest, hi⟩
        · obtain ⟨a, k', hx⟩ := hI.prio x (by rw [hp]; exact List.mem_cons_self ..)
          rw [hx] at e3; cases e3
        · obtain ⟨u, hu, ha⟩ := h.inbox (t, x) (by rw [hi]; exact List.mem_cons_self ..) e3.symm
          exact ⟨u, by rw [e1]; exact hu, by rw [e2]; exact ha⟩

/-- **C145** No node is woken without having asked: a wake-up comes at a time the node asked for, or later. -/
theorem C145_only {P : Out → Prop} {s : State} (h : Reach P s) {k m : Nat} (hm : (k, m, Input.wake) ∈ s.told) : ∃ u ≤ k, (m, u) ∈ s.asked := by
  refine (reach_inv (P := P) (I := fun s => Inv s ∧ Asked s) ?_ ?_ ?_ ?_ ?_ h).1.2.told k m hm
  · exact fun t o => ⟨inv_new t o, by simp [State.new], by simp [State.new]⟩
  · rintro s nodes c ⟨h1, h2⟩
    refine ⟨inv_configure nodes c h1, ?_⟩
    unfold State.configure; split
    · exact ⟨h2.inbox, h2.told⟩
    · exact h2
  · rintro s nodes c ⟨h1, h2⟩
    refine ⟨inv_partition nodes c h1, ?_⟩
    unfold State.partition; split
    · exact ⟨h2.inbox, h2.told⟩
    · exact h2
  · exact fun s s' node o r _ h e => ⟨inv_schedule h.1 e, asked_schedule h.1 h.2 e⟩
  · exact fun s s' t x l h hd _ e => ⟨inv_give (inv_pop h.1 hd) e, asked_next h.1 h.2 hd e⟩

theorem wakes_next {s s' : State} {t : Nat} {x : Sched} {l : List Sched} (hI : Inv s) (hlt : ∀ x ∈ s.inbox, s.time < x.1) (hd : s.due = some (t, x, l))
    (e : (s.pop t l).give x.node x.input = .ok s') {m u : Nat} (h : s.Wakes m u) : s'.Wakes m u := by
  obtain ⟨h1, _, h3, _, _, _, _, h8⟩ := give_same e
  rcases h with ⟨k, hk, hm⟩ | ⟨y, hy, hn, hw, hle⟩
  · refine .inl ⟨k, hk, ?_⟩
    rcases h8 with h8 | h8 <;> rw [h8]
    · exact hm
    · exact List.mem_append_left _ hm
  · by_cases hyt : y.1 = t
    · rcases due_cases hd with ⟨_, rfl⟩ | ⟨_, _, rest, hi⟩
      · have := hlt y hy; omega
      · have hs := hI.sorted
        rw [hi] at hs hy
        rcases List.mem_cons.1 hy with rfl | hy
        · refine .inl ⟨t, hle, ?_⟩
          simp only at hw hn
          rw [hw] at e
          injection e with e; subst e
          simp [State.tell, State.pop, hn]
        · have := (List.pairwise_cons.1 hs).1 y hy
          simp only at this; omega
    · refine .inr ⟨y, ?_, hn, hw, hle⟩
      rw [h1]
      exact mem_remove.2 ⟨hy, hyt⟩

/-- **C145** (partial) If no latency is zero, and no node asks to be woken at once, then for each wake-up that a node asks for, some node that asked for one was woken at that time or
later, or will be.  Missing: that it is this node; see `C145_counterexample`. -/
theorem C145_someone_partial {s : State} (h : Reach (· ≠ .timer 0) s) (hp : s.opts.Positive) {n t : Nat} (ha : (n, t) ∈ s.asked) :
    ∃ m, s.Wakes m t ∧ ∃ u, (m, u) ∈ s.asked := by
  refine (reach_inv (P := (· ≠ .timer 0)) (I := fun s => Strict s ∧ Asked s ∧
    (s.opts.Positive → ∀ n t, (n, t) ∈ s.asked → ∃ m, s.Wakes m t ∧ ∃ u, (m, u) ∈ s.asked)) ?_ ?_ ?_ ?_ ?_ h).1.2.2 hp n t ha
  · exact fun t o => ⟨strict_new t o, ⟨by simp [State.new], by simp [State.new]⟩, by simp [State.new]⟩
  · rintro s nodes c ⟨h1, h2, h3⟩
    refine ⟨strict_configure nodes c h1, ?_⟩
    unfold State.configure; split
    · exact ⟨⟨h2.inbox, h2.told⟩, h3⟩
    · exact ⟨h2, h3⟩
  · rintro s nodes c ⟨h1, h2, h3⟩
    refine ⟨strict_partition nodes c h1, ?_⟩
    unfold State.partition; split
    · exact ⟨⟨h2.inbox, h2.told⟩, h3⟩
    · exact ⟨h2, h3⟩
  · rintro s s' node o r ho ⟨h1, h2, h3⟩ e
    refine ⟨strict_schedule ho h1 e, asked_schedule h1.inv h2 e, ?_⟩
    rw [(schedule_same e).2.2.1]
    intro hp n t hm
    obtain ⟨k1, k2, k3⟩ := schedule_keeps h1.inv e
    have old : (n, t) ∈ s.asked → ∃ m, s'.Wakes m t ∧ ∃ u, (m, u) ∈ s'.asked := by
      intro hm
      obtain ⟨m, hw, u, hu⟩ := h3 hp n t hm
      refine ⟨m, ?_, u, k2 _ hu⟩
      rcases hw with ⟨k, hk, hm⟩ | ⟨y, hy, hrest⟩
      · exact .inl ⟨k, hk, by rw [(schedule_same e).2.1]; exact hm⟩
      · exact .inr ⟨y, k1 y hy, hrest⟩
    have own : ∀ x ∈ s'.inbox, x.2.input = .wake → t ≤ x.1 → ∃ m, s'.Wakes m t ∧ ∃ u, (m, u) ∈ s'.asked := by
      intro x hx hw hle
      obtain ⟨u, _, hu⟩ := (asked_schedule h1.inv h2 e).inbox x hx hw
      exact ⟨x.2.node, .inr ⟨x, hx, rfl, hw, hle⟩, u, hu⟩
    cases schedule_cases e with
    | none _ _ _ ha => rw [ha] at hm; exact old hm
    | message _ _ _ _ _ _ _ ha => rw [ha] at hm; exact old hm
    | other _ _ _ _ _ ha => rw [ha] at hm; exact old hm
    | timer d _ hi _ ha =>
      rw [ha] at hm
      rcases List.mem_append.1 hm with hm | hm
      · exact old hm
      · rw [List.mem_singleton] at hm
        injection hm with e1 e2
        refine own (free s.inbox (s.time + d), ⟨node, (0, 0), .wake⟩) (by rw [hi]; exact mem_insert.2 (.inl rfl)) rfl ?_
        rw [e2]; exact le_free _ _
    | clash d x _ hx hk hw hi _ ha =>
      rw [ha] at hm
      rcases List.mem_append.1 hm with hm | hm
      · exact old hm
      · rw [List.mem_singleton] at hm
        injection hm with e1 e2
        exact own x (by rw [hi]; exact hx) hw (by omega)
  · rintro s s' t x l ⟨h1, h2, h3⟩ hd _ e
    refine ⟨strict_next h1 hd e, asked_next h1.inv h2 hd e, ?_⟩
    obtain ⟨_, _, _, _, h5, _, h7, _⟩ := give_same e
    rw [h7, h5]
    intro hp n u hm
    obtain ⟨m, hw, v, hv⟩ := h3 hp n u hm
    exact ⟨m, wakes_next h1.inv (h1.later hp) hd e hw, v, hv⟩

/-- **C145** (partial) So if only one node uses timers, each wake-up it asks for comes, at that time or later. -/
theorem C145_alone_partial {s : State} (h : Reach (· ≠ .timer 0) s) (hp : s.opts.Positive) {n t : Nat} (ha : (n, t) ∈ s.asked) (hn : ∀ m u, (m, u) ∈ s.asked → m = n) :
    s.Wakes n t := by
  obtain ⟨m, hw, u, hu⟩ := C145_someone_partial h hp ha
  rw [hn m u hu] at hw
  exact hw

/-! ## Connections -/

/-- Whether node `n` is connected to node `k`, by what it was told. -/
def up (told : List (Nat × Nat × Input)) (n k : Nat) : Bool :=
  told.foldl (fun b x => match x.2.2 with
    | .connected a _ _ => if x.2.1 = n ∧ a.1 = k then true else b
    | .disconnected a _ => if x.2.1 = n ∧ a.1 = k then false else b
    | _ => b) false

/-- Whether node `n` was told of an attempt to connect to node `k`, and of no disconnect since. -/
def tried (told : List (Nat × Nat × Input)) (n k : Nat) : Bool :=
  told.foldl (fun b x => match x.2.2 with
    | .connecting a => if x.2.1 = n ∧ a.1 = k then true else b
    | .disconnected a _ => if x.2.1 = n ∧ a.1 = k then false else b
    | _ => b) false

/-- What may be told after what was told before, as to connections. -/
def Fits (told : List (Nat × Nat × Input)) (x : Nat × Nat × Input) : Prop :=
  match x.2.2 with
  | .connected a _ _ => up told x.2.1 a.1 = false
  | .disconnected a _ => up told x.2.1 a.1 = true ∨ tried told x.2.1 a.1 = true
  | _ => True

/-- Everything that was told fits what was told before it. -/
inductive Fitting : List (Nat × Nat × Input) → Prop
  | nil : Fitting []
  | snoc {l : List (Nat × Nat × Input)} {x : Nat × Nat × Input} (h : Fitting l) (hx : Fits l x) : Fitting (l ++ [x])

theorem Fitting.split {l : List (Nat × Nat × Input)} (h : Fitting l) : ∀ {pre post : List (Nat × Nat × Input)} {x : Nat × Nat × Input}, l = pre ++ x :: post → Fits pre x := by
  induction h with
  | nil => intro pre post x e; simp at e
  | @snoc l y h hy ih =>
    intro pre post x e
    rcases List.eq_nil_or_concat post with rfl | ⟨post', z, rfl⟩
    · have := List.append_inj' e (by simp)
      obtain ⟨e1, e2⟩ := this
      injection e2 with e2
      subst e1 e2; exact hy
    · rw [List.concat_eq_append, ← List.cons_append, ← List.append_assoc] at e
      exact ih (List.append_inj' e (by simp)).1

theorem set_apply {α : Type} (f : Nat → Nat → α) (a b : Nat) (v : α) (c d : Nat) : set f a b v c d = if c = a ∧ d = b then v else f c d := by
  unfold set
  by_cases h1 : c = a
  · subst h1
    by_cases h2 : d = b
    · subst h2; simp
    · simp [h2]
  · simp [h1]

/-- The simulator knows which connections it told of. -/
structure Conns (s : State) : Prop where
  up : ∀ n k, (s.connections n k).isSome = up s.told n k
  tried : ∀ n k, s.attempts n k = true → tried s.told n k = true
  fits : Fitting s.told

theorem up_snoc (l : List (Nat × Nat × Input)) (t m : Nat) (i : Input) (n k : Nat) : up (l ++ [(t, m, i)]) n k =
    match i with | .connected a _ _ => if m = n ∧ a.1 = k then true else up l n k | .disconnected a _ => if m = n ∧ a.1 = k then false else up l n k | _ => up l n k := by
  unfold up; rw [List.foldl_append]; rfl

theorem tried_snoc (l : List (Nat × Nat × Input)) (t m : Nat) (i : Input) (n k : Nat) : tried (l ++ [(t, m, i)]) n k =
    match i with | .connecting a => if m = n ∧ a.1 = k then true else tried l n k | .disconnected a _ => if m = n ∧ a.1 = k then false else tried l n k | _ => tried l n k := by
  unfold tried; rw [List.foldl_append]; rfl

theorem conns_link {s : State} {n : Nat} {a loc : Addr} {b : Bool} (h : Conns s) : Conns (s.link n a loc (.connected a loc b)) := by
  unfold State.link
  split
  · rename_i hk
    refine ⟨?_, h.tried, h.fits⟩
    intro m k
    simp only [set_apply]
    split
    · rename_i hc; rw [hc.1, hc.2, ← h.up, hk]; rfl
    · exact h.up m k
  · rename_i hk
    refine ⟨?_, ?_, .snoc h.fits ?_⟩
    · intro m k
      simp only [State.tell, set_apply, up_snoc]
      by_cases hc : m = n ∧ k = a.1
      · rw [if_pos hc, if_pos ⟨hc.1.symm, hc.2.symm⟩]; rfl
      · rw [if_neg hc, if_neg (fun h => hc ⟨h.1.symm, h.2.symm⟩)]; exact h.up m k
    · intro m k hm
      simp only [State.tell, tried_snoc]
      exact h.tried m k hm
    · show up s.told n a.1 = false
      rw [← h.up]; simpa using hk

theorem conns_give {s s' : State} {n : Nat} {i : Input} (h : Conns s) (e : s.give n i = .ok s') : Conns s' := by
  cases i with
  | connecting a =>
    simp only [State.give] at e
    split at e <;> (injection e with e; subst e)
    · exact h
    · refine ⟨?_, ?_, .snoc h.fits trivial⟩
      · intro m k; simp only [State.tell, up_snoc]; exact h.up m k
      · intro m k hm
        simp only [State.tell, set_apply, tried_snoc] at hm ⊢
        split
        · rfl
        · rename_i hc
          rw [if_neg (fun h => hc ⟨h.1.symm, h.2.symm⟩)] at hm
          exact h.tried m k hm
  | connected a loc b =>
    simp only [State.give] at e
    split at e
    · injection e with e; subst e; exact conns_link h
    · split at e <;> (injection e with e; subst e)
      · refine conns_link ⟨h.up, ?_, h.fits⟩
        intro m k hm
        simp only [set_apply] at hm
        split at hm
        · cases hm
        · exact h.tried m k hm
      · exact h
  | disconnected a r =>
    simp only [State.give] at e
    split at e
    · cases e
    · injection e with e; subst e
      split
      · rename_i hor
        refine ⟨?_, ?_, .snoc h.fits ?_⟩
        · intro m k
          simp only [State.tell, set_apply, up_snoc]
          by_cases hc : m = n ∧ k = a.1
          · rw [if_pos hc, if_pos ⟨hc.1.symm, hc.2.symm⟩]; rfl
          · rw [if_neg hc, if_neg (fun h => hc ⟨h.1.symm, h.2.symm⟩)]; exact h.up m k
        · intro m k hm
          simp only [State.tell, set_apply, tried_snoc] at hm ⊢
          by_cases hc : m = n ∧ k = a.1
          · rw [if_pos hc] at hm; cases hm
          · rw [if_neg hc] at hm
            rw [if_neg (fun h => hc ⟨h.1.symm, h.2.symm⟩)]; exact h.tried m k hm
        · show up s.told n a.1 = true ∨ tried s.told n a.1 = true
          rw [← h.up]
          rcases Bool.or_eq_true _ _ ▸ hor with ha | hc
          · exact .inr (h.tried _ _ ha)
          · exact .inl hc
      · rename_i hor
        refine ⟨?_, ?_, h.fits⟩
        · intro m k
          simp only [set_apply]
          split
          · rename_i hc; rw [hc.1, hc.2, ← h.up]; simp_all
          · exact h.up m k
        · intro m k hm
          simp only [set_apply] at hm
          split at hm
          · cases hm
          · exact h.tried m k hm
  | received a m =>
    injection e with e; subst e
    refine ⟨?_, ?_, .snoc h.fits trivial⟩
    · intro m k; simp only [State.tell, up_snoc]; exact h.up m k
    · intro m k hm; simp only [State.tell, tried_snoc]; exact h.tried m k hm
  | wake =>
    injection e with e; subst e
    refine ⟨?_, ?_, .snoc h.fits trivial⟩
    · intro m k; simp only [State.tell, up_snoc]; exact h.up m k
    · intro m k hm; simp only [State.tell, tried_snoc]; exact h.tried m k hm

theorem reach_conns {P : Out → Prop} {s : State} (h : Reach P s) : Conns s := by
  refine (reach_inv (P := P) (I := Conns) ?_ ?_ ?_ ?_ ?_ h).1
  · exact fun t o => ⟨fun _ _ => rfl, by simp [State.new], .nil⟩
  · intro s nodes c h
    unfold State.configure; split
    · exact ⟨h.up, h.tried, h.fits⟩
    · exact h
  · intro s nodes c h
    unfold State.partition; split
    · exact ⟨h.up, h.tried, h.fits⟩
    · exact h
  · intro s s' node o r _ h e
    obtain ⟨_, h2, _, _, h5, h6, _⟩ := schedule_same e
    exact ⟨by rw [h5, h2]; exact h.up, by rw [h6, h2]; exact h.tried, by rw [h2]; exact h.fits⟩
  · intro s s' t x l h _ _ e
    exact conns_give (s := s.pop t l) ⟨h.up, h.tried, h.fits⟩ e

/-- **C147** (partial) A node is told that it is connected to another only if it was not connected before.  Missing: that it hears from nodes only while it is connected to them; see
`C147_counterexample`. -/
theorem C147_connected_partial {P : Out → Prop} {s : State} (h : Reach P s) {pre post : List (Nat × Nat × Input)} {t n : Nat} {a loc : Addr} {b : Bool}
    (e : s.told = pre ++ (t, n, .connected a loc b) :: post) : up pre n a.1 = false :=
  (reach_conns h).fits.split e

/-- **C147** (partial) A node is told that it is disconnected from another only if it was connected, or told of an attempt to connect. -/
theorem C147_disconnected_partial {P : Out → Prop} {s : State} (h : Reach P s) {pre post : List (Nat × Nat × Input)} {t n r : Nat} {a : Addr}
    (e : s.told = pre ++ (t, n, .disconnected a r) :: post) : up pre n a.1 = true ∨ tried pre n a.1 = true :=
  (reach_conns h).fits.split e

/-- **C144** (partial) What counts as sent: each message that a node puts out for a node it was told to be connected to, unless the two are partitioned. -/
theorem C144_sent_partial {P : Out → Prop} {s : State} (h : Reach P s) {node : Nat} {to : Addr} (m : Nat) (r : Rand) (hu : up s.told node to.1 = true)
    (hp : s.partitioned node to.1 = false) : ∃ s' port, s.schedule node (.write to m) r = .ok s' ∧ s'.sent = s.sent ++ [(to.1, (node, port), m)] := by
  have hc := (reach_conns h).up node to.1
  rw [hu] at hc
  obtain ⟨port, hport⟩ := Option.isSome_iff_exists.1 hc
  cases e : s.schedule node (.write to m) r with
  | error p => simp [State.schedule, hport, hp] at e
  | ok s' =>
    simp only [State.schedule, hport, hp] at e
    injection e with e; subst e
    exact ⟨_, port, rfl, rfl⟩

/-! ## Latencies -/

/-- **C148** (partial) The latency between nodes that is drawn first is in the range of the options and the same in both directions, and the one of each message is between half and
twice that, if it is more than a millisecond. -/
theorem C148_range_partial {P : Out → Prop} {s : State} (h : Reach P s) {a b l : Nat} (e : s.latencies a b = some l) :
    s.opts.latency.1 * 1000 ≤ l ∧ l < s.opts.latency.2 * 1000 ∧ s.latencies b a = some l ∧
    (1 < l → ∀ r, l < 2 * s.latency a b r ∧ s.latency a b r < 2 * l) := by
  have hl := (reach_lat h).1
  refine ⟨(hl.range a b l e).1, (hl.range a b l e).2, by rw [← hl.symm, e], ?_⟩
  intro h1 r
  have m1 := Nat.mod_lt r.n (show 0 < l by omega)
  have m2 := Nat.mod_lt r.n (show 0 < l / 2 by omega)
  have hr : s.latency a b r = if r.more then l + r.n % l else l - r.n % (l / 2) := by
    simp only [State.latency, e, minLatency]
    exact if_neg (by omega)
  rw [hr]
  split <;> omega

/-- **C148** (partial) No latency is zero if the range of the options does not begin at zero.  Missing: ranges that do; see `C148_counterexample`. -/
theorem C148_positive_partial {P : Out → Prop} {s : State} (h : Reach P s) (hp : s.opts.latency.1 < s.opts.latency.2 → 1 ≤ s.opts.latency.1) (a b : Nat) (r : Rand) :
    1 ≤ s.latency a b r := latency_pos (reach_lat h).1 hp a b r

end Verif.Sim
