import Verif.Sim.Told

/-!
# Simulations: cases that meet the hypotheses, and counterexamples
-/

set_option autoImplicit false

namespace Verif.Sim

/-- Several steps, each with its choices. -/
def run (nodes : List Nat) (s : State) : List Choice → Except Panic State
  | [] => .ok s
  | c :: l => match s.step nodes c with
    | .ok s => run nodes s l
    | .error p => .error p

theorem reach_run {P : Out → Prop} {nodes : List Nat} : ∀ (l : List Choice) {s s' : State}, Reach P s →
    (∀ c ∈ l, (∀ n, ∀ x ∈ c.before n, P x.1) ∧ ∀ x ∈ c.after, P x.1) → run nodes s l = .ok s' → Reach P s'
  | [], _, _, h, _, e => by injection e with e; subst e; exact h
  | c :: l, s, s', h, hp, e => by
    unfold run at e
    split at e
    · rename_i s1 h1
      exact reach_run l (.step nodes c h (hp c (List.mem_cons_self ..)).1 (hp c (List.mem_cons_self ..)).2 h1) (fun c hc => hp c (List.mem_cons_of_mem _ hc)) e
    · cases e

/-- A state that is reached and in which `q` holds. -/
theorem of_run {P : Out → Prop} {nodes : List Nat} {t : Nat} {o : Opts} (l : List Choice) (q : State → Bool)
    (hp : ∀ c ∈ l, (∀ n, ∀ x ∈ c.before n, P x.1) ∧ ∀ x ∈ c.after, P x.1)
    (h : (match run nodes (State.new t o) l with | .ok s => q s | .error _ => false) = true) : ∃ s, Reach P s ∧ q s = true := by
  split at h
  · rename_i s hs
    exact ⟨s, reach_run l (.new t o) hp hs, h⟩
  · cases h

namespace Scenarios

def rand : Rand := ⟨false, 0, 0, false⟩

/-- What node 1 and node 2 put out before a step; nothing fails, all latencies are drawn as the smallest of the range. -/
def outs (a b : List Out) : Choice :=
  ⟨fun _ _ => 0, fun _ _ => false, fun n => if n = 1 then a.map (·, rand) else if n = 2 then b.map (·, rand) else [], []⟩

theorem outs_all {P : Out → Prop} : ∀ l : List (List Out × List Out), (∀ x ∈ l, (∀ o ∈ x.1, P o) ∧ ∀ o ∈ x.2, P o) →
    ∀ c ∈ l.map (fun x => outs x.1 x.2), (∀ n, ∀ x ∈ c.before n, P x.1) ∧ ∀ x ∈ c.after, P x.1 := by
  intro l h c hc
  obtain ⟨x, hx, rfl⟩ := List.mem_map.1 hc
  refine ⟨?_, by simp [outs]⟩
  intro n y hy
  simp only [outs] at hy
  split at hy
  · obtain ⟨o, ho, rfl⟩ := List.mem_map.1 hy; exact (h x hx).1 o ho
  · split at hy
    · obtain ⟨o, ho, rfl⟩ := List.mem_map.1 hy; exact (h x hx).2 o ho
    · simp at hy

/-- `of_run` for two nodes, with the outputs of each step. -/
theorem of_outs {P : Out → Prop} {t : Nat} {o : Opts} (l : List (List Out × List Out)) (q : State → Bool) (hp : ∀ x ∈ l, (∀ o ∈ x.1, P o) ∧ ∀ o ∈ x.2, P o)
    (h : (match run [1, 2] (State.new t o) (l.map fun x => outs x.1 x.2) with | .ok s => q s | .error _ => false) = true) : ∃ s, Reach P s ∧ q s = true :=
  of_run _ q (outs_all l hp) h

instance (o : Opts) : Decidable o.Positive := by unfold Opts.Positive; infer_instance

/-- Node 1 connects to node 2. -/
def connect : List (List Out × List Out) := [([.connect (2, 80)], []), ([], []), ([], [])]

/-- The options that are the default: no range of latencies, no failures (net/src/simulator.rs:156-163). -/
def plain : Opts := ⟨(0, 0), false⟩

/-- Latencies of up to a second. -/
def short : Opts := ⟨(0, 1), false⟩

/-- Two messages each way, given in order; then node 1 disconnects.  Between, node 1 is woken. -/
def talk : List (List Out × List Out) := connect ++
  [([.write (2, 80) 5, .write (2, 80) 6, .timer 1], [.write (1, 8192) 7]), ([], []), ([], []), ([], []), ([], []), ([.disconnect (2, 80) 3], []), ([], [])]

/-- The hypotheses of `C144_done_partial`, `C145_alone_partial` and `C147` are met: messages arrive, a wake-up comes, nodes are told that they are connected and disconnected. -/
example : ∃ s, Reach (· ≠ .timer 0) s ∧ decide (s.inbox = [] ∧ s.got 2 (1, 8192) = [5, 6] ∧ s.sentTo 2 (1, 8192) = [5, 6] ∧ s.got 1 (2, 80) = [7] ∧ s.asked = [(1, 4)] ∧
    s.told.map (·.2) = [(1, .connecting (2, 80)), (2, .connected (1, 8192) (2, 80) true), (1, .connected (2, 80) (1, 8192) false), (2, .received (1, 8192) 5), (2, .received (1, 8192) 6),
      (1, .wake), (1, .received (2, 80) 7), (1, .disconnected (2, 80) 3), (2, .disconnected (1, 8192) 0)] ∧ up s.told 1 2 = false ∧ s.opts = plain) = true :=
  of_outs (t := 0) (o := plain) talk _ (by decide) (by decide +kernel)

/-- The options are `Positive`, by default and with latencies of one to five seconds; not with those of up to a second. -/
example : plain.Positive ∧ Opts.Positive ⟨(1, 5), true⟩ ∧ ¬ short.Positive := by decide

/-- **C144** A message can be lost, though no node is disconnected from a node it was connected to: node 2 sends to node 1 with a latency of zero, and in the same step node 1 asks to be
disconnected from a node it is not connected to.  What is then taken out of the inbox is not the disconnect, which was not in there, but the message (line 358). -/
theorem C144_lost_counterexample : ∃ s, Reach (fun _ => True) s ∧ s.inbox = [] ∧ s.priority = [] ∧ s.sentTo 1 (2, 80) = [7] ∧ s.got 1 (2, 80) = [] ∧
    up s.told 1 2 = true ∧ up s.told 2 1 = true := by
  obtain ⟨s, h, hq⟩ := of_outs (P := fun _ => True) (t := 0) (o := short) (connect ++ [([.disconnect (9, 9) 3], [.write (1, 8192) 7])])
    (fun s => decide (s.inbox = [] ∧ s.priority = [] ∧ s.sentTo 1 (2, 80) = [7] ∧ s.got 1 (2, 80) = [] ∧ up s.told 1 2 = true ∧ up s.told 2 1 = true))
    (by simp) (by decide +kernel)
  exact ⟨s, h, of_decide_eq_true hq⟩

/-- **C145** Two nodes ask to be woken at the same time: one is, the other never, with the options that are the default. -/
theorem C145_counterexample : ∃ s, Reach (· ≠ .timer 0) s ∧ s.opts.Positive ∧ s.asked = [(1, 5), (2, 5)] ∧ s.inbox = [] ∧ s.told = [(5, 1, .wake)] ∧ ¬ s.Wakes 2 5 := by
  obtain ⟨s, h, hq⟩ := of_outs (P := (· ≠ .timer 0)) (t := 0) (o := plain) ([([.timer 5], [.timer 5])] : List (List Out × List Out))
    (fun s => decide (s.opts.Positive ∧ s.asked = [(1, 5), (2, 5)] ∧ s.inbox = [] ∧ s.told = [(5, 1, .wake)])) (by decide) (by decide +kernel)
  obtain ⟨h1, h2, h3, h4⟩ := of_decide_eq_true hq
  refine ⟨s, h, h1, h2, h3, h4, ?_⟩
  rintro (⟨k, _, hk⟩ | ⟨x, hx, _⟩)
  · rw [h4] at hk; simp at hk
  · rw [h3] at hx; cases hx

/-- **C146** Two nodes connect to each other, and one then disconnects: an assertion of the simulator fails (line 391). -/
theorem C146_both_counterexample : ∃ s, Reach (· ≠ .timer 0) s ∧ ∃ c, s.step [1, 2] c = .error .both := by
  obtain ⟨s, h, hq⟩ := of_outs (P := (· ≠ .timer 0)) (t := 0) (o := plain)
    ([([.connect (2, 80)], [.connect (1, 80)]), ([], []), ([], []), ([], [])] : List (List Out × List Out))
    (fun s => match s.step [1, 2] (outs [] [.disconnect (1, 8192) 3]) with | .error .both => true | _ => false) (by decide) (by decide +kernel)
  refine ⟨s, h, outs [] [.disconnect (1, 8192) 3], ?_⟩
  split at hq
  · assumption
  · cases hq

/-- **C147** Node 1 disconnects from node 2, which sends a message in the same step: node 1 is given the message after it was told that it is disconnected. -/
theorem C147_counterexample : ∃ s, Reach (· ≠ .timer 0) s ∧ ∃ pre, s.told = pre ++ [(5, 1, .received (2, 80) 7)] ∧ up pre 1 2 = false ∧ (3, 1, .disconnected (2, 80) 3) ∈ pre := by
  obtain ⟨s, h, hq⟩ := of_outs (P := (· ≠ .timer 0)) (t := 0) (o := plain)
    (connect ++ [([.disconnect (2, 80) 3], [.write (1, 8192) 7]), ([], []), ([], [])])
    (fun s => decide (s.told = s.told.dropLast ++ [(5, 1, .received (2, 80) 7)] ∧ up s.told.dropLast 1 2 = false ∧ (3, 1, .disconnected (2, 80) 3) ∈ s.told.dropLast))
    (by decide) (by decide +kernel)
  exact ⟨s, h, _, of_decide_eq_true hq⟩

/-- **C148** The least latency is said to be a millisecond; it is zero if the range of the options begins at zero and zero is drawn. -/
theorem C148_counterexample : ∃ s, Reach (fun _ => True) s ∧ s.latencies 1 2 = some 0 ∧ ∀ r, s.latency 1 2 r = 0 := by
  obtain ⟨s, h, hq⟩ := of_outs (P := fun _ => True) (t := 0) (o := short) [([], [])] (fun s => decide (s.latencies 1 2 = some 0)) (by simp) (by decide +kernel)
  have hl := of_decide_eq_true hq
  exact ⟨s, h, hl, fun r => by simp [State.latency, hl]⟩

/-- The hypotheses of `C148_range_partial` are met, with the latency more than a millisecond. -/
example : ∃ s, Reach (fun _ => True) s ∧ decide (s.latencies 1 2 = some 1000 ∧ s.latencies 2 1 = some 1000) = true :=
  of_outs (t := 0) (o := ⟨(1, 5), false⟩) [([], [])] _ (by simp) (by decide +kernel)

end Scenarios
end Verif.Sim
