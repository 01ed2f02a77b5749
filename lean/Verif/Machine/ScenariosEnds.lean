import Verif.Machine.Scenarios
import Verif.Machine.PropsEnds

/-!
# The processing of outputs: a concrete execution
-/

set_option autoImplicit false

namespace Verif.Machine.Scenario
open Verif.Addr (Sock)
open Verif.Peer.Scenario (a b loc)
open Verif.Node.Crash (U)

/-- The user asks for a connection, and outputs are processed. -/
def asking : List Act := List.replicate 30 .out ++ [.poll, .input (.connect a), .process]

/-- The outputs taken on the way, most recent first. -/
def takes : Nat → List Out → Sys → Option (List Out × Sys)
  | 0, l, y => some (l, y)
  | n + 1, l, y =>
    match y.s.head, y.polling, act y .out with
    | some o, false, some y' => takes n (o :: l) y'
    | _, _, _ => none

theorem out_step {y y' : Sys} {o : Out} (h : act y .out = some y') (ho : y.s.head = some o) : Sys.Step conf U false y y' := by
  simp only [act] at h
  split at h
  · cases h
  rename_i hp
  simp only [Bool.not_eq_true] at hp
  simp only [ho] at h
  obtain ⟨s1, h1, h⟩ := Option.bind_eq_some_iff.1 h
  obtain ⟨l, hs⟩ := take_ok h1
  cases hd : o.dials with
  | some a =>
    simp only [hd] at h
    obtain ⟨s', h2, rfl⟩ := Option.map_eq_some_iff.1 h
    obtain ⟨l', hs'⟩ := take_ok h2
    exact .dialed env env hp ho hd l hs l' hs'
  | none =>
    simp only [hd] at h
    cases hc : o.closes conf with
    | none => simp only [hc, Option.some.injEq] at h; rw [← h]; exact .other env hp ho hd hc l hs
    | some ar =>
      obtain ⟨a, r⟩ := ar
      simp only [hc] at h
      split at h
      · rename_i hr
        obtain ⟨s', h2, rfl⟩ := Option.map_eq_some_iff.1 h
        obtain ⟨l', hs'⟩ := take_ok h2
        exact .disconnect env env hp ho hc hr l hs l' hs'
      · rename_i hr
        simp only [Option.some.injEq] at h; rw [← h]; exact .ignored env hp ho hc (by simpa using hr) l hs

theorem takes_stretch {y0 : Sys} : ∀ (n : Nat) {l l' : List Out} {y y' : Sys}, Sys.Stretch conf U false y0 l y → takes n l y = some (l', y') → Sys.Stretch conf U false y0 l' y'
  | 0, l, l', y, y', h, ht => by
    simp only [takes, Option.some.injEq, Prod.mk.injEq] at ht
    obtain ⟨rfl, rfl⟩ := ht
    exact h
  | n + 1, l, l', y, y', h, ht => by
    simp only [takes] at ht
    split at ht
    · rename_i o y1 ho hp ha
      exact takes_stretch n (.step h hp ho (out_step ha ho)) ht
    · cases ht

theorem asking_takes : ((after false asking).bind fun y => (takes 2 [] y).map fun x => (decide (.peer (.connect a) ∈ x.1), x.2.s.head.isNone, x.2.reg.contains a)) =
    some (true, true, true) := by decide +kernel

/-- C117: a round of processing in which the address is dialed and everything is processed. -/
example : ∃ y l y', Sys.Reach conf U false setup y ∧ y.polling = false ∧ Sys.Stretch conf U false y l y' ∧ .peer (.connect a) ∈ l ∧ y'.s.head = none ∧ y'.reg.contains a = true := by
  obtain ⟨y, h1, h2⟩ := Option.bind_eq_some_iff.1 asking_takes
  obtain ⟨⟨l, y'⟩, h3, h4⟩ := Option.map_eq_some_iff.1 h2
  simp only [Prod.mk.injEq, decide_eq_true_eq, Option.isNone_iff_eq_none] at h4
  refine ⟨y, l, y', after_reach h1, ?_, takes_stretch 2 .refl h3, h4⟩
  simp only [takes] at h3
  split at h3
  · assumption
  · cases h3

theorem asking_head : (after false asking).map (fun y => (y.polling, decide (y.s.head = some (.peer (.connect a))))) = some (false, true) := by decide +kernel

/-- The hypotheses of C117 about progress are met. -/
example : ∃ y, Function.Injective conf.id ∧ conf.peer.Release ∧ Legal U false env .next ∧ Sys.Reach conf U false setup y ∧ y.polling = false ∧
    y.s.head = some (.peer (.connect a)) ∧ ∀ j, nodeInput conf y.s .next = some j → ∃ n, y.s.node.step conf.node (env.at y.s.now) j = .ok n := by
  obtain ⟨y, h1, h2⟩ := Option.map_eq_some_iff.1 asking_head
  simp only [Prod.mk.injEq, decide_eq_true_eq] at h2
  refine ⟨y, number_injective, ⟨rfl, by decide⟩, legal rfl, after_reach h1, h2.1, h2.2, fun j hj => ?_⟩
  have hh := h2.2
  unfold State.head at hh
  cases hq : y.s.qPeer with
  | cons o q =>
    simp only [hq, Option.some.injEq, Out.peer.injEq] at hh
    subst hh
    simp [nodeInput, hq] at hj
  | nil =>
    simp only [hq] at hh
    split at hh
    · cases hn : nodeHead y.s.node <;> simp [hn] at hh
    · split at hh
      · simp at hh
      · split at hh
        · simp at hh
        · cases hn : nodeHead y.s.node <;> simp [hn] at hh

end Verif.Machine.Scenario
