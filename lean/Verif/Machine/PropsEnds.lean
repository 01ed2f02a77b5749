import Verif.Machine.Ends
import Verif.Machine.NoCrash
import Verif.Machine.ReactorInv
import Mathlib.Logic.Relation

/-!
# C117: the processing of outputs comes to an end
-/

set_option autoImplicit false

namespace Verif.Machine
open Verif.Addr (Sock)
open Verif.Chain (Header)
open Relation (ReflTransGen)

variable {cfg : Cfg} {U : Header → Prop} {fail : Bool} {z : Setup}

/-- Outputs are processed, one after the other; the list is what was taken, most recent first. -/
inductive Sys.Stretch (cfg : Cfg) (U : Header → Prop) (fail : Bool) : Sys → List Out → Sys → Prop where
  | refl {y : Sys} : Stretch cfg U fail y [] y
  | step {y y1 y2 : Sys} {l : List Out} {o : Out} (h : Stretch cfg U fail y l y1) (p : y1.polling = false) (ho : y1.s.head = some o) (hs : Sys.Step cfg U fail y1 y2) :
      Stretch cfg U fail y (o :: l) y2

/-- **C117.** The client does not process outputs for ever: whatever the outputs are, whatever the managers do about them, whichever connections succeed and fail and whatever
addresses are drawn, sooner or later it waits for new input. -/
theorem C117_ends (f : Nat → Sys) (p : ∀ n, (f n).polling = false) (h : ∀ n, Sys.Step cfg U fail (f n) (f (n + 1))) : False :=
  (wellFounded_iff_isEmpty_descending_chain.1 gauge_wf).false ⟨fun n => (f n).gauge, fun n => processing_less (h n) (p n) (p (n + 1))⟩

theorem still {y y' : Sys} {o : Out} (h : Sys.Step cfg U fail y y') (p : y.polling = false) (ho : y.s.head = some o) : y'.polling = false := by
  cases h with
  | input e q => simp [p] at q
  | timer e q => simp [p] at q
  | process q => simp [p] at q
  | poll _ q => simp [ho] at q
  | _ => exact p

theorem stretch_head {y y1 y2 : Sys} {o : Out} {l : List Out} (p : y.polling = false) (ho : y.s.head = some o) (hs : Sys.Step cfg U fail y y1) (h : Sys.Stretch cfg U fail y1 l y2) :
    Sys.Stretch cfg U fail y (l ++ [o]) y2 := by
  induction h with
  | refl => exact .step .refl p ho hs
  | step _ p' ho' hs' ih => exact .step ih p' ho' hs'

theorem gone_dials {s s' : State} {e : Env} {a : Sock} {d : Peer.Disc} (h : s.step cfg e (.disconnected a d) = .ok s') : s'.addr.fresh + s'.dials ≤ s.addr.fresh + s.dials := by
  simp only [State.step] at h
  obtain ⟨src, m, p, hd, hp, rfl⟩ := callDraw_ok h
  have f := draw_fresh hd
  obtain ⟨l, hl, hc⟩ := Peer.disconnected_count hp
  have d1 := (List.drop_sublist (s.takenPeer - s.peer.out.length) l).countP_le (p := Peer.isConnect)
  simp only [State.dials, State.qPeer, hl, List.drop_append, List.countP_append]
  omega

theorem closes_dials {o : Out} {x : Sock × Peer.Reason} (h : o.closes cfg = some x) : o.dials = none := by
  cases o with
  | peer o => cases o <;> first | rfl | simp [Out.closes] at h
  | _ => rfl

theorem less_dials {y y' : Sys} {o : Out} (h : Sys.Step cfg U fail y y') (p : y.polling = false) (ho : y.s.head = some o) :
    (o.dials.toList.length) + (y'.s.addr.fresh + y'.s.dials) ≤ y.s.addr.fresh + y.s.dials := by
  cases h with
  | input e q => simp [p] at q
  | timer e q => simp [p] at q
  | accept e q => simp [p] at q
  | writable e q => simp [p] at q
  | closed e q => simp [p] at q
  | process q => simp [p] at q
  | poll p q => simp [ho] at q
  | @dialed s1 s2 a x e e' _ ho' hd _ hs _ hs' =>
    rw [ho] at ho'; cases ho'
    obtain ⟨g1, g2, g3, -⟩ := next_less hs ho
    have g3 := g3 (by simp [hd])
    have := attempted_same hs'
    subst this
    simp only [hd, Option.toList_some, List.length_singleton]
    omega
  | failed e e' _ ho' hd _ hs _ hs' =>
    rw [ho] at ho'; cases ho'
    obtain ⟨g1, g2, g3, -⟩ := next_less hs ho
    have g3 := g3 (by simp [hd])
    have := gone_dials hs'
    simp only [hd, Option.toList_some, List.length_singleton]
    omega
  | disconnect e e' _ ho' hc hr _ hs _ hs' =>
    rw [ho] at ho'; cases ho'
    obtain ⟨g1, g2, -, -⟩ := next_less hs ho
    have := gone_dials hs'
    simp only [closes_dials hc, Option.toList_none, List.length_nil, Sys.unregister]
    omega
  | ignored e _ ho' hc hr _ hs =>
    rw [ho] at ho'; cases ho'
    obtain ⟨g1, g2, -, -⟩ := next_less hs ho
    simp only [closes_dials hc, Option.toList_none, List.length_nil]
    omega
  | other e _ ho' hd hc _ hs =>
    rw [ho] at ho'; cases ho'
    obtain ⟨g1, g2, -, -⟩ := next_less hs ho
    simp only [hd, Option.toList_none, List.length_nil]
    omega

theorem stretch_dials {y y' : Sys} {l : List Out} (h : Sys.Stretch cfg U fail y l y') :
    (l.filterMap Out.dials).length + (y'.s.addr.fresh + y'.s.dials) ≤ y.s.addr.fresh + y.s.dials := by
  induction h with
  | refl => simp
  | @step y1 y2 l o _ p ho hs ih =>
    have := less_dials hs p ho
    rw [List.filterMap_cons]
    cases hd : o.dials with
    | none => simp only [hd, Option.toList_none, List.length_nil] at this ⊢; omega
    | some a => simp only [hd, Option.toList_some, List.length_cons] at this ⊢; omega

/-- **C117.** While it processes outputs, the client dials at most as many addresses as it was about to dial, and each address in its book once more. -/
theorem C117_dials {y y' : Sys} {l : List Out} (h : Sys.Stretch cfg U fail y l y') :
    (l.filterMap Out.dials).length ≤ (y.s.qPeer.filterMap fun o => Out.dials (.peer o)).length + y.s.addr.peers.length := by
  have h1 := stretch_dials h
  have h2 : y.s.addr.fresh ≤ y.s.addr.peers.length := List.countP_le_length
  have h3 : y.s.dials = (y.s.qPeer.filterMap fun o => Out.dials (.peer o)).length := by
    unfold State.dials
    induction y.s.qPeer with
    | nil => rfl
    | cons x q ih => cases x <;> simp [List.countP_cons, Peer.isConnect, Out.dials, ih]
  omega

/-- **C117.** In a release build, the processing of outputs stops only when there are none, if the sync manager, the inventory manager and the filter manager do not panic. -/
theorem C117_proceeds (inj : Function.Injective cfg.id) (rel : cfg.peer.Release) {y : Sys} (r : Sys.Reach cfg U fail z y) (p : y.polling = false) {e : Env} (l : Legal U fail e .next)
    (hn : ∀ j, nodeInput cfg y.s .next = some j → ∃ n, y.s.node.step cfg.node (e.at y.s.now) j = .ok n) :
    ∃ y', Sys.Step cfg U fail y y' := by
  obtain ⟨is, hist, rr⟩ := sys_run inj r
  cases ho : y.s.head with
  | none => exact ⟨_, .poll p ho⟩
  | some o =>
    have l' : ∀ {a d}, Legal U fail e (.disconnected a d) := ⟨l.sync, l.inv, l.cbf, fun _ _ _ hc => (by cases hc), fun _ hc => (by cases hc), l.ping, l.addr, l.draws, l.ord⟩
    obtain ⟨s1, h1⟩ := step_total rel rr l hn
    obtain ⟨is1, hist1, rr1⟩ : ∃ is h, Run cfg U fail anyStep z is h s1 := run_next inj rr l h1
    have gone : ∀ a d, ∃ s2, s1.step cfg e (.disconnected a d) = .ok s2 := fun a d => step_total rel rr1 l' (fun j hj => by simp [nodeInput] at hj)
    cases hd : o.dials with
    | some a =>
      obtain ⟨s2, h2⟩ := gone a .dial
      exact ⟨_, .failed e e p ho hd l h1 l' h2⟩
    | none =>
      cases hc : o.closes cfg with
      | none => exact ⟨_, .other e p ho hd hc l h1⟩
      | some x =>
        obtain ⟨a, x⟩ := x
        cases hr : y.reg.contains a with
        | true =>
          obtain ⟨s2, h2⟩ := gone a (.machine x)
          exact ⟨_, .disconnect e e p ho hc hr l h1 l' h2⟩
        | false => exact ⟨_, .ignored e p ho hc hr l h1⟩

/-- **C117.** In a release build, from every state in which outputs are processed the client gets to a state in which all outputs are processed and it waits for new input, or to one
in which the sync manager, the inventory manager or the filter manager panics. -/
theorem C117_waits (inj : Function.Injective cfg.id) (rel : cfg.peer.Release) {e : Env} (l : Legal U fail e .next) {y : Sys} (r : Sys.Reach cfg U fail z y) (p : y.polling = false) :
    ∃ outs y2, Sys.Stretch cfg U fail y outs y2 ∧
      (y2.s.head = none ∨ ∃ j, nodeInput cfg y2.s .next = some j ∧ ∀ n, y2.s.node.step cfg.node (e.at y2.s.now) j ≠ .ok n) := by
  induction hg : y.gauge using gauge_wf.induction generalizing y with
  | _ g ih =>
  by_cases hn : ∀ j, nodeInput cfg y.s .next = some j → ∃ n, y.s.node.step cfg.node (e.at y.s.now) j = .ok n
  · cases ho : y.s.head with
    | none => exact ⟨[], y, .refl, .inl ho⟩
    | some o =>
      obtain ⟨y1, h1⟩ := C117_proceeds inj rel r p l hn
      have p1 : y1.polling = false := still h1 p ho
      obtain ⟨outs, y2, h2, h3⟩ := ih y1.gauge (by rw [← hg]; exact processing_less h1 p p1) (.step r h1) p1 rfl
      exact ⟨outs ++ [o], y2, stretch_head p ho h1 h2, h3⟩
  · push Not at hn
    obtain ⟨j, h1, h2⟩ := hn
    exact ⟨[], y, .refl, .inr ⟨j, h1, h2⟩⟩

end Verif.Machine
