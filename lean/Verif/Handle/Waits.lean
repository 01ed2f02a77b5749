import Verif.Handle.Props
import Verif.Sync.PropsTip

/-!
# The client handle: waiting for a height
-/

set_option autoImplicit false

namespace Verif.Handle
open Verif.Addr (Sock)
open Verif.Chain (Header)

/-! ## Waiting -/

section Wait
variable {E T : Type} {test : E → Option T} {timeout : Nat} {closed : Option Nat}

/-- `wait` finds the first event that passes the test. -/
theorem wait_eq (feed : List (Nat × E)) : wait (fun (_ : Unit) e => ((), test e)) timeout closed () feed =
    match firstMatch test timeout feed with
    | some x => .ok x
    | none => if (closed.any (· ≤ timeout) && feed.all (fun p => decide (p.1 ≤ timeout))) = true then .err .disconnected else .err .timeout := by
  induction feed with
  | nil =>
    cases closed with
    | none => rfl
    | some t => by_cases h : t ≤ timeout <;> simp [wait, firstMatch, h]
  | cons p feed ih =>
    obtain ⟨t, e⟩ := p
    by_cases h : t ≤ timeout
    · cases hx : test e with
      | some x => simp [wait, firstMatch, h, hx]
      | none =>
        have hm : firstMatch test timeout ((t, e) :: feed) = firstMatch test timeout feed := by simp [firstMatch, h, hx]
        rw [hm]
        simp only [wait, h, if_true, hx, ih, List.all_cons, decide_true, Bool.true_and]
    · simp [wait, firstMatch, h]

theorem wait_ok {feed : List (Nat × E)} {x : T} :
    wait (fun (_ : Unit) e => ((), test e)) timeout closed () feed = .ok x ↔ firstMatch test timeout feed = some x := by
  rw [wait_eq]
  cases firstMatch test timeout feed with
  | some y => simp
  | none => simp only; split <;> simp

theorem firstMatch_some {feed : List (Nat × E)} {x : T} (h : firstMatch test timeout feed = some x) : ∃ p ∈ feed, p.1 ≤ timeout ∧ test p.2 = some x := by
  obtain ⟨p, hp, hx⟩ := List.exists_of_findSome?_eq_some h
  have := List.all_eq_true.1 (List.all_takeWhile (p := fun p : Nat × E => decide (p.1 ≤ timeout)) (l := feed)) p hp
  exact ⟨p, (List.takeWhile_prefix _).subset hp, by simpa using this, hx⟩

theorem firstMatch_isSome {feed : List (Nat × E)} {t : Nat} {e : E} (hp : (t, e) ∈ feed.takeWhile (fun p => decide (p.1 ≤ timeout))) {x : T} (hx : test e = some x) :
    ∃ y, firstMatch test timeout feed = some y := by
  cases h : firstMatch test timeout feed with
  | some y => exact ⟨y, rfl⟩
  | none =>
    have := List.findSome?_eq_none_iff.1 h (t, e) hp
    rw [hx] at this; simp at this

end Wait

/-! ## C97: waiting for a height -/

section Height
variable {cfg : Sync.Cfg} {U : Header → Prop} {fail : Bool} {P Q : Chain.State → Sync.Op → Prop} {s0 t0 t tq : Chain.State} {g : Header}
variable {h0 l l1 l2 : Sync.Hist} {m0 m mq : Sync.Mgr} {k timeout : Nat} {closed : Option Nat} {feed : List (Nat × Ev)}

theorem More.any (r : More cfg U fail Q m0 t0 l m t) : More cfg U fail Any m0 t0 l m t := by
  induction r with
  | start => exact .start
  | step r lg q e ih => exact .step ih lg trivial e

theorem More.append (r1 : More cfg U fail Any m0 t0 l1 mq tq) (r2 : More cfg U fail Q mq tq l2 m t) : More cfg U fail Any m0 t0 (l2 ++ l1) m t := by
  induction r2 with
  | start => exact r1
  | step r lg q e ih => exact .step ih lg trivial e

theorem More.run (r0 : Sync.Run cfg U fail Any s0 h0 m0 t0) (r : More cfg U fail Q m0 t0 l m t) : Sync.Run cfg U fail Any s0 (l ++ h0) m t := by
  induction r with
  | start => exact r0
  | step r lg q e ih => exact .step ih lg trivial e

theorem outputs_cons (op : Sync.Op) (outs : List Sync.Out) (l : Sync.Hist) : Sync.outputs ((op, outs) :: l) = Sync.outputs l ++ outs := by simp [Sync.outputs]

theorem outputs_append (l l' : Sync.Hist) : Sync.outputs (l' ++ l) = Sync.outputs l ++ Sync.outputs l' := by simp [Sync.outputs]

/-- An output of a history comes from one of its steps. -/
theorem output_step {o : Sync.Out} (r : More cfg U fail Any m0 t0 l m t) (ho : o ∈ Sync.outputs l) :
    ∃ l1 op m1 t1 m2 t2, (op, m2.out) :: l1 <:+ l ∧ More cfg U fail Any m0 t0 l1 m1 t1 ∧ op.Legal U fail ∧
      { m1 with out := [] }.step cfg t1 op = .ok (m2, t2) ∧ o ∈ m2.out := by
  induction r with
  | start => simp [Sync.outputs] at ho
  | @step l m m' t t' op r lg q e ih =>
    rw [outputs_cons, List.mem_append] at ho
    rcases ho with ho | ho
    · obtain ⟨l1, op', a, b, c, d, h1, h2⟩ := ih ho
      exact ⟨l1, op', a, b, c, d, h1.trans (List.suffix_cons _ _), h2⟩
    · exact ⟨l, op, m, t, m', t', List.suffix_refl _, r, lg, e, ho⟩

/-- **C97.** If `wait_for_height` returns a hash, it is that of the block which was at this height of the active chain at some moment since the call.  The call
was made after the history `h0`; the query for the block was answered after `l1`, and then `l2` followed. -/
theorem C97_height (ha : Chain.Acyclic cfg.chain U) (cf : Chain.CollisionFree cfg.chain U) (hg : cfg.chain.genesisHash = cfg.chain.hash g)
    (hr : Chain.Reach cfg.chain U g fail s0) (r0 : Sync.Run cfg U fail Any s0 h0 m0 t0) (r1 : More cfg U fail Any m0 t0 l1 mq tq)
    (r2 : More cfg U fail Any mq tq l2 m t) (hf : OnlyFrom (l2 ++ l1) feed) {x : Nat}
    (hw : waitForHeight k ((tq.getByHeight k).map cfg.chain.hash) timeout closed feed = .ok x) :
    ∃ l' m' t' b, l' <:+ l2 ++ l1 ∧ More cfg U fail Any m0 t0 l' m' t' ∧ t'.getByHeight k = some b ∧ cfg.chain.hash b = x := by
  unfold waitForHeight at hw
  cases hb : tq.getByHeight k with
  | some b =>
    rw [hb] at hw
    cases hw
    exact ⟨l1, mq, tq, b, List.suffix_append _ _, r1, hb, rfl⟩
  | none =>
    simp only [hb, Option.map_none] at hw
    obtain ⟨p, hp, -, hx⟩ := firstMatch_some (wait_ok.1 hw)
    cases hp2 : p.2 with
    | imported y n =>
      rw [hp2] at hx
      simp only [Option.ite_none_right_eq_some, Option.some.injEq] at hx
      obtain ⟨rfl, rfl⟩ := hx
      obtain ⟨o, ho, he⟩ := List.mem_map.1 (hf p hp _ _ hp2)
      obtain ⟨l', op, m1, t1, m2, t2, f1, f2, f3, f5, f6⟩ := output_step (r1.append r2) ho
      cases o <;> simp only [Ev.ofSync, reduceCtorEq] at he
      cases he
      obtain ⟨k1, k2, -⟩ := Sync.C52_imported ha cf hg hr (f2.run r0) f3 f5 f6
      have r3 := More.step f2 f3 trivial f5
      obtain ⟨b, b1, b2⟩ := (Chain.C01_consistent_view ha hg (Sync.run_reach hr (r3.run r0))).tip
      refine ⟨_, m2, t2, b, f1, r3, by rw [k2]; exact b1, ?_⟩
      rw [k1, b2]
    | _ => rw [hp2] at hx; simp at hx

/-- The first step to a greater height reports it. -/
theorem reported_height (ha : Chain.Acyclic cfg.chain U) (cf : Chain.CollisionFree cfg.chain U) (hg : cfg.chain.genesisHash = cfg.chain.hash g)
    (hr : Chain.Reach cfg.chain U g fail s0) (r0 : Sync.Run cfg U fail Any s0 h0 m0 t0) (r : More cfg U fail (OneByOne cfg) m0 t0 l m t)
    (h1 : t0.height < k) (h2 : k ≤ t.height) : ∃ y, Ev.imported y k ∈ (Sync.outputs l).map Ev.ofSync := by
  induction r with
  | start => omega
  | @step l m m' t t' op r lg q e ih =>
    by_cases hk : k ≤ t.height
    · obtain ⟨y, hy⟩ := ih hk
      exact ⟨y, by rw [outputs_cons, List.map_append, List.mem_append]; exact .inl hy⟩
    · have ht : t'.height ≤ t.height + 1 := by
        rcases Sync.step_imported lg e with rfl | ⟨r', e1, -⟩
        · omega
        · have := q.2
          rw [e1] at this; exact this
      have hne : t'.iter ≠ t.iter := by
        intro he
        have v := Chain.C01_consistent_view ha hg (Sync.run_reach hr (r.run r0))
        have v' := Chain.C01_consistent_view ha hg (Sync.run_reach hr ((More.step r lg q e).run r0))
        have := (v'.defined k).2 h2
        have h3 := v'.iter k
        rw [he, v.iter k] at h3
        have h4 := (v.defined k).not.2 hk
        cases h5 : t.getByHeight k with
        | some b => rw [h5] at h4; simp at h4
        | none =>
          cases h6 : t'.getByHeight k with
          | some b => rw [h5, h6] at h3; simp at h3
          | none => rw [h6] at this; simp at this
      obtain ⟨reorg, cn, rv, ho⟩ := Sync.C52_tip_reported ha cf hg hr (r.run r0) lg e q.1 hne
      have hk' : t'.height = k := by omega
      rw [hk'] at ho
      refine ⟨(t'.tip cfg.chain).1, ?_⟩
      rw [outputs_cons, List.map_append, List.mem_append]
      exact .inr (List.mem_map.2 ⟨_, ho, rfl⟩)

/-- **C97 (success).** If after the query the chain grows one block at a time, all imports succeed, the height is reached, and the events about that are taken in
time, the call succeeds.  (Missing: imports of several headers that pass the height; see `Scenario.C97_passed`, where the call fails.) -/
theorem C97_reached_partial (ha : Chain.Acyclic cfg.chain U) (cf : Chain.CollisionFree cfg.chain U) (hg : cfg.chain.genesisHash = cfg.chain.hash g)
    (hr : Chain.Reach cfg.chain U g fail s0) (r0 : Sync.Run cfg U fail Any s0 h0 m0 t0) (r1 : More cfg U fail Any m0 t0 l1 mq tq)
    (r2 : More cfg U fail (OneByOne cfg) mq tq l2 m t) (hf : AllIn (l2 ++ l1) timeout feed) (hk : k ≤ t.height) :
    ∃ x, waitForHeight k ((tq.getByHeight k).map cfg.chain.hash) timeout closed feed = .ok x := by
  unfold waitForHeight
  cases hb : tq.getByHeight k with
  | some b => exact ⟨_, rfl⟩
  | none =>
    have v := Chain.C01_consistent_view ha hg (Sync.run_reach hr (r1.run r0))
    have hlt : tq.height < k := by
      have := (v.defined k).not.1 (by rw [hb]; simp)
      omega
    obtain ⟨y, hy⟩ := reported_height ha cf hg hr (r1.run r0) r2 hlt hk
    obtain ⟨τ, hτ⟩ := hf y k (by rw [outputs_append, List.map_append, List.mem_append]; exact .inr hy)
    obtain ⟨z, hz⟩ := firstMatch_isSome (test := fun e => match e with | Ev.imported hash height => if height = k then some hash else none | _ => none) hτ (x := y) (by simp)
    exact ⟨z, wait_ok.2 hz⟩

end Height

end Verif.Handle
