import Verif.Fees.Props

/-!
# Concrete cases of the fee estimator

Cases that meet the hypotheses of the theorems, and counterexamples.
-/

set_option autoImplicit false

namespace Verif.Fees.Scenario
open Verif.Tx

/-- A coinbase transaction with two outputs. -/
def cb : Transaction := ⟨1, 101, [OutPoint.null], [⟨100000, 7⟩, ⟨50000, 8⟩], 400⟩

/-- Spends the first output of the coinbase transaction; 4000 satoshis for 200 virtual bytes. -/
def t1 : Transaction := ⟨2, 102, [⟨1, 0⟩], [⟨96000, 7⟩], 800⟩

/-- Spends the second output of the coinbase transaction; 3000 satoshis for 200 virtual bytes. -/
def t2 : Transaction := ⟨3, 103, [⟨1, 1⟩], [⟨47000, 7⟩], 800⟩

/-- Spends an unknown output and the first output of the coinbase transaction. -/
def t3 : Transaction := ⟨4, 104, [⟨99, 0⟩, ⟨1, 0⟩], [⟨1000, 7⟩], 800⟩

/-- Pays out more than it takes in. -/
def forged : Transaction := ⟨5, 105, [⟨1, 0⟩], [⟨100001, 7⟩], 800⟩

/-- A history in a debug build. -/
def run (ops : List Op) : Res Unit (Estimator × Option Estimate) :=
  match ops with
  | [] => .ok (Estimator.new, none)
  | .process txs h :: ops => do
    let (e, _) ← run ops
    e.process true txs h
  | .rollback h :: ops => do
    let (e, _) ← run ops
    let e ← e.rollback h
    .ok (e, none)

theorem run_sound {ops : List Op} {e : Estimator} {est : Option Estimate} (h : run ops = .ok (e, est)) : Run true ops e := by
  induction ops generalizing e est with
  | nil => cases h; exact .start
  | cons op ops ih =>
    cases op with
    | process txs n =>
      rw [run] at h
      obtain ⟨⟨e0, est0⟩, h0, h⟩ := Res.bind_eq_ok.1 h
      exact .process (ih h0) h
    | rollback n =>
      rw [run] at h
      obtain ⟨⟨e0, est0⟩, h0, h⟩ := Res.bind_eq_ok.1 h
      obtain ⟨e1, h1, h⟩ := Res.bind_eq_ok.1 h
      cases h
      exact .rollback (ih h0) h1

/-- The rates are 20 and 15 satoshis per virtual byte; the median is 17.5, rounded upwards. -/
example : (run [.process [t1, t2] 6, .process [cb] 5]).bind (fun x => .ok x.2) = .ok (some ⟨15, 18, 20⟩) := by decide +kernel

/-- C53: the hypotheses of `C53_estimate` and `C53_covers` can be met. -/
example : ∃ ops e e' est, Run true ops e ∧ Within ops ∧ e.process true [t1, t2] 6 = .ok (e', some est) ∧ top (chainOf ops) < 6 ∧
    (∀ tx ∈ [t1, t2] ++ seen ops, Sized tx) ∧ t2.isCoinbase = false ∧ t2.inputs.Nodup ∧
    ∀ i ∈ t2.inputs, ∃ t, Creates t2 i t ∨ Unspent ([t1].reverse ++ txsOf (chainOf ops)) i t := by
  refine ⟨[.process [cb] 5], ⟨[(⟨1, 1⟩, ⟨50000, 8⟩), (⟨1, 0⟩, ⟨100000, 7⟩)], 5, [(0, [])]⟩,
    ⟨[(⟨3, 0⟩, ⟨47000, 7⟩), (⟨2, 0⟩, ⟨96000, 7⟩)], 6, [(0, []), (5, [(⟨1, 1⟩, ⟨50000, 8⟩), (⟨1, 0⟩, ⟨100000, 7⟩)])]⟩, ⟨15, 18, 20⟩,
    run_sound (est := none) (by decide +kernel), trivial, by decide +kernel, by decide, ?_, by decide, by decide, ?_⟩
  · intro tx h
    simp only [seen, List.append_nil, List.cons_append, List.nil_append, List.mem_cons, List.not_mem_nil, or_false] at h
    rcases h with rfl | rfl | rfl <;> simp only [Sized] <;> decide
  · intro i h
    have : i = ⟨1, 1⟩ := by simpa [t2] using h
    subst this
    refine ⟨⟨50000, 8⟩, Or.inr ⟨by decide, Or.inr ⟨?_, by decide, Or.inl ⟨rfl, rfl⟩⟩⟩⟩
    rintro ⟨t', h, _⟩
    exact absurd h (by decide)

/-- A re-organisation: the block at height 7 is replaced. -/
def reorg : List Op := [.process [t2] 7, .rollback 6, .process [t2] 7, .process [t1] 6, .process [cb] 5]

/-- C54: the hypotheses of `C54_restored_partial`, `C54_tracked_partial` and `C54_unspent_partial` can be met. -/
example : ∃ e, Run true reorg e ∧ Within reorg ∧ (∀ tx ∈ seen reorg, tx.outputs.length ≤ 2 ^ 32) ∧ Complete (txsOf (chainOf reorg)) ∧
    e.utxos.get ⟨3, 0⟩ = some ⟨47000, 7⟩ ∧ e.utxos.get ⟨1, 1⟩ = none := by
  have hc : txsOf (chainOf reorg) = [t2, t1, cb] := by decide
  refine ⟨⟨[(⟨3, 0⟩, ⟨47000, 7⟩), (⟨2, 0⟩, ⟨96000, 7⟩)], 7,
    [(0, []), (5, [(⟨1, 1⟩, ⟨50000, 8⟩), (⟨1, 0⟩, ⟨100000, 7⟩)]), (6, [(⟨2, 0⟩, ⟨96000, 7⟩), (⟨1, 1⟩, ⟨50000, 8⟩)])]⟩,
    run_sound (est := some ⟨15, 15, 15⟩) (by decide +kernel), ⟨by decide, by decide, trivial⟩, ?_, ?_, rfl, rfl⟩
  · intro tx h
    simp only [reorg, seen, List.append_nil, List.cons_append, List.nil_append, List.mem_cons, List.not_mem_nil, or_false] at h
    rcases h with rfl | rfl | rfl | rfl <;> decide
  · rw [hc]
    refine ⟨⟨by decide, ?_⟩, ⟨by decide, ?_⟩, ⟨by decide, ?_⟩, trivial⟩
    · intro i h
      have : i = ⟨1, 1⟩ := by simpa [spends, t2, Transaction.isCoinbase, OutPoint.null] using h
      subst this
      refine ⟨⟨50000, 8⟩, Or.inr ⟨by decide, Or.inr ⟨?_, by decide, Or.inl ⟨rfl, rfl⟩⟩⟩⟩
      rintro ⟨t', h, _⟩
      exact absurd h (by decide)
    · intro i h
      have : i = ⟨1, 0⟩ := by simpa [spends, t1, Transaction.isCoinbase, OutPoint.null] using h
      subst this
      exact ⟨⟨100000, 7⟩, Or.inr ⟨by decide, Or.inl ⟨rfl, rfl⟩⟩⟩
    · intro i h
      simp [spends, cb, Transaction.isCoinbase] at h

/-- **C54** is false in general: a transaction that spends an unknown output and a known one leaves the known one tracked. -/
theorem C54_spent_tracked : ∃ ops e, Run true ops e ∧ Within ops ∧ e.utxos.get ⟨1, 0⟩ = some ⟨100000, 7⟩ ∧
    ∀ t, ¬ Unspent (txsOf (chainOf ops)) ⟨1, 0⟩ t := by
  refine ⟨[.process [t3] 6, .process [cb] 5],
    ⟨[(⟨4, 0⟩, ⟨1000, 7⟩), (⟨1, 1⟩, ⟨50000, 8⟩), (⟨1, 0⟩, ⟨100000, 7⟩)], 6,
      [(0, []), (5, [(⟨1, 1⟩, ⟨50000, 8⟩), (⟨1, 0⟩, ⟨100000, 7⟩)])]⟩,
    run_sound (est := none) (by decide +kernel), trivial, by decide, ?_⟩
  have hc : txsOf (chainOf [Op.process [t3] 6, .process [cb] 5]) = [t3, cb] := by decide
  rw [hc]
  rintro t ⟨h, _⟩
  exact h (by decide)

/-- **C54** is false for rollbacks to the current height or above: nothing is to be rolled back, but the last block is forgotten.  This
happens when a block is reverted that was not processed, because it did not match: `block_reverted` rolls back to its height minus one. -/
theorem C54_rollback_above : ∃ e, Run true [.rollback 8, .process [t1] 6, .process [cb] 5] e ∧ e.height = 5 ∧
    e.utxos.get ⟨2, 0⟩ = none ∧ e.utxos.get ⟨1, 0⟩ = some ⟨100000, 7⟩ :=
  ⟨⟨[(⟨1, 1⟩, ⟨50000, 8⟩), (⟨1, 0⟩, ⟨100000, 7⟩)], 5, [(0, [])]⟩, run_sound (est := none) (by decide +kernel), rfl, by decide, by decide⟩

/-- **C54** is false for rollbacks of more blocks than there are snapshots: the reverted blocks stay processed, and the blocks that replace
them are refused. -/
theorem C54_rollback_deep : ∃ e, Run true (.rollback 6 :: ((List.range 12).map fun i => .process [] (19 - i)) ++ [.process [cb] 7]) e ∧
    e.height = 19 ∧ e.utxos.get ⟨1, 0⟩ = some ⟨100000, 7⟩ ∧ ∀ txs, e.process true txs 7 = .ok (e, none) := by
  refine ⟨⟨[(⟨1, 1⟩, ⟨50000, 8⟩), (⟨1, 0⟩, ⟨100000, 7⟩)], 19, []⟩, run_sound (est := none) (by decide +kernel), rfl, by decide, ?_⟩
  intro txs
  rfl

/-- **C53** fails for arbitrary rates (`FeeEstimate::from` is public): beyond 2^53 the median can be below the lower end. -/
theorem C53_large_rates : ∃ est, Estimate.ofRates [2 ^ 53 + 1, 2 ^ 53 + 1] = some est ∧ est.median < est.low :=
  ⟨⟨2 ^ 53 + 1, 2 ^ 53, 2 ^ 53 + 1⟩, by decide +kernel, by decide⟩

/-- **C74** is false in general: a transaction that pays out more than it takes in crashes the client, also in release builds.
Nothing checks the transactions of a block that a peer sends. -/
theorem C74_forged_block (c : Bool) : ∃ e est, Run c [.process [cb] 5] e ∧ Estimator.new.process c [cb] 5 = .ok (e, est) ∧
    e.process c [forged] 6 = .panic := by
  have h : Estimator.new.process c [cb] 5 = .ok (⟨[(⟨1, 1⟩, ⟨50000, 8⟩), (⟨1, 0⟩, ⟨100000, 7⟩)], 5, [(0, [])]⟩, none) := by
    cases c <;> decide +kernel
  exact ⟨_, _, .process .start h, h, by cases c <;> decide +kernel⟩

/-- C74: the hypotheses of `C74_no_panic_partial` can be met. -/
example : ∃ e, Run true [.process [cb] 5] e ∧ (∀ tx ∈ [t1] ++ seen [.process [cb] 5], tx.outputs.length ≤ 2 ^ 32) ∧
    ∀ tx ∈ [t1], Honest ([t1] ++ seen [.process [cb] 5]) tx := by
  refine ⟨_, run_sound (ops := [.process [cb] 5]) (e := ⟨[(⟨1, 1⟩, ⟨50000, 8⟩), (⟨1, 0⟩, ⟨100000, 7⟩)], 5, [(0, [])]⟩) (est := none)
    (by decide +kernel), ?_, ?_⟩
  · intro tx h
    simp only [seen, List.append_nil, List.cons_append, List.nil_append, List.mem_cons, List.not_mem_nil, or_false] at h
    rcases h with rfl | rfl <;> decide
  · intro tx h
    have : tx = t1 := by simpa using h
    subst this
    have key : ∀ i v, i = ⟨1, 0⟩ → (∃ p ∈ [t1] ++ seen [.process [cb] 5], ∃ t, Creates p i t ∧ t.value = v) → v = 100000 := by
      rintro i v rfl ⟨p, hp, t, ⟨h1, h2⟩, rfl⟩
      simp only [seen, List.append_nil, List.cons_append, List.nil_append, List.mem_cons, List.not_mem_nil, or_false] at hp
      rcases hp with rfl | rfl
      · exact absurd h1 (by decide)
      · have : t = ⟨100000, 7⟩ := by
          simp [cb] at h2
          exact h2.symm
        rw [this]
    have ei : t1.inputs = [⟨1, 0⟩] := rfl
    refine ⟨by decide, ?_, ?_⟩
    · intro is vs hp hf
      rw [ei] at hp
      cases hf with
      | nil => decide
      | cons h hf =>
        rename_i i v is vs
        rw [List.cons_prefix_cons] at hp
        have := key _ _ hp.1 h
        have e : is = [] := by simpa using hp.2
        subst e
        cases hf
        simp [this]
    · intro vs hf
      rw [ei] at hf
      cases hf with
      | cons h hf =>
        cases hf
        have := key _ _ rfl h
        simp [this, t1]

end Verif.Fees.Scenario
