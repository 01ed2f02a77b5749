import Verif.Inv.PropsMore

/-!
# The inventory manager: concrete histories

Examples that the hypotheses of the theorems are met, and counterexamples to the properties that do not hold in full.
-/

set_option autoImplicit false

namespace Verif.Inv.Scenario
open Verif.Tx

/-- Hash maps are visited in the order of insertion, the first peer is sampled. -/
def env : Env := ⟨id, fun _ => id, id, fun _ l => l.head?⟩

theorem env_legal : env.Legal :=
  ⟨fun _ => .rfl, fun _ _ => .rfl, fun _ => .rfl, fun _ _ _ h => List.mem_of_head? h, fun _ l h => by
    cases l with
    | nil => exact absurd rfl h
    | cons a l => exact ⟨a, rfl⟩⟩

/-- Run a list of operations. -/
def go (c : Bool) : List Op → Hist → Mgr → Option (Hist × Mgr)
  | [], h, m => some (h, m)
  | op :: ops, h, m =>
    match { m with out := [] }.step c op with
    | .ok m' => go c ops ((op, m'.out) :: h) m'
    | _ => none

theorem go_run {c : Bool} : ∀ {ops : List Op} {h h' : Hist} {m m' : Mgr}, Run c h m → (∀ op ∈ ops, op.Legal) →
    go c ops h m = some (h', m') → Run c h' m'
  | [], _, _, _, _, r, _, e => by cases e; exact r
  | op :: ops, h, h', m, m', r, hl, e => by
    unfold go at e
    cases hs : ({ m with out := [] } : Mgr).step c op with
    | ok m1 =>
      simp only [hs] at e
      exact go_run (.step r (hl op List.mem_cons_self) hs) (fun o ho => hl o (List.mem_cons_of_mem _ ho)) e
    | err e' => simp [hs] at e
    | panic => simp [hs] at e

def hist (c : Bool) (ops : List Op) : Hist := ((go c ops [] Mgr.new).getD ([], Mgr.new)).1
def state (c : Bool) (ops : List Op) : Mgr := ((go c ops [] Mgr.new).getD ([], Mgr.new)).2

theorem run {c : Bool} {ops : List Op} (hl : ∀ op ∈ ops, op.Legal) (hs : (go c ops [] Mgr.new).isSome = true) :
    Run c (hist c ops) (state c ops) := by
  obtain ⟨⟨h, m⟩, e⟩ := Option.isSome_iff_exists.1 hs
  unfold hist state
  rw [e]
  exact go_run .start hl e

/-- The outputs of the operations, latest first. -/
def outs (c : Bool) (ops : List Op) : List (List Out) := (hist c ops).map (·.2)

/-- Timer at the time, tip at the height. -/
@[simp] def tick (now height : Nat) : Op := .timer env now height

/-- Closes `∀ op ∈ ops, op.Legal` for lists of operations. -/
macro "legal_ops" : tactic => `(tactic| simp [Op.Legal, env_legal])

/-- A transaction from nowhere. -/
def t1 : Transaction := ⟨10, 11, [⟨1, 0⟩], [⟨5000, 7⟩], 400⟩
def t2 : Transaction := ⟨20, 21, [⟨1, 1⟩], [⟨6000, 7⟩], 400⟩

/-- An amount out of nowhere, and one that takes more from it than there is. -/
def cb : Transaction := ⟨1, 1, [OutPoint.null], [⟨100000, 7⟩, ⟨50000, 8⟩], 400⟩
def forged : Transaction := ⟨2, 2, [⟨1, 1⟩], [⟨200000, 9⟩], 400⟩

def blockA : Block := ⟨500, [cb, t1]⟩
def blockB : Block := ⟨501, [t2]⟩
def blockF : Block := ⟨502, [forged]⟩

/-- Peer 1 serves blocks, relays transactions and uses witness ids. -/
@[simp] def peer1 : Op := .negotiated 1 true true true
/-- Peer 2 does not want transactions. -/
@[simp] def peer2 : Op := .negotiated 2 true false false

/-! ## C47 -/

@[simp] def announced : List Op := [peer1, .announce t1, tick 100000 3]

/-- C47: a transaction is announced, asked for, sent and acknowledged. -/
example : Run true (hist true announced) (state true announced) ∧ (outs true announced).head? =
    some [.timer 30000, .inv 1 true [11], .timer 60000] ∧ Agree (hist true announced) ∧
    Queued 1 11 (hist true announced) ∧ pending (hist true announced) 11 = some t1 ∧
    ∃ m', { state true announced with out := [] }.step true (.getdata 1 [.wtx 11]) = .ok m' ∧ m'.out = [.tx 1 t1, .acknowledged 10 1] := by
  have r := run (c := true) (ops := announced) (by legal_ops) (by decide)
  refine ⟨r, by decide, ?_, ?_, ?_, _, rfl, by decide⟩
  · intro t h t' h'
    rw [show submitted (hist true announced) = [t1] from by decide, List.mem_singleton] at h h'
    subst h h'
    intro; rfl
  · exact ((run_sync r).queued 1 11).2 ⟨_, rfl, by decide⟩
  · rw [← (run_sync r).pool]; decide

@[simp] def confirmed : List Op := announced ++ [.getBlock 500, tick 100001 5, .block blockA (some 5)]

/-- C47, C48, C75: a requested block arrives, the transaction is confirmed; when the block is reverted, it is pending and announced again. -/
example : Run true (hist true confirmed) (state true confirmed) ∧ (outs true confirmed).take 2 =
    [[.confirmed 10 500 5, .processed blockA 5 (some ⟨950, 950, 950⟩)], [.timer 30000, .getBlock 1 500, .timer 15000]] ∧
    pending (hist true confirmed) 11 = none ∧ ConfirmedAt 5 t1 (hist true confirmed) ∧
    ∃ m1 m2, { state true confirmed with out := [] }.step true (.reverted [5]) = .ok m1 ∧ Out.reverted t1 ∈ m1.out ∧
      { m1 with out := [] }.step true (tick 170000 4) = .ok m2 ∧ m2.out = [.timer 30000, .inv 1 true [11], .timer 60000] := by
  have r := run (c := true) (ops := confirmed) (by legal_ops) (by decide +kernel)
  refine ⟨r, by decide +kernel, ?_, ?_, _, _, rfl, by decide +kernel, rfl, by decide +kernel⟩
  · rw [← (run_sync r).pool]; decide +kernel
  · rw [← (run_sync r).conf]; decide +kernel

/-- C53: the hypotheses of `C53_reported` can be met. -/
example : ∀ tx ∈ known (hist true confirmed), Fees.Sized tx := by
  unfold Fees.Sized
  decide +kernel

/-! ## C48 -/

@[simp] def waiting : List Op := [peer1, .announce t2, .getBlock 500, .getBlock 501, .block blockB (some 6)]

/-- C48: the block at height 6 arrives first and waits for the one at height 5; then they are processed in order. -/
example : Run true (hist true waiting) (state true waiting) ∧ Waiting 6 blockB (hist true waiting) ∧
    Outstanding 500 (hist true waiting) ∧ ∃ m', { state true waiting with out := [] }.step true (.block blockA (some 5)) = .ok m' ∧
      processed m'.out = [(5, blockA), (6, blockB)] := by
  have r := run (c := true) (ops := waiting) (by legal_ops) (by decide)
  refine ⟨r, ?_, ?_, _, rfl, by decide⟩
  · rw [← (run_sync r).received]; decide
  · rw [← (run_sync r).outstanding]; decide

/-! ## C77 -/

/-- **C77** is false: when the last requested block is not on the active chain any
more, the blocks waiting for it are not processed, although nothing is requested any more.  By `C77_waits`, they stay unprocessed
until another block is requested. -/
theorem C77_stuck (c : Bool) : ∃ h m, Run c h m ∧ Waiting 6 blockB h ∧ (∀ x, ¬ Outstanding x h) ∧
    h.head?.map (·.1) = some (.block blockA none) := by
  have r := run (c := c) (ops := waiting ++ [.block blockA none]) (by legal_ops) (by cases c <;> decide)
  refine ⟨_, _, r, ?_, ?_, ?_⟩
  · rw [← (run_sync r).received]; cases c <;> decide
  · intro x
    rw [← (run_sync r).outstanding, AMap.contains_iff, show (state c (waiting ++ [.block blockA none])).remaining = [] from by cases c <;> decide]
    simp [AMap.keys]
  · cases c <;> rfl

@[simp] def stale : List Op := waiting ++ [.reverted [6]]

/-- **C77** is false in the other direction, too: a block that was received but is reverted before it is processed is processed all the same: the client is told of the
confirmation of a transaction at a height from which its block was removed before. -/
theorem C77_stale (c : Bool) : ∃ h m m', Run c h m ∧ h.head? = some (.reverted [6], []) ∧
    { m with out := [] }.step c (.block blockA (some 5)) = .ok m' ∧ Out.confirmed 20 501 6 ∈ m'.out := by
  have r := run (c := c) (ops := stale) (by legal_ops) (by cases c <;> decide)
  cases c
  · exact ⟨_, _, _, r, rfl, rfl, by decide⟩
  · exact ⟨_, _, _, r, rfl, rfl, by decide⟩

/-! ## C49 -/

@[simp] def thrice : List Op := [peer1, .announce t1, .announce t2, tick 100000 3, tick 160000 3, tick 220000 3]

/-- C49: three announcements, then the peer is dropped. -/
example : Run true (hist true thrice) (state true thrice) ∧ sent 1 (hist true thrice) = [220000, 160000, 100000] ∧
    (∃ w, Queued 1 w (hist true thrice)) ∧ ∃ m', { state true thrice with out := [] }.step true (tick 280000 3) = .ok m' ∧
      Out.timedOut 1 ∈ m'.out := by
  have r := run (c := true) (ops := thrice) (by legal_ops) (by decide)
  exact ⟨r, by decide, ⟨11, ((run_sync r).queued 1 11).2 ⟨_, rfl, by decide⟩⟩, _, rfl, by decide⟩

/-- **C49** is false for single transactions: if a peer asks for one of the announced transactions, the others are announced again at once and
three more times, however often they were announced before.  Here `t1` (witness id 11) is announced a fourth time, a millisecond after the
third. -/
theorem C49_reannounced (c : Bool) : ∃ h m m', Run c h m ∧ sent 1 (h.drop 1) = [220000, 160000, 100000] ∧
    (∀ o ∈ (outs c (thrice ++ [.getdata 1 [.wtx 21]])).tail.take 3, Out.inv 1 true [21, 11] ∈ o) ∧
    h = hist c (thrice ++ [.getdata 1 [.wtx 21]]) ∧
    { m with out := [] }.step c (tick 220001 3) = .ok m' ∧ Out.inv 1 true [11] ∈ m'.out := by
  have r := run (c := c) (ops := thrice ++ [.getdata 1 [.wtx 21]]) (by legal_ops) (by cases c <;> decide)
  cases c
  · exact ⟨_, _, _, r, by decide, by decide, rfl, rfl, by decide⟩
  · exact ⟨_, _, _, r, by decide, by decide, rfl, rfl, by decide⟩

@[simp] def early : List Op := [peer1, .announce t1, tick 100000 3, tick 160000 3, tick 220000 3, .getBlock 500, .block blockA (some 5), .announce t2]

/-- **C49** is false for single transactions in the other direction, too: attempts are counted per peer, and not reset when the announced transactions
are confirmed.  A peer can be dropped without having been sent a single announcement of the transaction that is pending. -/
theorem C49_dropped_early (c : Bool) : ∃ h m m', Run c h m ∧ (∀ x ∈ h, ∀ ids, Out.inv 1 true ids ∈ x.2 → 21 ∉ ids) ∧
    (∀ w, Queued 1 w h → w = 21) ∧ { m with out := [] }.step c (tick 280000 5) = .ok m' ∧
    Out.timedOut 1 ∈ m'.out ∧ ∀ ids, Out.inv 1 true ids ∉ m'.out := by
  have r := run (c := c) (ops := early) (by legal_ops) (by cases c <;> decide)
  have hist_outs : ∀ x ∈ outs c early, ∀ o ∈ x, (match o with | .inv 1 true ids => decide (21 ∉ ids) | _ => true) = true := by
    cases c <;> decide
  have hq : ∀ w, Queued 1 w (hist c early) → w = 21 := by
    intro w hw
    obtain ⟨p, h1, h2⟩ := ((run_sync r).queued 1 w).1 hw
    have hp : (state c early).peers.get 1 = some ⟨true, true, true, [(21, 20)], 3, some 220000⟩ := by cases c <;> decide
    rw [hp] at h1
    cases h1
    simpa [AMap.contains_iff, AMap.keys] using h2
  have ho : ∀ x ∈ hist c early, ∀ ids, Out.inv 1 true ids ∈ x.2 → 21 ∉ ids := by
    intro x hx ids hi
    have := hist_outs x.2 (List.mem_map.2 ⟨x, hx, rfl⟩) _ hi
    simpa using this
  have none_inv : ∀ (l : List Out), (∀ o ∈ l, (match o with | .inv 1 true _ => false | _ => true) = true) → ∀ ids, Out.inv 1 true ids ∉ l := by
    intro l hl ids hi
    have := hl _ hi
    simp at this
  cases c
  · exact ⟨_, _, _, r, ho, hq, rfl, by decide, none_inv _ (by decide)⟩
  · exact ⟨_, _, _, r, ho, hq, rfl, by decide, none_inv _ (by decide)⟩

/-! ## C74 -/

/-- **C74** is false: a block with a transaction that pays out more than it takes in crashes the client when it arrives. -/
theorem C74_forged_block (c : Bool) : ∃ h m, Run c h m ∧ { m with out := [] }.step c (.block blockF (some 6)) = .panic := by
  have r := run (c := c) (ops := [peer1, .getBlock 500, .block blockA (some 5), .getBlock 502]) (by legal_ops) (by cases c <;> decide +kernel)
  refine ⟨_, _, r, ?_⟩
  cases c <;> decide +kernel

@[simp] def shorter : List Op := waiting ++ [.reverted [6, 5], .block ⟨500, []⟩ (some 3)]

/-- **C74** is false in debug builds for another reason: a block processed after it was reverted (C77) can be above the tip, and then the timer
panics. -/
theorem C74_timer_panics : ∃ h m, Run true h m ∧ { m with out := [] }.step true (tick 300000 4) = .panic := by
  have r := run (c := true) (ops := shorter) (by legal_ops) (by decide)
  exact ⟨_, _, r, by decide⟩

/-- C74: the hypotheses of `C74_inventory_partial` can be met by a block that is processed. -/
example : Run true (hist true [.getBlock 500]) (state true [.getBlock 500]) ∧
    (Op.block ⟨500, [cb]⟩ (some 5)).Safe true (hist true [.getBlock 500]) ∧
    ∃ m', { state true [.getBlock 500] with out := [] }.step true (.block ⟨500, [cb]⟩ (some 5)) = .ok m' ∧
      m'.out = [.processed ⟨500, [cb]⟩ 5 none] := by
  have r := run (c := true) (ops := [.getBlock 500]) (by legal_ops) (by decide)
  have no : ∀ v, ¬ ∃ p ∈ [cb], ∃ t, Fees.Creates p OutPoint.null t ∧ t.value = v := by
    rintro v ⟨p, hp, t, ⟨h1, _⟩, _⟩
    cases List.mem_singleton.1 hp
    exact absurd h1 (by decide)
  have ei : cb.inputs = [OutPoint.null] := rfl
  refine ⟨r, ⟨[cb], ?_, ?_, by simp, ?_⟩, _, rfl, by decide +kernel⟩
  · intro tx htx
    cases List.mem_singleton.1 htx
    refine ⟨by decide, by decide, ?_, ?_⟩
    · intro is vs hp hf
      rw [ei] at hp
      cases hf with
      | nil => decide
      | cons h hf =>
        rw [List.cons_prefix_cons] at hp
        rw [hp.1] at h
        exact absurd h (no _)
    · intro vs hf
      rw [ei] at hf
      cases hf with
      | cons h hf => exact absurd h (no _)
  · intro tx htx
    rw [show known (hist true [.getBlock 500]) = [] from by decide] at htx
    cases htx
  · intro n d hw
    rw [← (run_sync r).received] at hw
    have hr : (state true [.getBlock 500]).received = [] := by decide
    rw [hr] at hw
    cases hw

/-! ## C76 -/

/-- **C76** is false: a peer that asked not to be sent transactions is sent the pending ones. -/
theorem C76_unwanted (c : Bool) : ∃ h m m', Run c h m ∧ connected 2 h = some ⟨true, false, false⟩ ∧
    { m with out := [] }.step c (tick 100000 3) = .ok m' ∧ Out.inv 2 false [10] ∈ m'.out := by
  have r := run (c := c) (ops := [.announce t1, peer2]) (by legal_ops) (by cases c <;> decide)
  cases c
  · exact ⟨_, _, _, r, by decide, rfl, by decide⟩
  · exact ⟨_, _, _, r, by decide, rfl, by decide⟩

end Verif.Inv.Scenario
