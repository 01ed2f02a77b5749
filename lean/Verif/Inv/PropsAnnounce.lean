import Verif.Inv.PropsArrive
import Mathlib.Data.Finset.Card

/-!
# C125: transactions that were submitted are announced, and not for ever
-/

set_option autoImplicit false

namespace Verif.Inv
open Verif.Tx

/-- An endless execution after some history: any operations in any order, with timers going off again and again. -/
structure Endless (c : Bool) (H : Nat → Hist) (f : Nat → Mgr) (op : Nat → Op) : Prop where
  start : Run c (H 0) (f 0)
  step : ∀ n, { f n with out := [] }.step c (op n) = .ok (f (n + 1))
  hist : ∀ n, H (n + 1) = (op n, (f (n + 1)).out) :: H n
  legal : ∀ n, (op n).Legal
  timer : ∀ T, Often fun n => ∃ env now height, op n = .timer env now height ∧ T ≤ now

/-- The transaction with the witness id `w` is announced to `a`. -/
def Announced (a w : Nat) (h : Hist) (outs : List Out) : Prop :=
  ∃ bw ids t, Out.inv a bw ids ∈ outs ∧ pending h w = some t ∧ (if bw then w else t.txid) ∈ ids

/-- There is no more need to announce the transaction to `a`: `a` asks for it, or a block with it is processed, or `a` leaves or is given up. -/
def Settled (a w : Nat) (h : Hist) (op : Op) (outs : List Out) : Prop :=
  (∃ items, op = .getdata a items ∧ ∃ i ∈ items, i.Names (pending h) w) ∨ (∃ k b, firstWith w outs = some (k, b)) ∨ op = .disconnected a ∨
    Out.timedOut a ∈ outs

variable {c : Bool} {H : Nat → Hist} {f : Nat → Mgr} {op : Nat → Op}

theorem Endless.run (d : Endless c H f op) : ∀ n, Run c (H n) (f n)
  | 0 => d.start
  | n + 1 => by rw [d.hist n]; exact .step (d.run n) (d.legal n) (d.step n)

/-- What is queued stays queued until it is settled. -/
theorem Endless.stays (d : Endless c H f op) {a w n : Nat} (q : Queued a w (H n)) (ns : ¬ Settled a w (H n) (op n) (f (n + 1)).out) :
    Queued a w (H (n + 1)) := by
  rw [d.hist n]
  have hp := (C47_queued (d.run n) q)
  cases ho : op n with
  | announce t => exact .inl q
  | reverted hs => exact .inl q
  | negotiated b x y z =>
    simp only [Queued]
    split
    · obtain ⟨t, h1, -⟩ := hp
      rw [h1]
      simp
    · exact q
  | disconnected b =>
    refine ⟨?_, q⟩
    rintro rfl
    exact ns (.inr (.inr (.inl ho)))
  | timer env now height => exact ⟨fun h => ns (.inr (.inr (.inr h))), q⟩
  | getdata b items =>
    refine ⟨q, ?_⟩
    rintro ⟨rfl, h⟩
    exact ns (.inl ⟨items, ho, h⟩)
  | block b k =>
    refine ⟨q, ?_⟩
    cases hf : firstWith w (f (n + 1)).out with
    | none => rfl
    | some x => exact absurd (.inr (.inl ⟨x.1, x.2, hf⟩)) ns
  | getBlock x => exact q

/-- A peer to which something is announced is told of all that is queued for it. -/
theorem announced_all {h : Hist} {m m' : Mgr} {o : Op} (r : Run c h m) (l : o.Legal) (e : { m with out := [] }.step c o = .ok m')
    {a w : Nat} (q : Queued a w h) {bw : Bool} {ids : List Nat} (hi : Out.inv a bw ids ∈ m'.out) : Announced a w h m'.out := by
  obtain ⟨ft, -, -, ws, -, h1, h2⟩ := C47_announced r l e hi
  have hw := (h1 w).2 q
  clear h1
  suffices ∃ id ∈ ids, ∃ t, pending h w = some t ∧ t.wtxid = w ∧ id = if bw then w else t.txid by
    obtain ⟨id, k1, t, k2, -, rfl⟩ := this
    exact ⟨bw, ids, t, hi, k2, k1⟩
  clear hi
  induction h2 with
  | nil => cases hw
  | cons hx _ ih =>
    rcases List.mem_cons.1 hw with rfl | hw
    · exact ⟨_, List.mem_cons_self, hx⟩
    · obtain ⟨id, k1, k2⟩ := ih hw
      exact ⟨id, List.mem_cons_of_mem _ k1, k2⟩

theorem any_inv {a : Nat} {outs : List Out} : outs.any (Out.isInvTo a) = true ↔ ∃ bw ids, Out.inv a bw ids ∈ outs := by
  rw [List.any_eq_true]
  constructor
  · rintro ⟨o, h1, h2⟩
    cases o with
    | inv b bw ids =>
      have : b = a := by simpa [Out.isInvTo] using h2
      subst this
      exact ⟨bw, ids, h1⟩
    | _ => simp [Out.isInvTo] at h2
  · rintro ⟨bw, ids, h⟩
    exact ⟨_, h, by simp [Out.isInvTo]⟩

/-- **C125** (announcements): in every endless execution, whatever happens, a transaction that is queued for a peer — because it was submitted while the peer was
connected, was pending when the peer connected, or was reverted — is announced to the peer at some time, unless the peer asks for it, a block with it is processed, or the
peer leaves or is given up before. -/
theorem C125_announced (d : Endless c H f op) {a w n : Nat} (q : Queued a w (H n)) :
    ∃ j, n ≤ j ∧ (∀ i, n ≤ i → i ≤ j → Queued a w (H i)) ∧
      (Announced a w (H j) (f (j + 1)).out ∨ Settled a w (H j) (op j) (f (j + 1)).out) := by
  apply Classical.byContradiction
  intro hcon
  have hq : ∀ i, ∀ k, k ≤ i → Queued a w (H (n + k)) := by
    intro i
    induction i with
    | zero =>
      intro k hk
      obtain rfl : k = 0 := by omega
      exact q
    | succ i ih =>
      intro k hk
      rcases Nat.lt_or_ge k (i + 1) with h | h
      · exact ih k (by omega)
      · obtain rfl : k = i + 1 := by omega
        refine d.stays (n := n + i) (ih i (Nat.le_refl _)) fun hs => hcon ⟨n + i, by omega, fun k h1 h2 => ?_, .inr hs⟩
        obtain ⟨k', rfl⟩ := Nat.exists_eq_add_of_le h1
        exact ih k' (by omega)
  have hqq : ∀ i, n ≤ i → Queued a w (H i) := by
    intro i hi
    obtain ⟨k, rfl⟩ := Nat.exists_eq_add_of_le hi
    exact hq k k (Nat.le_refl _)
  have hna : ∀ j, n ≤ j → ¬ Announced a w (H j) (f (j + 1)).out := fun j hj h => hcon ⟨j, hj, fun i h1 _ => hqq i h1, .inl h⟩
  have hns : ∀ j, n ≤ j → ¬ Settled a w (H j) (op j) (f (j + 1)).out := fun j hj h => hcon ⟨j, hj, fun i h1 _ => hqq i h1, .inr h⟩
  have hsent : ∀ i, sent a (H (n + i)) = sent a (H n) ∨ sent a (H (n + i)) = [] := by
    intro i
    induction i with
    | zero => exact .inl rfl
    | succ i ih =>
      rw [show n + (i + 1) = n + i + 1 from rfl, d.hist]
      cases ho : op (n + i) with
      | negotiated b x y z =>
        simp only [sent]
        split
        · exact .inr rfl
        · exact ih
      | timer env now height =>
        simp only [sent]
        rw [if_neg]
        · exact ih
        · intro hany
          obtain ⟨bw, ids, h⟩ := any_inv.1 hany
          exact hna (n + i) (by omega) (announced_all (d.run _) (d.legal _) (d.step _) (hq i i (Nat.le_refl _)) h)
      | getdata b items =>
        simp only [sent]
        split
        · exact .inr rfl
        · exact ih
      | _ => exact ih
  obtain ⟨j, hj, env, now, height, ho, hT⟩ := d.timer ((sent a (H n)).head?.getD 0 + 60000) n
  obtain ⟨i, rfl⟩ := Nat.exists_eq_add_of_le hj
  have hr := d.run (n + i)
  have hs := d.step (n + i)
  have hle := d.legal (n + i)
  rw [ho] at hs hle
  have htime : (sent a (H (n + i))).head?.getD 0 + 60000 ≤ now := by
    rcases hsent i with h | h
    · rw [h]; exact hT
    · rw [h]; simp only [List.head?_nil, Option.getD_none]; omega
  rcases Nat.lt_or_ge (sent a (H (n + i))).length 3 with hlt | hge
  · obtain ⟨bw, ids, h⟩ := (C49_announced hr hle hs a).2 ⟨⟨w, hqq _ hj⟩, htime, hlt⟩
    exact hna (n + i) hj (announced_all hr hle hs (hqq _ hj) h)
  · have h3 := Nat.le_antisymm (C49_spaced hr a).1 hge
    exact hns (n + i) hj (.inr (.inr (.inr ((C49_dropped hr hle hs a).2 ⟨env, now, height, rfl, ⟨w, hqq _ hj⟩, htime, h3⟩))))

/-- A peer acknowledges what was queued for it. -/
theorem ack_queued {h : Hist} {m m' : Mgr} {o : Op} (r : Run c h m) (le : o.Legal) (e : { m with out := [] }.step c o = .ok m') {id a : Nat}
    (hi : Out.acknowledged id a ∈ m'.out) : ∃ items, o = .getdata a items ∧ ∃ w, Queued a w h ∧ ∃ i ∈ items, i.Names (pending h) w := by
  have s := run_sync r
  obtain ⟨is, rfl⟩ := out_from r le e hi
  cases e
  obtain ⟨l, G⟩ := getdata_ok a is (s.good.congr rfl rfl rfl rfl rfl : Good { m with out := [] })
  rw [G.rest] at hi
  have o' : Out.acknowledged id a ∈ l := by simpa using hi
  refine ⟨is, rfl, ?_⟩
  cases hq : m.peers.get a with
  | none => exact absurd o' ((G.pnone hq).2 id)
  | some p =>
    obtain ⟨p', _, _, _, _, _, _, _, _, _, h1⟩ := G.psome p hq
    obtain ⟨w, x, h2, h3, -⟩ := h1 id o'
    have hc : p.outbox.contains w = true := contains_of_get h2
    refine ⟨w, (s.queued a w).2 ⟨p, hq, hc⟩, ?_⟩
    rw [← s.pool]
    exact h3

theorem any_ack {a : Nat} {outs : List Out} : outs.any (Out.isAckBy a) = true ↔ ∃ id, Out.acknowledged id a ∈ outs := by
  rw [List.any_eq_true]
  constructor
  · rintro ⟨o, h1, h2⟩
    cases o with
    | acknowledged id b =>
      have : b = a := by simpa [Out.isAckBy] using h2
      subst this
      exact ⟨id, h1⟩
    | _ => simp [Out.isAckBy] at h2
  · rintro ⟨id, h⟩
    exact ⟨_, h, by simp [Out.isAckBy]⟩

/-- No more transactions are submitted or reverted, and the peer does not connect again. -/
def NoMore (a : Nat) (f : Nat → Mgr) (op : Nat → Op) : Prop :=
  ∀ n, (∀ t, op n ≠ .announce t) ∧ (∀ t, Out.reverted t ∉ (f (n + 1)).out) ∧ ∀ x y z, op n ≠ .negotiated a x y z

/-- Then nothing is added to what is queued. -/
theorem Endless.queued_anti (d : Endless c H f op) {a : Nat} (no : NoMore a f op) {w n : Nat} (q : Queued a w (H (n + 1))) : Queued a w (H n) := by
  obtain ⟨n1, n2, n3⟩ := no n
  rw [d.hist n] at q
  cases ho : op n with
  | announce t => exact absurd ho (n1 t)
  | reverted hs =>
    rw [ho] at q
    rcases q with q | ⟨⟨t, h, -⟩, -⟩
    · exact q
    · exact absurd h (n2 t)
  | negotiated b x y z =>
    rw [ho] at q
    simp only [Queued] at q
    rw [if_neg (by rintro rfl; exact n3 x y z ho)] at q
    exact q
  | disconnected b => rw [ho] at q; exact q.2
  | timer env now height => rw [ho] at q; exact q.2
  | getdata b items => rw [ho] at q; exact q.1
  | block b k => rw [ho] at q; exact q.1
  | getBlock x => rw [ho] at q; exact q

open Classical in
/-- What is queued for the peer of the given transactions. -/
noncomputable def backlog (a : Nat) (L : Finset Nat) (h : Hist) : Finset Nat := L.filter fun w => Queued a w h

/-- What is left to do: up to three announcements for every transaction queued. -/
noncomputable def effort (a : Nat) (L : Finset Nat) (h : Hist) : Nat := 4 * (backlog a L h).card + (3 - (sent a h).length)

theorem Endless.effort_step (d : Endless c H f op) {a : Nat} (no : NoMore a f op) {L : Finset Nat} {n : Nat} (hL : ∀ w, Queued a w (H n) → w ∈ L) :
    effort a L (H (n + 1)) ≤ effort a L (H n) ∧
      ((∃ bw ids, Out.inv a bw ids ∈ (f (n + 1)).out) → effort a L (H (n + 1)) < effort a L (H n)) := by
  have hsub : backlog a L (H (n + 1)) ⊆ backlog a L (H n) := by
    intro w hw
    simp only [backlog, Finset.mem_filter] at hw ⊢
    exact ⟨hw.1, d.queued_anti no hw.2⟩
  have hcard := Finset.card_le_card hsub
  have hr := d.run n
  have hs := d.step n
  have hle := d.legal n
  have hl3 := (C49_spaced hr a).1
  have hl3' := (C49_spaced (d.run (n + 1)) a).1
  have hout : (∃ bw ids, Out.inv a bw ids ∈ (f (n + 1)).out) → ∃ env now height, op n = .timer env now height := by
    rintro ⟨bw, ids, h⟩
    exact out_from hr hle hs h
  simp only [effort]
  by_cases hinv : ∃ bw ids, Out.inv a bw ids ∈ (f (n + 1)).out
  · obtain ⟨env, now, height, ho⟩ := hout hinv
    have : sent a (H (n + 1)) = now :: sent a (H n) := by
      rw [d.hist n, ho]
      simp only [sent]
      rw [if_pos (any_inv.2 hinv)]
    rw [this] at hl3' ⊢
    simp only [List.length_cons] at hl3' ⊢
    exact ⟨by omega, fun _ => by omega⟩
  · refine ⟨?_, fun h => absurd h hinv⟩
    have hsame : ¬ (∃ id, Out.acknowledged id a ∈ (f (n + 1)).out) → sent a (H (n + 1)) = sent a (H n) := by
      intro hack
      rw [d.hist n]
      cases ho : op n with
      | negotiated b x y z =>
        simp only [sent]
        rw [if_neg (by rintro rfl; exact (no n).2.2 x y z ho)]
      | timer env now height => simp only [sent]; rw [if_neg (fun h => hinv (any_inv.1 h))]
      | getdata b items => simp only [sent]; rw [if_neg (fun h => hack (any_ack.1 h))]
      | _ => rfl
    by_cases hack : ∃ id, Out.acknowledged id a ∈ (f (n + 1)).out
    · obtain ⟨id, hid⟩ := hack
      obtain ⟨items, ho, w, hw, hi⟩ := ack_queued hr hle hs hid
      have hlt : (backlog a L (H (n + 1))).card < (backlog a L (H n)).card := by
        apply Finset.card_lt_card
        refine (Finset.ssubset_iff_of_subset hsub).2 ⟨w, ?_, ?_⟩
        · simp only [backlog, Finset.mem_filter]
          exact ⟨hL w hw, hw⟩
        · simp only [backlog, Finset.mem_filter]
          rintro ⟨-, h⟩
          rw [d.hist n, ho] at h
          exact h.2 ⟨rfl, hi⟩
      omega
    · rw [hsame hack]
      omega

/-- **C125** (part): in every endless execution in which no more transactions are submitted or reverted, a transaction queued for a peer is settled at some time: the
peer asks for it, or a block with it is processed, or the peer leaves or is given up.  It is not announced for ever, and it does not stay queued for ever.

Missing: if more transactions are submitted again and again and the peer asks for those, it is never given up: `Scenario.C125_kept`. -/
theorem C125_settled_partial (d : Endless c H f op) {a w : Nat} (no : NoMore a f op) (q : Queued a w (H 0)) :
    ∃ j, Settled a w (H j) (op j) (f (j + 1)).out := by
  apply Classical.byContradiction
  intro hcon
  have hq : ∀ n, Queued a w (H n) := by
    intro n
    induction n with
    | zero => exact q
    | succ n ih => exact d.stays ih fun h => hcon ⟨n, h⟩
  obtain ⟨L, hL⟩ : ∃ L : Finset Nat, ∀ v, Queued a v (H 0) → v ∈ L := by
    have s := run_sync d.start
    obtain ⟨p, h1, -⟩ := (s.queued a w).1 q
    refine ⟨p.outbox.keys.toFinset, fun v hv => ?_⟩
    obtain ⟨p', h2, h3⟩ := (s.queued a v).1 hv
    rw [h1] at h2
    cases h2
    rw [List.mem_toFinset]
    exact (AMap.contains_iff _ _).1 h3
  have hLn : ∀ n v, Queued a v (H n) → v ∈ L := by
    intro n
    induction n with
    | zero => exact hL
    | succ n ih => exact fun v hv => ih v (d.queued_anti no hv)
  have hmono : ∀ n i, effort a L (H (n + i)) ≤ effort a L (H n) := by
    intro n i
    induction i with
    | zero => exact Nat.le_refl _
    | succ i ih => exact Nat.le_trans (d.effort_step no (hLn (n + i))).1 ih
  have hdown : ∀ n, ∃ j, n < j ∧ effort a L (H j) < effort a L (H n) := by
    intro n
    obtain ⟨j, hj, -, h | h⟩ := C125_announced d (hq n)
    · obtain ⟨bw, ids, t, hi, -⟩ := h
      obtain ⟨i, rfl⟩ := Nat.exists_eq_add_of_le hj
      exact ⟨n + i + 1, by omega, Nat.lt_of_lt_of_le ((d.effort_step no (hLn (n + i))).2 ⟨bw, ids, hi⟩) (hmono n i)⟩
    · exact absurd ⟨j, h⟩ hcon
  have : ∀ k n, effort a L (H n) ≤ k → False := by
    intro k
    induction k with
    | zero =>
      intro n hn
      obtain ⟨j, -, h⟩ := hdown n
      omega
    | succ k ih =>
      intro n hn
      obtain ⟨j, -, h⟩ := hdown n
      exact ih j (by omega)
  exact this _ 0 (Nat.le_refl _)

end Verif.Inv
