import Verif.Fees.Lemmas

/-!
# Properties of the fee estimator: C53, C54, C74
-/

set_option autoImplicit false

namespace Verif.Fees
open Verif.Tx

/-- What it takes for a transaction to get a fee rate. -/
theorem applyTx_rate {c : Bool} {tx : Transaction} {u u' : Utxos} {r : Nat} (h : applyTx c u tx = .ok (u', some r)) (hs : Sized tx)
    {known : List Transaction} (hk : tx ∈ known) (hu : ∀ o t, u.get o = some t → ∃ p ∈ known, Creates p o t) :
    (∃ vs, FeeRate known tx vs r) ∧ Double r ∧ r < 2 ^ 64 := by
  obtain ⟨u1, sent, h1, hc⟩ := applyTx_cases h
  rcases hc with ⟨_, _, hr⟩ | ⟨hcb, rec, h2, hr⟩
  · cases hr
  · rcases hr with ⟨_, hr⟩ | ⟨n, rfl, hle, hr⟩
    · cases hr
    · simp only [Option.some.injEq] at hr
      obtain ⟨_, vs, hf, hn⟩ := takeInputs_some h2 (by norm_num)
      have hsum := addOutputs_sum h1 (by norm_num)
      rw [Nat.zero_add] at hn hsum
      have hlt : n - sent < 2 ^ 64 := by omega
      refine ⟨⟨vs, hcb, ?_, ?_, ?_⟩, ?_, ?_⟩
      · refine hf.imp ?_
        rintro i v ⟨t, ht, hv⟩
        by_cases hcr : ∃ t', Creates tx i t'
        · obtain ⟨t', hcr⟩ := hcr
          rw [(outputs_get h1 hs.1 i).1 t' hcr] at ht
          cases ht
          exact ⟨tx, hk, _, hcr, hv⟩
        · rw [(outputs_get h1 hs.1 i).2 hcr] at ht
          obtain ⟨p, hp, hcp⟩ := hu i t ht
          exact ⟨p, hp, t, hcp, hv⟩
      · omega
      · rw [← hn, ← hsum, hr]
        exact rate_isRate hlt hs.2.1 hs.2.2
      · rw [hr]
        exact rate_double hlt hs.2.1 hs.2.2
      · rw [hr]
        exact rate_lt

theorem applyAll_rated {c : Bool} {known : List Transaction} : ∀ {txs : List Transaction} {u u' : Utxos} {fs fs' : List Nat},
    applyAll c txs u fs = .ok (u', fs') → (∀ tx ∈ txs, Sized tx ∧ tx ∈ known) →
    (∀ o t, u.get o = some t → ∃ p ∈ known, Creates p o t) →
    ∃ rated : List (Transaction × Nat), fs' = fs ++ rated.map (·.2) ∧ (rated.map (·.1)).Sublist txs ∧
      ∀ x ∈ rated, (∃ vs, FeeRate known x.1 vs x.2) ∧ Double x.2 ∧ x.2 < 2 ^ 64 := by
  intro txs
  induction txs with
  | nil =>
    intro u u' fs fs' h _ _
    simp only [applyAll, Res.ok.injEq, Prod.mk.injEq] at h
    exact ⟨[], by simp [h.2], by simp, by simp⟩
  | cons tx txs ih =>
    intro u u' fs fs' h hk hu
    unfold applyAll at h
    obtain ⟨⟨u1, r⟩, h1, h⟩ := Res.bind_eq_ok.1 h
    have hk1 := hk tx List.mem_cons_self
    obtain ⟨rated, e, sl, ha⟩ := ih h (fun t ht => hk t (List.mem_cons_of_mem _ ht)) (by
      intro o t ht
      rcases applyTx_created h1 hk1.1.1 ht with h2 | ⟨_, h2⟩
      · exact ⟨tx, hk1.2, h2⟩
      · exact hu o t h2)
    cases r with
    | none => exact ⟨rated, by simpa using e, sl.cons _, ha⟩
    | some r =>
      refine ⟨(tx, r) :: rated, by simpa using e, sl.cons_cons tx, ?_⟩
      intro x hx
      rcases List.mem_cons.1 hx with rfl | hx
      · exact applyTx_rate h1 hk1.1 hk1.2 hu
      · exact ha x hx

/-- **C53.** The estimate for a block is made of the fee rates of some of its transactions: those whose inputs are all outputs of
processed transactions.  The lower and the upper end are the smallest and the largest of these rates, the median is their median, and
it lies between them. -/
theorem C53_estimate {c : Bool} {ops : List Op} {e e' : Estimator} {txs : List Transaction} {height : Nat} {est : Estimate}
    (r : Run c ops e) (eq : e.process c txs height = .ok (e', some est)) (sz : ∀ tx ∈ txs ++ seen ops, Sized tx) :
    ∃ rated : List (Transaction × Nat), (rated.map (·.1)).Sublist txs ∧
      (∀ x ∈ rated, ∃ vs, FeeRate (txs ++ seen ops) x.1 vs x.2) ∧
      est.low ∈ rated.map (·.2) ∧ est.high ∈ rated.map (·.2) ∧ (∀ x ∈ rated, est.low ≤ x.2 ∧ x.2 ≤ est.high) ∧
      est.low ≤ est.median ∧ est.median ≤ est.high ∧ IsMedian (rated.map (·.2)) est.median := by
  rcases process_ok eq with ⟨_, _, h⟩ | ⟨_, u, fees, ha, hest, _⟩
  · cases h
  · have hc := (run_created r (fun tx h => (sz tx (List.mem_append_right _ h)).1)).1
    obtain ⟨rated, hf, sl, hr⟩ := applyAll_rated ha (fun tx h => ⟨sz tx (List.mem_append_left _ h), List.mem_append_left _ h⟩)
      (fun o t g => by
        obtain ⟨p, hp, h⟩ := hc o t g
        exact ⟨p, List.mem_append_right _ hp, h⟩)
    rw [List.nil_append] at hf
    subst hf
    obtain ⟨h1, h2, h3, h4, h5, h6⟩ := ofRates_spec hest.symm (by
      intro x hx
      obtain ⟨y, hy, rfl⟩ := List.mem_map.1 hx
      exact (hr y hy).2)
    exact ⟨rated, sl, fun x hx => (hr x hx).1, h1, h2, fun x hx => h3 _ (List.mem_map.2 ⟨x, hx, rfl⟩), h4, h5, h6⟩

theorem applyAll_append {c : Bool} {pre post : List Transaction} {u u' : Utxos} {fs fs' : List Nat}
    (h : applyAll c (pre ++ post) u fs = .ok (u', fs')) :
    ∃ u1 fs1, applyAll c pre u fs = .ok (u1, fs1) ∧ applyAll c post u1 fs1 = .ok (u', fs') := by
  induction pre generalizing u fs with
  | nil => exact ⟨u, fs, rfl, h⟩
  | cons tx pre ih =>
    rw [List.cons_append, applyAll] at h
    obtain ⟨⟨u1, r⟩, h1, h⟩ := Res.bind_eq_ok.1 h
    obtain ⟨u2, fs2, e1, e2⟩ := ih h
    exact ⟨u2, fs2, by rw [applyAll, h1, Res.ok_bind]; exact e1, e2⟩

theorem applyAll_mono {c : Bool} {txs : List Transaction} : ∀ {u u' : Utxos} {fs fs' : List Nat},
    applyAll c txs u fs = .ok (u', fs') → ∀ x ∈ fs, x ∈ fs' := by
  induction txs with
  | nil =>
    intro u u' fs fs' h x hx
    simp only [applyAll, Res.ok.injEq, Prod.mk.injEq] at h
    exact h.2 ▸ hx
  | cons tx txs ih =>
    intro u u' fs fs' h x hx
    rw [applyAll] at h
    obtain ⟨⟨u1, r⟩, h1, h⟩ := Res.bind_eq_ok.1 h
    exact ih h x (List.mem_append_left _ hx)

/-- **C53** (all known transactions count).  If all the outputs a transaction spends were created and not spent by the blocks processed
so far or by earlier transactions of the same block, then there is an estimate for its block, and the fee rate of the transaction
lies between the two ends.  `Within`: see C54. -/
theorem C53_covers {c : Bool} {ops : List Op} {e e' : Estimator} {pre post : List Transaction} {tx : Transaction} {height : Nat}
    {res : Option Estimate} (r : Run c ops e) (w : Within ops) (eq : e.process c (pre ++ tx :: post) height = .ok (e', res))
    (new : top (chainOf ops) < height) (sz : ∀ tx' ∈ (pre ++ tx :: post) ++ seen ops, Sized tx')
    (ncb : tx.isCoinbase = false) (nd : tx.inputs.Nodup)
    (known : ∀ i ∈ tx.inputs, ∃ t, Creates tx i t ∨ Unspent (pre.reverse ++ txsOf (chainOf ops)) i t) :
    ∃ est vs x, res = some est ∧ FeeRate ((pre ++ tx :: post) ++ seen ops) tx vs x ∧ est.low ≤ x ∧ x ≤ est.high := by
  have inv := run_inv r w
  rcases process_ok eq with ⟨h, _, _⟩ | ⟨_, u, fees, ha, hest, _⟩
  · rw [inv.height] at h
    omega
  · have hc := (run_created r (fun tx h => (sz tx (List.mem_append_right _ h)).1)).1
    obtain ⟨u1, fs1, h1, h2⟩ := applyAll_append ha
    rw [applyAll] at h2
    obtain ⟨⟨u2, q⟩, h3, h2⟩ := Res.bind_eq_ok.1 h2
    have mtx : tx ∈ (pre ++ tx :: post) ++ seen ops := by simp
    have hs := sz tx mtx
    have b1 := applyAll_built h1 inv.utxos
    have un := b1.unspent (fun t ht => by
      rcases List.mem_append.1 ht with ht | ht
      · exact (sz t (by simp at ht ⊢; tauto)).1
      · exact (sz t (List.mem_append_right _ (chainOf_seen ops t ht))).1)
    obtain ⟨v1, sent, g1, gc⟩ := applyTx_cases h3
    rcases gc with ⟨hcb, _⟩ | ⟨_, rec, g2, gr⟩
    · rw [ncb] at hcb
      cases hcb
    · obtain ⟨n, rfl⟩ := takeInputs_found g2 nd (by
        intro i hi
        by_cases hcr : ∃ t', Creates tx i t'
        · obtain ⟨t', hcr⟩ := hcr
          exact ⟨t', (outputs_get g1 hs.1 i).1 t' hcr⟩
        · obtain ⟨t, ht⟩ := known i hi
          rcases ht with ht | ht
          · exact absurd ⟨t, ht⟩ hcr
          · exact ⟨t, by rw [(outputs_get g1 hs.1 i).2 hcr]; exact un i t ht⟩)
      rcases gr with ⟨gr, _⟩ | ⟨m, _, _, gr⟩
      · cases gr
      · subst gr
        have hmem : rate (m - sent) tx.weight ∈ fees := applyAll_mono h2 _ (by simp)
        obtain ⟨est, he⟩ := ofRates_isSome (List.ne_nil_of_mem hmem)
        have hu1 : ∀ o t, u1.get o = some t → ∃ p ∈ (pre ++ tx :: post) ++ seen ops, Creates p o t := by
          have go : ∀ {l : List Transaction} {v v' : Utxos} {fs fs' : List Nat}, applyAll c l v fs = .ok (v', fs') →
              (∀ t ∈ l, t ∈ (pre ++ tx :: post) ++ seen ops) → (∀ o t, v.get o = some t → ∃ p ∈ (pre ++ tx :: post) ++ seen ops, Creates p o t) →
              ∀ o t, v'.get o = some t → ∃ p ∈ (pre ++ tx :: post) ++ seen ops, Creates p o t := by
            intro l
            induction l with
            | nil =>
              intro v v' fs fs' h _ hv
              simp only [applyAll, Res.ok.injEq, Prod.mk.injEq] at h
              rw [← h.1]
              exact hv
            | cons a l ih =>
              intro v v' fs fs' h hm hv
              rw [applyAll] at h
              obtain ⟨⟨w1, q⟩, k1, h⟩ := Res.bind_eq_ok.1 h
              refine ih h (fun t ht => hm t (List.mem_cons_of_mem _ ht)) ?_
              intro o t ht
              rcases applyTx_created k1 (sz a (hm a List.mem_cons_self)).1 ht with k | ⟨_, k⟩
              · exact ⟨a, hm a List.mem_cons_self, k⟩
              · exact hv o t k
          exact go h1 (fun t ht => by simp [ht]) (fun o t g => by
            obtain ⟨p, hp, h⟩ := hc o t g
            exact ⟨p, List.mem_append_right _ hp, h⟩)
        obtain ⟨⟨vs, fr⟩, _⟩ := applyTx_rate h3 hs mtx hu1
        obtain ⟨rated, hf, _, hr⟩ := applyAll_rated (known := (pre ++ tx :: post) ++ seen ops) ha
          (fun t h => ⟨sz t (List.mem_append_left _ h), List.mem_append_left _ h⟩)
          (fun o t g => by
            obtain ⟨p, hp, h⟩ := hc o t g
            exact ⟨p, List.mem_append_right _ hp, h⟩)
        rw [List.nil_append] at hf
        have hb := (ofRates_spec he (by
          intro y hy
          rw [hf] at hy
          obtain ⟨z, hz, rfl⟩ := List.mem_map.1 hy
          exact (hr z hz).2)).2.2.1 _ hmem
        exact ⟨est, vs, _, by rw [hest, he], fr, hb.1, hb.2⟩

theorem built_split {c : Bool} {txs l : List Transaction} {u' : Utxos} (b : Built c (txs.reverse ++ l) u') (fs : List Nat) :
    ∃ u fs', Built c l u ∧ applyAll c txs u fs = .ok (u', fs') := by
  induction txs generalizing l fs with
  | nil => exact ⟨u', fs, b, rfl⟩
  | cons tx txs ih =>
    rw [List.reverse_cons, List.append_assoc] at b
    obtain ⟨u, _, b1, _⟩ := ih b fs
    cases b1 with
    | cons b0 e =>
      rename_i u0 r
      obtain ⟨u2, fs2, b2, e2⟩ := ih b (fs ++ r.toList)
      have := Built.unique b2 (Built.cons b0 e)
      subst this
      exact ⟨u0, fs2, b0, by rw [applyAll, e, Res.ok_bind]; exact e2⟩

theorem rebuild {c : Bool} {ch : List (Nat × List Transaction)} {u : Utxos} (b : Built c (txsOf ch) u) (hr : Rising ch) :
    ∃ e, Run c (ch.map fun x => .process x.2 x.1) e ∧ e.utxos = u ∧ e.height = top ch := by
  induction ch generalizing u with
  | nil =>
    cases b
    exact ⟨_, .start, rfl, rfl⟩
  | cons x ch ih =>
    obtain ⟨u0, fs, b0, e0⟩ := built_split b []
    obtain ⟨e, re, hu, hh⟩ := ih b0 hr.2
    have hx : ¬ x.1 ≤ e.height := by
      rw [hh]
      exact not_le.2 hr.1
    have : ∃ e' est, e.process c x.2 x.1 = .ok (e', est) ∧ e'.utxos = u ∧ e'.height = x.1 := by
      unfold Estimator.process
      rw [if_neg hx, hu, e0, Res.ok_bind]
      exact ⟨_, _, rfl, rfl, rfl⟩
    obtain ⟨e', est, h1, h2, h3⟩ := this
    exact ⟨e', .process re h1, h2, h3⟩

/-- **C54**, partial: after processing and rolling back, the tracked outputs are as if the blocks rolled back had never been processed.
Missing: rollbacks to the current height or above, and rollbacks of more blocks than there are snapshots (`C54_rollback_above`,
`C54_rollback_deep`). -/
theorem C54_restored_partial {c : Bool} {ops : List Op} {e : Estimator} (r : Run c ops e) (w : Within ops) :
    ∃ e', Run c ((chainOf ops).map fun b => .process b.2 b.1) e' ∧ e.utxos = e'.utxos ∧ e.height = e'.height := by
  have inv := run_inv r w
  obtain ⟨e', re, h1, h2⟩ := rebuild inv.utxos (rising_chainOf ops)
  exact ⟨e', re, h1.symm, by rw [h2, inv.height]⟩

/-- **C54**, partial: every output created and not spent by the blocks processed and not rolled back is tracked with its value, and
every tracked output was created by one of them.  Missing: outputs spent by a transaction that has an unknown input as well may stay
tracked (`C54_spent_tracked`). -/
theorem C54_tracked_partial {c : Bool} {ops : List Op} {e : Estimator} (r : Run c ops e) (w : Within ops)
    (sz : ∀ tx ∈ seen ops, tx.outputs.length ≤ 2 ^ 32) (o : OutPoint) (t : TxOut) :
    (Unspent (txsOf (chainOf ops)) o t → e.utxos.get o = some t) ∧
    (e.utxos.get o = some t → ∃ tx ∈ txsOf (chainOf ops), Creates tx o t) := by
  have inv := run_inv r w
  have sz' : ∀ tx ∈ txsOf (chainOf ops), tx.outputs.length ≤ 2 ^ 32 := fun tx h => sz tx (chainOf_seen ops tx h)
  exact ⟨inv.utxos.unspent sz' o t, inv.utxos.created sz' o t⟩

/-- **C54**, partial: if all inputs of all transactions of the blocks processed and not rolled back are known, the tracked outputs are
exactly the unspent ones. -/
theorem C54_unspent_partial {c : Bool} {ops : List Op} {e : Estimator} (r : Run c ops e) (w : Within ops)
    (sz : ∀ tx ∈ seen ops, tx.outputs.length ≤ 2 ^ 32) (full : Complete (txsOf (chainOf ops))) (o : OutPoint) (t : TxOut) :
    e.utxos.get o = some t ↔ Unspent (txsOf (chainOf ops)) o t :=
  (run_inv r w).utxos.exact (fun tx h => sz tx (chainOf_seen ops tx h)) full o t

/-- **C54** (snapshots): there are never more than twelve. -/
theorem C54_snapshots {c : Bool} {ops : List Op} {e : Estimator} (r : Run c ops e) : e.snapshots.length ≤ 12 := snapshots_le r

/-- **C54** (rollback does not fail): the assertion in `rollback` always holds. -/
theorem C54_rollback_total (e : Estimator) (height : Nat) : ∃ e', e.rollback height = .ok e' := by
  unfold Estimator.rollback
  simp only
  split
  · rename_i h u hl
    have := (getLast?_filter_mem hl).2
    simp only at this
    rw [this]
    exact ⟨_, rfl⟩
  · exact ⟨_, rfl⟩

/-- The amounts of a transaction make sense, as far as the given transactions tell: sums of amounts are below 2^64 satoshis, and the
outputs do not exceed the inputs.  Consensus rules ensure this for valid blocks (amounts are below 2^51). -/
def Honest (known : List Transaction) (tx : Transaction) : Prop :=
  (tx.outputs.map (·.value)).sum < 2 ^ 64 ∧
  (∀ is vs, is <+: tx.inputs → List.Forall₂ (fun i v => ∃ p ∈ known, ∃ t, Creates p i t ∧ t.value = v) is vs → vs.sum < 2 ^ 64) ∧
  (∀ vs, List.Forall₂ (fun i v => ∃ p ∈ known, ∃ t, Creates p i t ∧ t.value = v) tx.inputs vs →
    (tx.outputs.map (·.value)).sum ≤ vs.sum)

theorem addOutputs_total (c : Bool) (txid : Nat) : ∀ (os : List TxOut) (i : Nat) (u : Utxos) (s : Nat),
    s + (os.map (·.value)).sum < 2 ^ 64 → ∃ u', addOutputs c txid i os u s = .ok (u', s + (os.map (·.value)).sum) := by
  intro os
  induction os with
  | nil => intro i u s _; exact ⟨u, rfl⟩
  | cons o os ih =>
    intro i u s h
    rw [List.map_cons, List.sum_cons] at h
    obtain ⟨u', e⟩ := ih (i + 1) (u.insert ⟨txid, i % 2 ^ 32⟩ o) (s + o.value) (by omega)
    refine ⟨u', ?_⟩
    rw [addOutputs, addAmount, if_pos (by omega), Res.ok_bind, e, List.map_cons, List.sum_cons, Nat.add_assoc]

theorem takeInputs_total (c : Bool) (Q : OutPoint → Nat → Prop) : ∀ (is : List OutPoint) (u : Utxos) (s : Nat),
    (∀ o t, u.get o = some t → Q o t.value) → (∀ js vs, js <+: is → List.Forall₂ Q js vs → s + vs.sum < 2 ^ 64) →
    ∃ u' r, takeInputs c is u s = .ok (u', r) ∧ ∀ n, r = some n → ∃ vs, List.Forall₂ Q is vs ∧ n = s + vs.sum := by
  intro is
  induction is with
  | nil => intro u s _ _; exact ⟨u, some s, rfl, by intro n h; cases h; exact ⟨[], .nil, by simp⟩⟩
  | cons i is ih =>
    intro u s hu hv
    cases hg : u.get i with
    | none =>
      refine ⟨u, none, ?_, by intro n h; cases h⟩
      rw [takeInputs, hg]
    | some t =>
      have h1 := hv [i] [t.value] (by simp) (.cons (hu i t hg) .nil)
      simp only [List.sum_singleton] at h1
      obtain ⟨u', r, e, h2⟩ := ih (u.erase i) (s + t.value)
        (by
          intro o t' h
          rw [AMap.get_erase] at h
          split at h
          · cases h
          · exact hu o t' h)
        (by
          intro js vs hp hf
          have := hv (i :: js) (t.value :: vs) (List.cons_prefix_cons.2 ⟨rfl, hp⟩) (.cons (hu i t hg) hf)
          rw [List.sum_cons] at this
          omega)
      refine ⟨u', r, ?_, ?_⟩
      · rw [takeInputs, hg]
        simp only [addAmount, if_pos h1, Res.ok_bind]
        exact e
      · intro n hn
        obtain ⟨vs, f, e⟩ := h2 n hn
        exact ⟨t.value :: vs, .cons (hu i t hg) f, by rw [e, List.sum_cons]; omega⟩

theorem applyTx_total (c : Bool) {known : List Transaction} {tx : Transaction} {u : Utxos} (ho : Honest known tx)
    (hl : tx.outputs.length ≤ 2 ^ 32) (hk : tx ∈ known) (hu : ∀ o t, u.get o = some t → ∃ p ∈ known, Creates p o t) :
    ∃ u' r, applyTx c u tx = .ok (u', r) := by
  obtain ⟨u1, h1⟩ := addOutputs_total c tx.txid tx.outputs 0 u 0 (by rw [Nat.zero_add]; exact ho.1)
  rw [Nat.zero_add] at h1
  unfold applyTx
  rw [h1, Res.ok_bind]
  cases hc : tx.isCoinbase with
  | true => exact ⟨_, _, rfl⟩
  | false =>
    simp only [Bool.false_eq_true, if_false]
    obtain ⟨u2, r, h2, h3⟩ := takeInputs_total c (fun i v => ∃ p ∈ known, ∃ t, Creates p i t ∧ t.value = v) tx.inputs u1 0
      (by
        intro o t g
        by_cases hcr : ∃ t', Creates tx o t'
        · obtain ⟨t', hcr⟩ := hcr
          rw [(outputs_get h1 hl o).1 t' hcr] at g
          cases g
          exact ⟨tx, hk, _, hcr, rfl⟩
        · rw [(outputs_get h1 hl o).2 hcr] at g
          obtain ⟨p, hp, h⟩ := hu o t g
          exact ⟨p, hp, t, h, rfl⟩)
      (by
        intro js vs hp hf
        rw [Nat.zero_add]
        exact ho.2.1 js vs hp hf)
    rw [h2, Res.ok_bind]
    cases r with
    | none => exact ⟨_, _, rfl⟩
    | some n =>
      obtain ⟨vs, hf, e⟩ := h3 n rfl
      have := ho.2.2 vs hf
      have hd : decide ((tx.outputs.map (·.value)).sum ≤ n) = true := by
        rw [decide_eq_true_eq]
        omega
      simp only [hd]
      exact ⟨_, _, rfl⟩

/-- **C74**, partial: a block in which no transaction pays out more than it takes in does not crash the estimator.  Missing: nakamoto
does not check that the transactions of a block belong to its header, so that a peer can send any (`C74_forged_block`). -/
theorem C74_no_panic_partial {c : Bool} {ops : List Op} {e : Estimator} (r : Run c ops e) (txs : List Transaction) (height : Nat)
    (sz : ∀ tx ∈ txs ++ seen ops, tx.outputs.length ≤ 2 ^ 32) (ho : ∀ tx ∈ txs, Honest (txs ++ seen ops) tx) :
    ∃ e' est, e.process c txs height = .ok (e', est) := by
  have hc := (run_created r (fun tx h => sz tx (List.mem_append_right _ h))).1
  unfold Estimator.process
  split
  · exact ⟨_, _, rfl⟩
  · have go : ∀ (l : List Transaction) (v : Utxos) (fs : List Nat), (∀ t ∈ l, t ∈ txs) →
        (∀ o t, v.get o = some t → ∃ p ∈ txs ++ seen ops, Creates p o t) → ∃ x, applyAll c l v fs = .ok x := by
      intro l
      induction l with
      | nil => intro v fs _ _; exact ⟨_, rfl⟩
      | cons a l ih =>
        intro v fs hm hv
        have ha := hm a List.mem_cons_self
        obtain ⟨v', q, h⟩ := applyTx_total c (ho a ha) (sz a (List.mem_append_left _ ha)) (List.mem_append_left _ ha) hv
        obtain ⟨x, hx⟩ := ih v' (fs ++ q.toList) (fun t ht => hm t (List.mem_cons_of_mem _ ht)) (by
          intro o t g
          rcases applyTx_created h (sz a (List.mem_append_left _ ha)) g with k | ⟨_, k⟩
          · exact ⟨a, List.mem_append_left _ ha, k⟩
          · exact hv o t k)
        exact ⟨x, by rw [applyAll, h, Res.ok_bind]; exact hx⟩
    obtain ⟨x, hx⟩ := go txs e.utxos [] (fun _ h => h) (fun o t g => by
      obtain ⟨p, hp, h⟩ := hc o t g
      exact ⟨p, List.mem_append_right _ hp, h⟩)
    rw [hx, Res.ok_bind]
    exact ⟨_, _, rfl⟩

end Verif.Fees
