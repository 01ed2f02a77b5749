import Verif.Fees.Rates

/-!
# Tracked outputs and snapshots

Helper lemmas: what applying transactions does to the tracked outputs, and what the snapshots contain.
-/

set_option autoImplicit false

namespace Verif.Fees
open Verif.Tx

theorem addAmount_mod {c : Bool} {a b s : Nat} (h : addAmount c a b = .ok s) (ha : a < 2 ^ 64) : s = (a + b) % 2 ^ 64 ∧ s < 2 ^ 64 := by
  unfold addAmount at h
  split at h
  · cases h
    constructor <;> omega
  · split at h
    · cases h
    · cases h
      constructor <;> omega

theorem addOutputs_get {c : Bool} {txid : Nat} {os : List TxOut} : ∀ {i : Nat} {u u' : Utxos} {s s' : Nat},
    addOutputs c txid i os u s = .ok (u', s') → i + os.length ≤ 2 ^ 32 → ∀ o,
    u'.get o = if o.txid = txid ∧ i ≤ o.vout ∧ o.vout < i + os.length then os[o.vout - i]? else u.get o := by
  induction os with
  | nil =>
    intro i u u' s s' h _ o
    simp only [addOutputs, Res.ok.injEq, Prod.mk.injEq] at h
    rw [← h.1, if_neg]
    simp only [List.length_nil]
    omega
  | cons x os ih =>
    intro i u u' s s' h hl o
    simp only [List.length_cons] at hl
    unfold addOutputs at h
    obtain ⟨s1, _, h⟩ := Res.bind_eq_ok.1 h
    rw [ih h (by omega) o, AMap.get_insert]
    have hi : i % 2 ^ 32 = i := Nat.mod_eq_of_lt (by omega)
    rw [hi]
    by_cases ht : o.txid = txid
    · by_cases hv : o.vout = i
      · have e : (⟨txid, i⟩ : OutPoint) = o := by cases o; simp_all
        rw [if_neg (by omega), if_pos e, if_pos (by simp only [List.length_cons]; exact ⟨ht, by omega⟩), hv]
        simp
      · have e : (⟨txid, i⟩ : OutPoint) ≠ o := fun e => hv (by rw [← e])
        rw [if_neg e]
        by_cases hr : i + 1 ≤ o.vout ∧ o.vout < i + 1 + os.length
        · rw [if_pos ⟨ht, hr⟩, if_pos (by simp only [List.length_cons]; exact ⟨ht, by omega⟩)]
          have : o.vout - i = (o.vout - (i + 1)) + 1 := by omega
          rw [this, List.getElem?_cons_succ]
        · rw [if_neg (fun x => hr x.2), if_neg (by simp only [List.length_cons]; omega)]
    · have e : (⟨txid, i⟩ : OutPoint) ≠ o := fun e => ht (by rw [← e])
      rw [if_neg (fun x => ht x.1), if_neg e, if_neg (fun x => ht x.1)]

theorem addOutputs_sum {c : Bool} {txid : Nat} {os : List TxOut} : ∀ {i : Nat} {u u' : Utxos} {s s' : Nat},
    addOutputs c txid i os u s = .ok (u', s') → s < 2 ^ 64 → s' = (s + (os.map (·.value)).sum) % 2 ^ 64 := by
  induction os with
  | nil =>
    intro i u u' s s' h hs
    simp only [addOutputs, Res.ok.injEq, Prod.mk.injEq] at h
    simp only [List.map_nil, List.sum_nil]
    omega
  | cons x os ih =>
    intro i u u' s s' h hs
    unfold addOutputs at h
    obtain ⟨s1, h1, h⟩ := Res.bind_eq_ok.1 h
    have := addAmount_mod h1 hs
    rw [ih h this.2, List.map_cons, List.sum_cons]
    omega

/-- Everything tracked afterwards was tracked before. -/
theorem takeInputs_sub {c : Bool} {is : List OutPoint} : ∀ {u u' : Utxos} {s : Nat} {r : Option Nat},
    takeInputs c is u s = .ok (u', r) → ∀ {o t}, u'.get o = some t → u.get o = some t := by
  induction is with
  | nil =>
    intro u u' s r h o t ht
    simp only [takeInputs, Res.ok.injEq, Prod.mk.injEq] at h
    rw [h.1]
    exact ht
  | cons i is ih =>
    intro u u' s r h o t ht
    unfold takeInputs at h
    split at h
    · obtain ⟨s1, _, h⟩ := Res.bind_eq_ok.1 h
      have := ih h ht
      rw [AMap.get_erase] at this
      split at this
      · cases this
      · exact this
    · simp only [Res.ok.injEq, Prod.mk.injEq] at h
      rw [h.1]
      exact ht

/-- Only inputs are no longer tracked. -/
theorem takeInputs_keep {c : Bool} {is : List OutPoint} : ∀ {u u' : Utxos} {s : Nat} {r : Option Nat},
    takeInputs c is u s = .ok (u', r) → ∀ {o}, o ∉ is → u'.get o = u.get o := by
  induction is with
  | nil =>
    intro u u' s r h o _
    simp only [takeInputs, Res.ok.injEq, Prod.mk.injEq] at h
    rw [h.1]
  | cons i is ih =>
    intro u u' s r h o ho
    rw [List.mem_cons, not_or] at ho
    unfold takeInputs at h
    split at h
    · obtain ⟨s1, _, h⟩ := Res.bind_eq_ok.1 h
      rw [ih h ho.2, AMap.get_erase_ne _ (Ne.symm ho.1)]
    · simp only [Res.ok.injEq, Prod.mk.injEq] at h
      rw [h.1]

/-- If no input was missing, no input is tracked any more; the inputs were different and tracked, and the values were summed up. -/
theorem takeInputs_some {c : Bool} {is : List OutPoint} : ∀ {u u' : Utxos} {s : Nat} {r : Nat},
    takeInputs c is u s = .ok (u', some r) → s < 2 ^ 64 →
    (∀ o ∈ is, u'.get o = none) ∧
    ∃ vs, List.Forall₂ (fun i v => ∃ t, u.get i = some t ∧ t.value = v) is vs ∧ r = (s + vs.sum) % 2 ^ 64 := by
  induction is with
  | nil =>
    intro u u' s r h hs
    simp only [takeInputs, Res.ok.injEq, Prod.mk.injEq, Option.some.injEq] at h
    refine ⟨by simp, [], .nil, ?_⟩
    simp only [List.sum_nil]
    omega
  | cons i is ih =>
    intro u u' s r h hs
    unfold takeInputs at h
    split at h
    · rename_i t ht
      obtain ⟨s1, h1, h⟩ := Res.bind_eq_ok.1 h
      have hm := addAmount_mod h1 hs
      obtain ⟨a, vs, f, e⟩ := ih h hm.2
      refine ⟨?_, t.value :: vs, .cons ⟨t, ht, rfl⟩ ?_, ?_⟩
      · intro o ho
        by_cases hi : o ∈ is
        · exact a o hi
        · rcases List.mem_cons.1 ho with rfl | ho
          · rw [takeInputs_keep h hi, AMap.get_erase_self]
          · exact absurd ho hi
      · refine f.imp ?_
        rintro o v ⟨t', ht', hv⟩
        rw [AMap.get_erase] at ht'
        split at ht'
        · cases ht'
        · exact ⟨t', ht', hv⟩
      · rw [e, List.sum_cons]
        omega
    · cases h

/-- Different inputs that are all tracked are all found. -/
theorem takeInputs_found {c : Bool} {is : List OutPoint} : ∀ {u u' : Utxos} {s : Nat} {r : Option Nat},
    takeInputs c is u s = .ok (u', r) → is.Nodup → (∀ i ∈ is, ∃ t, u.get i = some t) → ∃ n, r = some n := by
  induction is with
  | nil =>
    intro u u' s r h _ _
    simp only [takeInputs, Res.ok.injEq, Prod.mk.injEq] at h
    exact ⟨_, h.2.symm⟩
  | cons i is ih =>
    intro u u' s r h hn ha
    rw [List.nodup_cons] at hn
    unfold takeInputs at h
    split at h
    · obtain ⟨s1, _, h⟩ := Res.bind_eq_ok.1 h
      refine ih h hn.2 ?_
      intro j hj
      have : i ≠ j := fun e => hn.1 (e ▸ hj)
      rw [AMap.get_erase_ne _ this]
      exact ha j (List.mem_cons_of_mem _ hj)
    · rename_i hnone
      obtain ⟨t, ht⟩ := ha i List.mem_cons_self
      rw [hnone] at ht
      cases ht

/-- The tracked outputs once those of a transaction were added. -/
theorem outputs_get {c : Bool} {tx : Transaction} {u u' : Utxos} {s : Nat} (h : addOutputs c tx.txid 0 tx.outputs u 0 = .ok (u', s))
    (hl : tx.outputs.length ≤ 2 ^ 32) (o : OutPoint) :
    (∀ t, Creates tx o t → u'.get o = some t) ∧ ((¬ ∃ t, Creates tx o t) → u'.get o = u.get o) := by
  have := addOutputs_get h (by omega) o
  rw [this]
  constructor
  · rintro t ⟨h1, h2⟩
    have hv := (List.getElem?_eq_some_iff.1 h2).1
    rw [if_pos ⟨h1, by omega, by omega⟩]
    simpa using h2
  · intro hn
    rw [if_neg]
    rintro ⟨h1, _, h2⟩
    have h2' : o.vout < tx.outputs.length := by omega
    exact hn ⟨_, h1, List.getElem?_eq_getElem h2'⟩

/-- What applying a transaction does. -/
theorem applyTx_cases {c : Bool} {tx : Transaction} {u u' : Utxos} {r : Option Nat} (h : applyTx c u tx = .ok (u', r)) :
    ∃ u1 sent, addOutputs c tx.txid 0 tx.outputs u 0 = .ok (u1, sent) ∧
      ((tx.isCoinbase = true ∧ u' = u1 ∧ r = none) ∨
       (tx.isCoinbase = false ∧ ∃ rec, takeInputs c tx.inputs u1 0 = .ok (u', rec) ∧
        ((rec = none ∧ r = none) ∨ ∃ n, rec = some n ∧ sent ≤ n ∧ r = some (rate (n - sent) tx.weight)))) := by
  unfold applyTx at h
  obtain ⟨⟨u1, sent⟩, h1, h⟩ := Res.bind_eq_ok.1 h
  refine ⟨u1, sent, h1, ?_⟩
  cases hc : tx.isCoinbase with
  | true =>
    left
    simp only [hc, if_true, Res.ok.injEq, Prod.mk.injEq] at h
    exact ⟨rfl, h.1.symm, h.2.symm⟩
  | false =>
    right
    simp only [hc, Bool.false_eq_true, if_false] at h
    obtain ⟨⟨u2, rec⟩, h2, h⟩ := Res.bind_eq_ok.1 h
    cases rec with
    | none =>
      simp only [Res.ok.injEq, Prod.mk.injEq] at h
      refine ⟨rfl, none, ?_, Or.inl ⟨rfl, h.2.symm⟩⟩
      rw [h2, h.1]
    | some n =>
      simp only at h
      obtain ⟨⟨⟩, h3, h⟩ := Res.bind_eq_ok.1 h
      have hle : sent ≤ n := by
        by_contra hc
        rw [decide_eq_false hc] at h3
        cases h3
      simp only [Res.ok.injEq, Prod.mk.injEq] at h
      refine ⟨rfl, some n, ?_, Or.inr ⟨n, rfl, hle, h.2.symm⟩⟩
      rw [h2, h.1]

/-- Unspent outputs stay tracked. -/
theorem applyTx_unspent {c : Bool} {tx : Transaction} {u u' : Utxos} {r : Option Nat} (h : applyTx c u tx = .ok (u', r))
    (hl : tx.outputs.length ≤ 2 ^ 32) {l : List Transaction} (ih : ∀ o t, Unspent l o t → u.get o = some t) {o : OutPoint} {t : TxOut}
    (hu : Unspent (tx :: l) o t) : u'.get o = some t := by
  obtain ⟨u1, sent, h1, hc⟩ := applyTx_cases h
  obtain ⟨ns, hcr⟩ := hu
  have a := outputs_get h1 hl o
  have hg : u1.get o = some t := by
    rcases hcr with hcr | ⟨hn, hu⟩
    · exact a.1 t hcr
    · rw [a.2 hn]
      exact ih o t hu
  rcases hc with ⟨_, rfl, _⟩ | ⟨hcb, rec, h2, _⟩
  · exact hg
  · rw [takeInputs_keep h2, hg]
    rw [spends, hcb] at ns
    simpa using ns

/-- Tracked outputs were created. -/
theorem applyTx_created {c : Bool} {tx : Transaction} {u u' : Utxos} {r : Option Nat} (h : applyTx c u tx = .ok (u', r))
    (hl : tx.outputs.length ≤ 2 ^ 32) {o : OutPoint} {t : TxOut} (hg : u'.get o = some t) :
    Creates tx o t ∨ (¬ ∃ t', Creates tx o t') ∧ u.get o = some t := by
  obtain ⟨u1, sent, h1, hc⟩ := applyTx_cases h
  have a := outputs_get h1 hl o
  have hg1 : u1.get o = some t := by
    rcases hc with ⟨_, rfl, _⟩ | ⟨hcb, rec, h2, _⟩
    · exact hg
    · exact takeInputs_sub h2 hg
  by_cases hcr : ∃ t', Creates tx o t'
  · obtain ⟨t', hcr⟩ := hcr
    rw [a.1 t' hcr] at hg1
    cases hg1
    exact Or.inl hcr
  · rw [a.2 hcr] at hg1
    exact Or.inr ⟨hcr, hg1⟩

/-- If all inputs are known, they are no longer tracked. -/
theorem applyTx_spent {c : Bool} {tx : Transaction} {u u' : Utxos} {r : Option Nat} (h : applyTx c u tx = .ok (u', r))
    (hl : tx.outputs.length ≤ 2 ^ 32) (hn : (spends tx).Nodup) (hk : ∀ i ∈ spends tx, ∃ t, Creates tx i t ∨ u.get i = some t)
    {o : OutPoint} (ho : o ∈ spends tx) : u'.get o = none := by
  obtain ⟨u1, sent, h1, hc⟩ := applyTx_cases h
  rcases hc with ⟨hcb, rfl, _⟩ | ⟨hcb, rec, h2, _⟩
  · rw [spends, hcb] at ho
    simp at ho
  · have es : spends tx = tx.inputs := by simp [spends, hcb]
    rw [es] at hn hk ho
    obtain ⟨n, rfl⟩ := takeInputs_found h2 hn (by
      intro i hi
      have a := outputs_get h1 hl i
      by_cases hcr : ∃ t', Creates tx i t'
      · obtain ⟨t', hcr⟩ := hcr
        exact ⟨t', a.1 t' hcr⟩
      · obtain ⟨t, ht⟩ := hk i hi
        rcases ht with ht | ht
        · exact absurd ⟨t, ht⟩ hcr
        · exact ⟨t, by rw [a.2 hcr]; exact ht⟩)
    exact (takeInputs_some h2 (by norm_num)).1 o ho

/-- The transactions `l` (most recent first) lead from nothing to the tracked outputs `u`. -/
inductive Built (c : Bool) : List Transaction → Utxos → Prop where
  | nil : Built c [] []
  | cons {l : List Transaction} {u u' : Utxos} {tx : Transaction} {r : Option Nat} (b : Built c l u) (e : applyTx c u tx = .ok (u', r)) :
      Built c (tx :: l) u'

theorem Built.unique {c : Bool} {l : List Transaction} {u v : Utxos} (a : Built c l u) (b : Built c l v) : u = v := by
  induction a generalizing v with
  | nil => cases b; rfl
  | cons _ e ih =>
    cases b with
    | cons b' e' =>
      have := ih b'
      subst this
      rw [e] at e'
      cases e'
      rfl

theorem Built.unspent {c : Bool} {l : List Transaction} {u : Utxos} (b : Built c l u) (hl : ∀ tx ∈ l, tx.outputs.length ≤ 2 ^ 32) :
    ∀ o t, Unspent l o t → u.get o = some t := by
  induction b with
  | nil => intro o t h; exact absurd h id
  | cons b e ih =>
    intro o t h
    exact applyTx_unspent e (hl _ List.mem_cons_self) (ih fun tx h => hl tx (List.mem_cons_of_mem _ h)) h

theorem Built.created {c : Bool} {l : List Transaction} {u : Utxos} (b : Built c l u) (hl : ∀ tx ∈ l, tx.outputs.length ≤ 2 ^ 32) :
    ∀ o t, u.get o = some t → ∃ tx ∈ l, Creates tx o t := by
  induction b with
  | nil => intro o t h; cases h
  | cons b e ih =>
    intro o t h
    rcases applyTx_created e (hl _ List.mem_cons_self) h with h | ⟨_, h⟩
    · exact ⟨_, List.mem_cons_self, h⟩
    · obtain ⟨tx, m, h⟩ := ih (fun tx h => hl tx (List.mem_cons_of_mem _ h)) o t h
      exact ⟨tx, List.mem_cons_of_mem _ m, h⟩

theorem Built.exact {c : Bool} {l : List Transaction} {u : Utxos} (b : Built c l u) (hl : ∀ tx ∈ l, tx.outputs.length ≤ 2 ^ 32)
    (hc : Complete l) : ∀ o t, u.get o = some t ↔ Unspent l o t := by
  induction b with
  | nil => intro o t; simp [Unspent]
  | cons b e ih =>
    rename_i l u u' tx r
    have ih := ih (fun tx h => hl tx (List.mem_cons_of_mem _ h)) hc.2
    have hlt := hl _ List.mem_cons_self
    intro o t
    constructor
    · intro h
      have hns : o ∉ spends tx := by
        intro ho
        have := applyTx_spent e hlt hc.1.1 (fun i hi => by
          obtain ⟨t, ht⟩ := hc.1.2 i hi
          exact ⟨t, ht.imp_right (ih i t).2⟩) ho
        rw [this] at h
        cases h
      refine ⟨hns, ?_⟩
      rcases applyTx_created e hlt h with h | ⟨h1, h⟩
      · exact Or.inl h
      · exact Or.inr ⟨h1, (ih o t).1 h⟩
    · exact applyTx_unspent e hlt (fun o t => (ih o t).2)

theorem applyAll_built {c : Bool} : ∀ {txs : List Transaction} {l : List Transaction} {u u' : Utxos} {fs fs' : List Nat},
    applyAll c txs u fs = .ok (u', fs') → Built c l u → Built c (txs.reverse ++ l) u' := by
  intro txs
  induction txs with
  | nil =>
    intro l u u' fs fs' h b
    simp only [applyAll, Res.ok.injEq, Prod.mk.injEq] at h
    rw [← h.1]
    exact b
  | cons tx txs ih =>
    intro l u u' fs fs' h b
    unfold applyAll at h
    obtain ⟨⟨u1, r⟩, h1, h⟩ := Res.bind_eq_ok.1 h
    have := ih h (Built.cons b h1)
    rw [List.reverse_cons, List.append_assoc]
    exact this

/-- The rates computed for a block: one for each transaction whose application gives one. -/
theorem applyAll_rates {c : Bool} : ∀ {txs : List Transaction} {u u' : Utxos} {fs fs' : List Nat},
    applyAll c txs u fs = .ok (u', fs') → ∀ r, r ∈ fs' ↔ r ∈ fs ∨ ∃ pre tx post u1 u2 gs, txs = pre ++ tx :: post ∧
      applyAll c pre u [] = .ok (u1, gs) ∧ applyTx c u1 tx = .ok (u2, some r) := by
  intro txs
  induction txs with
  | nil =>
    intro u u' fs fs' h r
    simp only [applyAll, Res.ok.injEq, Prod.mk.injEq] at h
    simp [h.2]
  | cons tx txs ih =>
    intro u u' fs fs' h r
    unfold applyAll at h
    obtain ⟨⟨u1, r1⟩, h1, h⟩ := Res.bind_eq_ok.1 h
    rw [ih h r, List.mem_append]
    have fees : ∀ {pre : List Transaction} {v v' : Utxos} {gs gs' : List Nat}, applyAll c pre v gs = .ok (v', gs') →
        ∀ ks, ∃ ks', applyAll c pre v ks = .ok (v', ks') := by
      intro pre
      induction pre with
      | nil =>
        intro v v' gs gs' h ks
        simp only [applyAll, Res.ok.injEq, Prod.mk.injEq] at h
        exact ⟨ks, by rw [applyAll, h.1]⟩
      | cons t pre ihp =>
        intro v v' gs gs' h ks
        unfold applyAll at h
        obtain ⟨⟨v1, q⟩, e, h⟩ := Res.bind_eq_ok.1 h
        obtain ⟨ks', e'⟩ := ihp h (ks ++ q.toList)
        exact ⟨ks', by rw [applyAll, e, Res.ok_bind]; exact e'⟩
    constructor
    · rintro ((h2 | h2) | ⟨pre, tx', post, v1, v2, gs, e, h2, h3⟩)
      · exact Or.inl h2
      · right
        refine ⟨[], tx, txs, u, u1, [], rfl, rfl, ?_⟩
        rw [h1]
        cases r1 with
        | none => simp at h2
        | some q =>
          simp only [Option.toList_some, List.mem_singleton] at h2
          rw [h2]
      · right
        obtain ⟨ks, hk⟩ := fees h2 r1.toList
        refine ⟨tx :: pre, tx', post, v1, v2, ks, by rw [e]; rfl, ?_, h3⟩
        rw [applyAll, h1, Res.ok_bind]
        exact hk
    · rintro (h2 | ⟨pre, tx', post, v1, v2, gs, e, h2, h3⟩)
      · exact Or.inl (Or.inl h2)
      · cases pre with
        | nil =>
          simp only [List.nil_append, List.cons.injEq] at e
          simp only [applyAll, Res.ok.injEq, Prod.mk.injEq] at h2
          rw [← e.1, ← h2.1, h1] at h3
          simp only [Res.ok.injEq, Prod.mk.injEq] at h3
          left; right
          simp [h3.2]
        | cons p pre =>
          simp only [List.cons_append, List.cons.injEq] at e
          rw [applyAll, ← e.1, h1, Res.ok_bind] at h2
          obtain ⟨ks, hk⟩ := fees h2 []
          right
          exact ⟨pre, tx', post, v1, v2, ks, e.2, hk, h3⟩

/-- Snapshots (most recent first) of a chain: the states before its last blocks. -/
inductive Snaps (c : Bool) : List (Nat × List Transaction) → List (Nat × Utxos) → Prop where
  | nil {ch : List (Nat × List Transaction)} : Snaps c ch []
  | cons {ch : List (Nat × List Transaction)} {b : Nat × List Transaction} {u : Utxos} {s : List (Nat × Utxos)} (bu : Built c (txsOf ch) u)
      (r : Snaps c ch s) : Snaps c (b :: ch) ((top ch, u) :: s)

theorem Snaps.take {c : Bool} {ch : List (Nat × List Transaction)} {s : List (Nat × Utxos)} (h : Snaps c ch s) (n : Nat) :
    Snaps c ch (s.take n) := by
  induction h generalizing n with
  | nil => simpa using Snaps.nil
  | cons bu r ih =>
    cases n with
    | zero => exact Snaps.nil
    | succ n => exact Snaps.cons bu (ih n)

/-- Heights of a chain increase strictly. -/
def Rising : List (Nat × List Transaction) → Prop
  | [] => True
  | b :: ch => top ch < b.1 ∧ Rising ch

theorem rising_le {ch : List (Nat × List Transaction)} (h : Rising ch) : ∀ b ∈ ch, b.1 ≤ top ch := by
  induction ch with
  | nil => simp
  | cons x ch ih =>
    intro b hb
    rcases List.mem_cons.1 hb with rfl | hb
    · exact le_refl _
    · exact le_trans (ih h.2 b hb) h.1.le

theorem Snaps.le {c : Bool} {ch : List (Nat × List Transaction)} {s : List (Nat × Utxos)} (h : Snaps c ch s) (hr : Rising ch) :
    ∀ x ∈ s, x.1 ≤ top ch.tail := by
  induction h with
  | nil => simp
  | cons bu r ih =>
    rename_i ch b u s
    intro x hx
    rcases List.mem_cons.1 hx with rfl | hx
    · exact le_refl _
    · have := ih hr.2 x hx
      cases ch with
      | nil => exact this
      | cons y ch => exact le_trans this hr.2.1.le

theorem rising_dropWhile {ch : List (Nat × List Transaction)} (h : Rising ch) (n : Nat) : Rising (ch.dropWhile (fun b => n < b.1)) := by
  induction ch with
  | nil => exact h
  | cons x ch ih =>
    rw [List.dropWhile_cons]
    split
    · exact ih h.2
    · exact h

theorem rising_chainOf (ops : List Op) : Rising (chainOf ops) := by
  induction ops with
  | nil => exact trivial
  | cons op ops ih =>
    cases op with
    | process txs h =>
      unfold chainOf
      split
      · exact ih
      · exact ⟨by omega, ih⟩
    | rollback h => exact rising_dropWhile ih h

/-- Rolling back: of the snapshots up to the height, the most recent one is that of the remaining chain. -/
theorem snaps_rollback {c : Bool} {ch : List (Nat × List Transaction)} {s : List (Nat × Utxos)} (h : Snaps c ch s) (hr : Rising ch) {n : Nat}
    (h1 : n < top ch) (h2 : (ch.takeWhile (fun b => n < b.1)).length ≤ s.length) :
    ∃ u s', s.filter (fun x => x.1 ≤ n) = (top (ch.dropWhile (fun b => n < b.1)), u) :: s' ∧
      Built c (txsOf (ch.dropWhile (fun b => n < b.1))) u ∧ Snaps c (ch.dropWhile (fun b => n < b.1)) s' ∧
      s'.length = s.length - (ch.takeWhile (fun b => n < b.1)).length := by
  induction h with
  | nil =>
    rename_i ch
    cases ch with
    | nil => simp [top] at h1
    | cons x ch =>
      exfalso
      have : n < x.1 := h1
      simp [this] at h2
  | cons bu r ih =>
    rename_i ch b u s
    have hb : n < b.1 := h1
    have e1 : (b :: ch).dropWhile (fun b => decide (n < b.1)) = ch.dropWhile (fun b => decide (n < b.1)) := by
      simp [hb]
    have e2 : (b :: ch).takeWhile (fun b => decide (n < b.1)) = b :: ch.takeWhile (fun b => decide (n < b.1)) := by
      simp [hb]
    rw [e2, List.length_cons, List.length_cons] at h2
    rw [e1, e2]
    by_cases ht : top ch ≤ n
    · have e3 : ch.dropWhile (fun b => decide (n < b.1)) = ch := by
        cases ch with
        | nil => rfl
        | cons y ch =>
          have : ¬ n < y.1 := not_lt.2 ht
          simp [this]
      have e4 : ch.takeWhile (fun b => decide (n < b.1)) = [] := by
        cases ch with
        | nil => rfl
        | cons y ch =>
          have : ¬ n < y.1 := not_lt.2 ht
          simp [this]
      rw [e3, e4]
      refine ⟨u, s, ?_, bu, r, by simp⟩
      rw [List.filter_cons, if_pos (by simpa using ht)]
      congr 1
      rw [List.filter_eq_self]
      intro x hx
      have := r.le hr.2 x hx
      have : top ch.tail ≤ top ch := by
        cases ch with
        | nil => exact le_refl _
        | cons y ch => exact hr.2.1.le
      simp only [decide_eq_true_eq]
      omega
    · have ht := not_le.1 ht
      obtain ⟨u', s', e, b', r', l'⟩ := ih hr.2 ht (by omega)
      refine ⟨u', s', ?_, b', r', ?_⟩
      · rw [List.filter_cons, if_neg (by simpa using ht)]
        exact e
      · rw [l', List.length_cons, List.length_cons]
        omega

/-- The state of an estimator that was only rolled back within the limits. -/
structure Inv (c : Bool) (ops : List Op) (e : Estimator) : Prop where
  height : e.height = top (chainOf ops)
  utxos : Built c (txsOf (chainOf ops)) e.utxos
  snaps : Snaps c (chainOf ops) e.snapshots.reverse
  length : e.snapshots.length = depth ops

theorem process_ok {c : Bool} {e e' : Estimator} {txs : List Transaction} {h : Nat} {est : Option Estimate}
    (eq : e.process c txs h = .ok (e', est)) :
    (h ≤ e.height ∧ e' = e ∧ est = none) ∨
    (e.height < h ∧ ∃ u fees, applyAll c txs e.utxos [] = .ok (u, fees) ∧ est = Estimate.ofRates fees ∧
      e'.utxos = u ∧ e'.height = h ∧ e'.snapshots.reverse = ((e.height, e.utxos) :: e.snapshots.reverse).take (max 12 e.snapshots.length)) := by
  unfold Estimator.process at eq
  split at eq
  · left
    simp only [Res.ok.injEq, Prod.mk.injEq] at eq
    exact ⟨by assumption, eq.1.symm, eq.2.symm⟩
  · right
    obtain ⟨⟨u, fees⟩, h1, eq⟩ := Res.bind_eq_ok.1 eq
    simp only [Res.ok.injEq, Prod.mk.injEq] at eq
    refine ⟨by omega, u, fees, h1, eq.2.symm, ?_⟩
    rw [← eq.1]
    refine ⟨rfl, rfl, ?_⟩
    unfold maxSnapshots
    simp only [List.length_append, List.length_singleton]
    split
    · rename_i hlt
      cases hs : e.snapshots with
      | nil => simp [hs] at hlt
      | cons x l =>
        rw [hs] at hlt
        simp only [List.length_cons] at hlt
        simp only [List.cons_append, List.tail_cons, List.reverse_append, List.reverse_cons, List.reverse_nil, List.nil_append,
          List.length_cons]
        rw [Nat.max_eq_right (by omega), List.take_succ_cons, List.take_append_of_le_length (by simp), List.take_of_length_le (by simp)]
    · rw [List.reverse_append, List.reverse_singleton, List.singleton_append, List.take_of_length_le]
      simp only [List.length_cons, List.length_reverse]
      omega

theorem snapshots_le {c : Bool} {ops : List Op} {e : Estimator} (r : Run c ops e) : e.snapshots.length ≤ 12 := by
  induction r with
  | start => simp [Estimator.new]
  | process r eq ih =>
    rcases process_ok eq with ⟨_, rfl, _⟩ | ⟨_, u, f, _, _, _, _, h⟩
    · exact ih
    · have := congrArg List.length h
      simp only [List.length_reverse, List.length_take, List.length_cons] at this
      omega
  | rollback r eq ih =>
    rename_i ops e e' n
    unfold Estimator.rollback at eq
    have hf := List.length_filter_le (fun s : Nat × Utxos => decide (s.1 ≤ n)) e.snapshots
    simp only at eq
    split at eq
    · obtain ⟨⟨⟩, _, eq⟩ := Res.bind_eq_ok.1 eq
      simp only [Res.ok.injEq] at eq
      rw [← eq]
      simp only [List.length_dropLast]
      omega
    · simp only [Res.ok.injEq] at eq
      rw [← eq]
      exact le_trans hf ih

theorem run_inv {c : Bool} {ops : List Op} {e : Estimator} (r : Run c ops e) (w : Within ops) : Inv c ops e := by
  induction r with
  | start => exact ⟨rfl, .nil, .nil, rfl⟩
  | process r eq ih =>
    rename_i ops e e' txs h est
    have ih := ih w
    have hle := snapshots_le r
    rcases process_ok eq with ⟨hh, rfl, _⟩ | ⟨hh, u, f, ha, _, hu, he, hs⟩
    · rw [ih.height] at hh
      constructor
      · rw [chainOf, if_pos hh]; exact ih.height
      · rw [chainOf, if_pos hh]; exact ih.utxos
      · rw [chainOf, if_pos hh]; exact ih.snaps
      · rw [depth, if_pos hh]; exact ih.length
    · rw [ih.height] at hh
      have hh := not_le.2 hh
      constructor
      · rw [chainOf, if_neg hh, he]; rfl
      · rw [chainOf, if_neg hh, hu]
        exact applyAll_built ha ih.utxos
      · rw [chainOf, if_neg hh, hs, ih.height]
        exact (Snaps.cons ih.utxos ih.snaps).take _
      · rw [depth, if_neg hh]
        have := congrArg List.length hs
        simp only [List.length_reverse, List.length_take, List.length_cons] at this
        have := ih.length
        omega
  | rollback r eq ih =>
    rename_i ops e e' n
    obtain ⟨w1, w2, w3⟩ := w
    have ih := ih w3
    obtain ⟨u, s', ef, bu, sn, hl⟩ := snaps_rollback ih.snaps (rising_chainOf ops) w1 (by rw [List.length_reverse, ih.length]; exact w2)
    rw [List.filter_reverse] at ef
    have ef2 : e.snapshots.filter (fun x => decide (x.1 ≤ n)) = s'.reverse ++ [(top ((chainOf ops).dropWhile (fun b => n < b.1)), u)] := by
      have := congrArg List.reverse ef
      rw [List.reverse_reverse, List.reverse_cons] at this
      exact this
    unfold Estimator.rollback at eq
    simp only [ef2, List.getLast?_append, List.getLast?_singleton, Option.some_or] at eq
    obtain ⟨⟨⟩, _, eq⟩ := Res.bind_eq_ok.1 eq
    simp only [Res.ok.injEq, List.dropLast_concat] at eq
    rw [← eq]
    constructor
    · rfl
    · exact bu
    · rw [List.reverse_reverse]
      exact sn
    · rw [List.length_reverse, hl, List.length_reverse, ih.length]
      rfl

theorem getLast?_filter_mem {α : Type} {p : α → Bool} {l : List α} {x : α} (h : (l.filter p).getLast? = some x) : x ∈ l ∧ p x = true := by
  have := List.mem_of_getLast? h
  exact List.mem_filter.1 this

/-- Tracked outputs were created by some processed transaction, whatever the rollbacks. -/
theorem run_created {c : Bool} {ops : List Op} {e : Estimator} (r : Run c ops e) (hl : ∀ tx ∈ seen ops, tx.outputs.length ≤ 2 ^ 32) :
    (∀ o t, e.utxos.get o = some t → ∃ tx ∈ seen ops, Creates tx o t) ∧
    ∀ s ∈ e.snapshots, ∀ o t, s.2.get o = some t → ∃ tx ∈ seen ops, Creates tx o t := by
  have apply : ∀ {txs : List Transaction} {u u' : Utxos} {fs fs' : List Nat} {k : List Transaction},
      applyAll c txs u fs = .ok (u', fs') → (∀ tx ∈ txs, tx.outputs.length ≤ 2 ^ 32 ∧ tx ∈ k) →
      (∀ o t, u.get o = some t → ∃ tx ∈ k, Creates tx o t) → ∀ o t, u'.get o = some t → ∃ tx ∈ k, Creates tx o t := by
    intro txs
    induction txs with
    | nil =>
      intro u u' fs fs' k h _ hu
      simp only [applyAll, Res.ok.injEq, Prod.mk.injEq] at h
      rw [← h.1]
      exact hu
    | cons tx txs ih =>
      intro u u' fs fs' k h hk hu
      unfold applyAll at h
      obtain ⟨⟨u1, r1⟩, h1, h⟩ := Res.bind_eq_ok.1 h
      refine ih h (fun t ht => hk t (List.mem_cons_of_mem _ ht)) ?_
      intro o t ht
      have hk1 := hk tx List.mem_cons_self
      rcases applyTx_created h1 hk1.1 ht with h2 | ⟨_, h2⟩
      · exact ⟨tx, hk1.2, h2⟩
      · exact hu o t h2
  induction r with
  | start =>
    constructor
    · intro o t h
      cases h
    · intro s h
      cases h
  | process r eq ih =>
    rename_i ops e e' txs h est
    have ih := ih (fun tx h => hl tx (List.mem_append_right _ h))
    have wk : ∀ {o t}, (∃ tx ∈ seen ops, Creates tx o t) → ∃ tx ∈ seen (.process txs h :: ops), Creates tx o t :=
      fun ⟨tx, m, h⟩ => ⟨tx, List.mem_append_right _ m, h⟩
    rcases process_ok eq with ⟨hh, rfl, _⟩ | ⟨hh, u, f, ha, _, hu, he, hs⟩
    · exact ⟨fun o t g => wk (ih.1 o t g), fun s m o t g => wk (ih.2 s m o t g)⟩
    · constructor
      · rw [hu]
        exact apply ha (fun tx m => ⟨hl tx (List.mem_append_left _ m), List.mem_append_left _ m⟩) (fun o t g => wk (ih.1 o t g))
      · intro s hm o t g
        have hm : s ∈ e'.snapshots.reverse := by simpa using hm
        rw [hs] at hm
        rcases List.mem_cons.1 (List.mem_of_mem_take hm) with rfl | hm
        · exact wk (ih.1 o t g)
        · exact wk (ih.2 s (by simpa using hm) o t g)
  | rollback r eq ih =>
    rename_i ops e e' n
    have ih := ih hl
    unfold Estimator.rollback at eq
    simp only at eq
    split at eq
    · rename_i h u hlast
      obtain ⟨⟨⟩, _, eq⟩ := Res.bind_eq_ok.1 eq
      simp only [Res.ok.injEq] at eq
      rw [← eq]
      constructor
      · exact ih.2 _ (getLast?_filter_mem hlast).1
      · intro s hm
        exact ih.2 s (List.mem_filter.1 (List.mem_of_mem_dropLast hm)).1
    · simp only [Res.ok.injEq] at eq
      rw [← eq]
      exact ⟨ih.1, fun s hm => ih.2 s (List.mem_filter.1 hm).1⟩

theorem chainOf_seen (ops : List Op) : ∀ tx ∈ txsOf (chainOf ops), tx ∈ seen ops := by
  have drop : ∀ (p : Nat × List Transaction → Bool) (ch : List (Nat × List Transaction)), ∀ tx ∈ txsOf (ch.dropWhile p), tx ∈ txsOf ch := by
    intro p ch
    induction ch with
    | nil => simp
    | cons x ch ih =>
      intro tx h
      rw [List.dropWhile_cons] at h
      split at h
      · exact List.mem_append_right _ (ih tx h)
      · exact h
  induction ops with
  | nil => simp [chainOf, txsOf]
  | cons op ops ih =>
    cases op with
    | process txs h =>
      intro tx
      unfold chainOf seen
      split
      · intro m
        exact List.mem_append_right _ (ih tx m)
      · intro m
        have m : tx ∈ txs.reverse ++ txsOf (chainOf ops) := m
        rcases List.mem_append.1 m with m | m
        · exact List.mem_append_left _ (by simpa using m)
        · exact List.mem_append_right _ (ih tx m)
    | rollback h =>
      intro tx m
      exact ih tx (drop _ _ tx m)

end Verif.Fees
