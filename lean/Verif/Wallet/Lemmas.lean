import Verif.Wallet.Spec
import Mathlib.Data.List.Perm.Basic
import Mathlib.Data.List.Nodup

/-!
# The wallet: helper lemmas
-/

set_option autoImplicit false

namespace Verif.Wallet
open Verif.Tx (OutPoint TxOut Transaction Block)

variable {c : Codec} {addrs scripts : List Nat} {txs : List Transaction} {db db' : Db}

theorem toU64_toI64 {n : Nat} (h : n < 2 ^ 64) : toU64 (toI64 n) = n := by
  unfold toU64 toI64
  rw [Nat.mod_eq_of_lt h]
  split <;> omega

theorem toI64_small {n : Nat} (h : n < 2 ^ 63) : toI64 n = n := by
  unfold toI64
  rw [Nat.mod_eq_of_lt (by omega), if_pos h]

/-! ### Single statements -/

theorem get_append {K V : Type} [DecidableEq K] (m : AMap K V) (k k' : K) (v : V) :
    AMap.get (m ++ [(k, v)]) k' = (AMap.get m k').or (if k = k' then some v else none) := by
  induction m with
  | nil => simp [AMap.get_cons]
  | cons p m ih =>
    rw [List.cons_append, AMap.get_cons, AMap.get_cons]
    by_cases h : p.1 = k'
    · simp [h]
    · simp only [h, if_false]; exact ih

theorem get_addUtxo (k k' : OutPoint) (a v : Nat) :
    (db.addUtxo k a v).utxos.get k' = (db.utxos.get k').or (if k = k' then some ⟨a, toI64 v⟩ else none) := by
  unfold Db.addUtxo
  split
  · rename_i h
    by_cases hk : k = k'
    · subst hk
      unfold AMap.contains at h
      cases hg : db.utxos.get k with
      | none => rw [hg] at h; simp at h
      | some r => simp
    · simp [hk]
  · exact get_append _ _ _ _

theorem get_removeUtxo (k k' : OutPoint) : (db.removeUtxo k).utxos.get k' = if k = k' then none else db.utxos.get k' := by
  unfold Db.removeUtxo
  rw [AMap.get_erase]

theorem nodup_exec (h : db.utxos.keys.Nodup) (s : Stmt) : (db.exec s).utxos.keys.Nodup := by
  cases s with
  | remove k => exact AMap.nodup_erase h k
  | add k a v =>
    simp only [Db.exec, Db.addUtxo]
    split
    · exact h
    · rename_i hc
      simp only [AMap.keys, List.map_append, List.map_cons, List.map_nil]
      rw [List.nodup_append]
      refine ⟨h, by simp, ?_⟩
      intro x hx y hy
      rw [List.mem_singleton] at hy
      subst hy
      rintro rfl
      exact hc ((AMap.contains_iff _ _).2 hx)

theorem nodup_foldl (l : List Stmt) (h : db.utxos.keys.Nodup) : (l.foldl Db.exec db).utxos.keys.Nodup := by
  induction l generalizing db with
  | nil => exact h
  | cons s l ih => exact ih (nodup_exec h s)

/-! ### Transactions -/

/-- The row `apply` adds for an output. -/
def rowOf (c : Codec) (scripts : List Nat) (o : TxOut) : Option Row :=
  if scripts.contains o.script then (c.fromScript o.script).map fun a => ⟨a, toI64 o.value⟩ else none

/-- The row `apply` adds for a coin. -/
def created (c : Codec) (scripts : List Nat) (tx : Transaction) (k : OutPoint) : Option Row :=
  if k.txid = tx.txid then (tx.outputs[k.vout]?).bind (rowOf c scripts) else none

theorem get_addStmts (txid : Nat) (os : List TxOut) (v : Nat) (k : OutPoint) :
    ((addStmts c scripts txid v os).foldl Db.exec db).utxos.get k =
      (db.utxos.get k).or (if k.txid = txid ∧ v ≤ k.vout then (os[k.vout - v]?).bind (rowOf c scripts) else none) := by
  induction os generalizing db v with
  | nil => simp [addStmts]
  | cons o os ih =>
    rw [addStmts, List.foldl_append, ih]
    have h1 : ((addStmt c scripts ⟨txid, v⟩ o).foldl Db.exec db).utxos.get k =
        (db.utxos.get k).or (if (⟨txid, v⟩ : OutPoint) = k then rowOf c scripts o else none) := by
      unfold rowOf addStmt
      split
      · cases hf : c.fromScript o.script with
        | none => simp
        | some a => simp only [List.foldl_cons, List.foldl_nil, Db.exec, get_addUtxo, Option.map_some]
      · simp
    rw [h1, Option.or_assoc]
    congr 1
    obtain ⟨kt, kv⟩ := k
    by_cases ht : kt = txid
    · subst ht
      by_cases hv : v = kv
      · subst hv
        have : ¬ (v + 1 ≤ v) := by omega
        simp [this]
      · by_cases hlt : v + 1 ≤ kv
        · have e1 : kv - v = (kv - (v + 1)) + 1 := by omega
          have e2 : v ≤ kv := by omega
          simp only [OutPoint.mk.injEq, hv, and_false, if_false, Option.none_or, true_and, hlt, if_true, e2]
          rw [e1]; simp
        · have e2 : ¬ v ≤ kv := by omega
          simp [hv, hlt, e2]
    · have : ¬ txid = kt := fun h => ht h.symm
      simp [ht, this]

theorem get_removes (l : List OutPoint) (k : OutPoint) :
    ((l.map Stmt.remove).foldl Db.exec db).utxos.get k = if k ∈ l then none else db.utxos.get k := by
  induction l generalizing db with
  | nil => simp
  | cons x l ih =>
    rw [List.map_cons, List.foldl_cons, ih]
    simp only [Db.exec, get_removeUtxo, List.mem_cons]
    by_cases h1 : k ∈ l
    · simp [h1]
    · by_cases h2 : x = k
      · subst h2; simp
      · have : ¬ k = x := fun h => h2 h.symm
        simp [h1, h2, this]

theorem get_stmts (tx : Transaction) (k : OutPoint) :
    ((stmts c scripts tx).foldl Db.exec db).utxos.get k =
      if k ∈ tx.inputs then none else (db.utxos.get k).or (created c scripts tx k) := by
  rw [stmts, List.foldl_append, get_removes, get_addStmts]
  simp [created]

/-- Scripts for which there is an address. -/
def Known (c : Codec) (scripts : List Nat) : Prop := ∀ s ∈ scripts, (c.fromScript s).isSome = true

theorem addOutputs_eq (hk : Known c scripts) (txid : Nat) (os : List TxOut) (v : Nat) (db : Db) :
    addOutputs c scripts txid v os db = .ok ((addStmts c scripts txid v os).foldl Db.exec db) := by
  induction os generalizing db v with
  | nil => rfl
  | cons o os ih =>
    rw [addOutputs, addStmts, addStmt]
    by_cases hc : scripts.contains o.script = true
    · have := hk _ (by simpa using hc)
      cases hf : c.fromScript o.script with
      | none => rw [hf] at this; simp at this
      | some a =>
        rw [if_pos hc, if_pos hc]
        simp only [Res.unwrap_some, Res.ok_bind, ih, List.foldl_append, List.foldl_cons, List.foldl_nil, Db.exec]
    · rw [if_neg hc, if_neg hc]
      exact ih _ _

theorem removeInputs_eq (l : List OutPoint) (db : Db) : removeInputs l db = (l.map Stmt.remove).foldl Db.exec db := by
  unfold removeInputs
  induction l generalizing db with
  | nil => rfl
  | cons x l ih => exact ih _

theorem apply_eq (hk : Known c scripts) (tx : Transaction) (db : Db) : apply c scripts tx db = .ok ((stmts c scripts tx).foldl Db.exec db) := by
  unfold apply
  rw [addOutputs_eq hk, Res.ok_bind, removeInputs_eq, stmts, List.foldl_append]

theorem applyAll_eq (hk : Known c scripts) (txs : List Transaction) (db : Db) :
    applyAll c scripts txs db = .ok ((txs.flatMap (stmts c scripts)).foldl Db.exec db) := by
  induction txs generalizing db with
  | nil => rfl
  | cons tx txs ih => rw [applyAll, apply_eq hk, Res.ok_bind, ih, List.flatMap_cons, List.foldl_append]

theorem known_watch (hs : c.Sound) : Known c (c.watch addrs) := by
  intro s h
  obtain ⟨a, -, rfl⟩ := List.mem_map.1 h
  obtain ⟨b, hb, -⟩ := hs a
  rw [hb]; rfl

theorem created_congr {t t' : Transaction} {k : OutPoint} (h : t.txid = t'.txid → t.outputs = t'.outputs) {r r' : Row}
    (h1 : created c scripts t k = some r) (h2 : created c scripts t' k = some r') : r = r' := by
  unfold created at h1 h2
  split at h1
  case isFalse => simp at h1
  split at h2
  case isFalse => simp at h2
  rename_i e1 e2
  rw [Option.bind_eq_some_iff] at h1 h2
  obtain ⟨o, g1, g2⟩ := h1
  obtain ⟨o', g3, g4⟩ := h2
  rw [h (e1.symm.trans e2), g3] at g1
  cases g1
  rw [g2] at g4
  exact Option.some.inj g4

/-- What is in the database after a scan that began with any database. -/
theorem get_scan (ids : ∀ t ∈ txs, ∀ t' ∈ txs, t.txid = t'.txid → t.outputs = t'.outputs)
    (agree : ∀ t ∈ txs, ∀ k r r', db.utxos.get k = some r → created c scripts t k = some r' → r = r') (k : OutPoint) (r : Row) :
    ((txs.flatMap (stmts c scripts)).foldl Db.exec db).utxos.get k = some r ↔
      (∃ pre tx post, txs = pre ++ tx :: post ∧ created c scripts tx k = some r ∧ ∀ t ∈ tx :: post, k ∉ t.inputs) ∨
      (db.utxos.get k = some r ∧ ∀ t ∈ txs, k ∉ t.inputs) := by
  induction txs generalizing db with
  | nil => simp
  | cons t ts ih =>
    rw [List.flatMap_cons, List.foldl_append]
    have hg := get_stmts (c := c) (scripts := scripts) (db := db) t
    have hold : ∀ k r, db.utxos.get k = some r → created c scripts t k = none ∨ created c scripts t k = some r := by
      intro k r h
      cases hc : created c scripts t k with
      | none => exact .inl rfl
      | some r' => rw [agree t (by simp) k r r' h hc]; exact .inr rfl
    rw [ih (fun a ha b hb => ids a (by simp [ha]) b (by simp [hb]))]
    · rw [hg]
      constructor
      · rintro (⟨pre, tx, post, rfl, h2, h3⟩ | ⟨h1, h2⟩)
        · exact .inl ⟨t :: pre, tx, post, rfl, h2, h3⟩
        · split at h1
          · simp at h1
          · rename_i hk
            rcases Option.or_eq_some_iff.1 h1 with h | ⟨-, h⟩
            · exact .inr ⟨h, by simpa [hk] using h2⟩
            · exact .inl ⟨[], t, ts, rfl, h, by simpa [hk] using h2⟩
      · rintro (⟨pre, tx, post, h1, h2, h3⟩ | ⟨h1, h2⟩)
        · cases pre with
          | nil =>
            simp only [List.nil_append, List.cons.injEq] at h1
            obtain ⟨rfl, rfl⟩ := h1
            refine .inr ⟨?_, fun x hx => h3 x (by simp [hx])⟩
            rw [if_neg (h3 t (by simp))]
            cases hd : db.utxos.get k with
            | none => simpa using h2
            | some r' =>
              rcases hold k r' hd with h | h
              · rw [h] at h2; simp at h2
              · rw [h] at h2; simpa using h2
          | cons p pre =>
            simp only [List.cons_append, List.cons.injEq] at h1
            exact .inl ⟨pre, tx, post, h1.2, h2, h3⟩
        · refine .inr ⟨?_, fun x hx => h2 x (by simp [hx])⟩
          rw [if_neg (h2 t (by simp)), h1]; rfl
    · intro t' ht' k r r' h1 h2
      rw [hg] at h1
      split at h1
      · simp at h1
      · rcases Option.or_eq_some_iff.1 h1 with h | ⟨-, h⟩
        · exact agree t' (by simp [ht']) k r r' h h2
        · exact created_congr (ids t (by simp) t' (by simp [ht'])) h h2

/-! ### The rows and the coins -/

theorem created_pays (hs : c.Sound) {tx : Transaction} {k : OutPoint} {r : Row} (h : created c (c.watch addrs) tx k = some r)
    (ha : ∀ o ∈ tx.outputs, o.value < 2 ^ 64) : Pays c addrs tx k ⟨toU64 r.value, c.scriptOf r.address⟩ := by
  unfold created at h
  split at h
  · rename_i ht
    simp only [Option.bind_eq_some_iff] at h
    obtain ⟨o, h1, h2⟩ := h
    unfold rowOf at h2
    split at h2
    · rename_i hw
      simp only [List.contains_iff_mem, Codec.watch, List.mem_map] at hw
      obtain ⟨a, ha', hsa⟩ := hw
      obtain ⟨b, hb1, hb2⟩ := hs a
      rw [← hsa, hb1] at h2
      simp only [Option.map_some, Option.some.injEq] at h2
      subst h2
      have ho : o = ⟨toU64 (toI64 o.value), c.scriptOf b⟩ := by
        rw [toU64_toI64 (ha o (List.mem_of_getElem? h1)), hb2, hsa]
      exact ⟨ht, by rw [h1, ← ho], a, ha', by simp only; rw [hb2]⟩
    · simp at h2
  · simp at h

theorem pays_created (hs : c.Sound) {tx : Transaction} {k : OutPoint} {o : TxOut} (h : Pays c addrs tx k o) (ha : ∀ o ∈ tx.outputs, o.value < 2 ^ 64) :
    ∃ r, created c (c.watch addrs) tx k = some r ∧ o = ⟨toU64 r.value, c.scriptOf r.address⟩ := by
  obtain ⟨h1, h2, a, h3, h4⟩ := h
  obtain ⟨b, hb1, hb2⟩ := hs a
  refine ⟨⟨b, toI64 o.value⟩, ?_, ?_⟩
  · unfold created rowOf
    rw [if_pos h1, h2]
    simp only [Option.bind_some]
    rw [if_pos, h4, hb1]; rfl
    simp only [List.contains_iff_mem, Codec.watch, List.mem_map]
    exact ⟨a, h3, h4.symm⟩
  · obtain ⟨v, s⟩ := o
    simp only at h4
    have := ha ⟨v, s⟩ (List.mem_of_getElem? h2)
    simp only [toU64_toI64 this, hb2, h4]

theorem utxo_eq_some {k : OutPoint} {o : TxOut} :
    db.utxo c k = some o ↔ ∃ r, db.utxos.get k = some r ∧ o = ⟨toU64 r.value, c.scriptOf r.address⟩ := by
  unfold Db.utxo
  rw [Option.map_eq_some_iff]
  constructor
  · rintro ⟨r, h1, h2⟩; exact ⟨r, h1, h2.symm⟩
  · rintro ⟨r, h1, h2⟩; exact ⟨r, h1, h2.symm⟩

/-- The coins after a scan that began with any database. -/
theorem utxo_scan (hs : c.Sound) (hc : Sane txs)
    (agree : ∀ t ∈ txs, ∀ k r r', db.utxos.get k = some r → created c (c.watch addrs) t k = some r' → r = r')
    (e : applyAll c (c.watch addrs) txs db = .ok db') (k : OutPoint) (o : TxOut) :
    db'.utxo c k = some o ↔ Unspent c addrs txs k o ∨ (db.utxo c k = some o ∧ ∀ t ∈ txs, k ∉ t.inputs) := by
  rw [applyAll_eq (known_watch hs)] at e
  cases e
  rw [utxo_eq_some, utxo_eq_some]
  constructor
  · rintro ⟨r, h1, rfl⟩
    rcases (get_scan hc.ids agree k r).1 h1 with ⟨pre, tx, post, rfl, h3, h4⟩ | ⟨h2, h3⟩
    · exact .inl ⟨pre, tx, post, rfl, created_pays hs h3 (hc.amounts tx (by simp)), h4⟩
    · exact .inr ⟨⟨r, h2, rfl⟩, h3⟩
  · rintro (⟨pre, tx, post, rfl, h3, h4⟩ | ⟨⟨r, h1, h2⟩, h3⟩)
    · obtain ⟨r, h5, h6⟩ := pays_created hs h3 (hc.amounts tx (by simp))
      exact ⟨r, (get_scan hc.ids agree k r).2 (.inl ⟨pre, tx, post, rfl, h5, h4⟩), h6⟩
    · exact ⟨r, (get_scan hc.ids agree k r).2 (.inr ⟨h1, h3⟩), h2⟩

theorem nodup_applyAll (hs : c.Sound) (hn : db.utxos.keys.Nodup) (e : applyAll c (c.watch addrs) txs db = .ok db') : db'.utxos.keys.Nodup := by
  rw [applyAll_eq (known_watch hs)] at e
  cases e
  exact nodup_foldl _ hn

theorem mem_list (hn : db.utxos.keys.Nodup) (k : OutPoint) (o : TxOut) : (k, o) ∈ db.list c ↔ db.utxo c k = some o := by
  rw [utxo_eq_some]
  unfold Db.list
  rw [List.mem_map]
  constructor
  · rintro ⟨⟨k', r⟩, h1, h2⟩
    simp only [Prod.mk.injEq] at h2
    obtain ⟨rfl, rfl⟩ := h2
    exact ⟨r, AMap.get_of_mem hn h1, rfl⟩
  · rintro ⟨r, h1, rfl⟩
    exact ⟨(k, r), AMap.mem_of_get h1, rfl⟩

theorem nodup_list (hn : db.utxos.keys.Nodup) : (db.list c).Nodup := by
  apply List.Nodup.of_map (·.1)
  unfold Db.list
  rw [List.map_map]
  exact hn

/-! ### Balance -/

theorem sum_nonneg : ∀ (l : List Int), (∀ v ∈ l, 0 ≤ v) → 0 ≤ l.sum
  | [], _ => by simp
  | v :: l, h => by
    have h1 := h v (by simp)
    have h2 := sum_nonneg l (fun x hx => h x (by simp [hx]))
    rw [List.sum_cons]; omega

theorem sum_ok : ∀ (l : List Int) (s : Int), (∀ v ∈ l, 0 ≤ v) → 0 ≤ s → s + l.sum < 2 ^ 63 → sum l s = .ok (s + l.sum)
  | [], s, _, _, _ => by simp [sum]
  | v :: l, s, h, h0, h1 => by
    have hv := h v (by simp)
    have hl : 0 ≤ l.sum := sum_nonneg l (fun x hx => h x (by simp [hx]))
    rw [List.sum_cons] at h1 ⊢
    rw [sum, if_pos ⟨by omega, by omega⟩, sum_ok l (s + v) (fun x hx => h x (by simp [hx])) (by omega) (by omega)]
    congr 1
    omega

theorem sum_eq : ∀ (l : List Int) (s r : Int), sum l s = .ok r → r = s + l.sum
  | [], s, r, h => by simp [sum] at h; simp [h]
  | v :: l, s, r, h => by
    rw [sum] at h
    split at h
    · rw [sum_eq l (s + v) r h, List.sum_cons]; omega
    · simp at h

end Verif.Wallet
