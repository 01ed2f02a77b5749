import Verif.Wallet.Lemmas
import Mathlib.Data.List.Induction

/-!
# Properties of the wallet
-/

set_option autoImplicit false

namespace Verif.Wallet
open Verif.Tx (OutPoint TxOut Transaction Block)

variable {c : Codec} {addrs : List Nat} {txs : List Transaction} {db db' : Db}

theorem applyAll_append {scripts : List Nat} (a b : List Transaction) (db : Db) :
    applyAll c scripts (a ++ b) db = (applyAll c scripts a db >>= applyAll c scripts b) := by
  induction a generalizing db with
  | nil => rfl
  | cons t a ih =>
    simp only [List.cons_append, applyAll]
    cases apply c scripts t db with
    | ok d => simp only [Res.ok_bind, ih]
    | err e => rfl
    | panic => rfl

theorem scan_ok {scripts : List Nat} : ∀ (bs : List Block) {s s' : Db × Nat}, scan c scripts bs s = .ok s' →
    applyAll c scripts (bs.flatMap (·.txs)) s.1 = .ok s'.1 ∧ (bs = [] ∧ s' = s ∨ s'.1.balance = .ok s'.2)
  | [], s, s', h => by
    simp only [scan, Res.ok.injEq] at h
    subst h
    exact ⟨rfl, .inl ⟨rfl, rfl⟩⟩
  | b :: bs, s, s', h => by
    rw [scan, Res.bind_eq_ok] at h
    obtain ⟨s1, h1, h2⟩ := h
    unfold blockMatched at h1
    rw [Res.bind_eq_ok] at h1
    obtain ⟨d, h3, h4⟩ := h1
    rw [Res.bind_eq_ok] at h4
    obtain ⟨bal, h5, h6⟩ := h4
    cases h6
    obtain ⟨g1, g2⟩ := scan_ok bs h2
    rw [List.flatMap_cons, applyAll_append, h3, Res.ok_bind]
    refine ⟨g1, .inr ?_⟩
    rcases g2 with ⟨rfl, rfl⟩ | g2
    · exact h5
    · exact g2

theorem le_sum : ∀ (l : List Nat), ∀ v ∈ l, v ≤ l.sum
  | [], _, h => by simp at h
  | x :: l, v, h => by
    rw [List.sum_cons]
    rcases List.mem_cons.1 h with rfl | h
    · omega
    · have := le_sum l v h; omega

/-! ## C57 — coins and balance -/

/-- **C57 (coins).** After scanning blocks with a fresh database, the coins are exactly the outputs that the transactions pay to the wallet's addresses and
neither the same nor a later transaction spends. -/
theorem C57_coins (hs : c.Sound) {bs : List Block} (hc : Sane (bs.flatMap (·.txs))) {balance : Nat}
    (e : scan c (c.watch addrs) bs (Db.new, 0) = .ok (db, balance)) (k : OutPoint) (o : TxOut) :
    db.utxo c k = some o ↔ Unspent c addrs (bs.flatMap (·.txs)) k o := by
  rw [utxo_scan hs hc (db := Db.new) (by intro t _ k r r' h; simp [Db.new] at h) (scan_ok bs e).1]
  simp [Db.utxo, Db.new]

/-- **C57 (coins, in a chain).** If no output is spent before its transaction, these are the outputs paid to the wallet's addresses that no transaction spends. -/
theorem C57_coins_chain (hs : c.Sound) {bs : List Block} (hc : Sane (bs.flatMap (·.txs))) (ho : Ordered (bs.flatMap (·.txs))) {balance : Nat}
    (e : scan c (c.watch addrs) bs (Db.new, 0) = .ok (db, balance)) (k : OutPoint) (o : TxOut) :
    db.utxo c k = some o ↔ (∃ b ∈ bs, ∃ tx ∈ b.txs, Pays c addrs tx k o) ∧ ∀ b ∈ bs, ∀ tx ∈ b.txs, k ∉ tx.inputs := by
  rw [C57_coins hs hc e]
  constructor
  · rintro ⟨pre, tx, post, h1, h2, h3⟩
    have hm : tx ∈ bs.flatMap (·.txs) := by rw [h1]; simp
    obtain ⟨b, hb, ht⟩ := List.mem_flatMap.1 hm
    refine ⟨⟨b, hb, tx, ht, h2⟩, fun b' hb' t ht' hk => ?_⟩
    have hm' : t ∈ bs.flatMap (·.txs) := List.mem_flatMap.2 ⟨b', hb', ht'⟩
    rw [h1, List.mem_append] at hm'
    rcases hm' with hm' | hm'
    · exact ho pre tx post h1 t hm' k hk h2.1
    · exact h3 t hm' hk
  · rintro ⟨⟨b, hb, tx, ht, h2⟩, h3⟩
    obtain ⟨pre, post, h1⟩ := List.append_of_mem (List.mem_flatMap.2 ⟨b, hb, ht⟩ : tx ∈ bs.flatMap (·.txs))
    refine ⟨pre, tx, post, h1, h2, fun t ht' => ?_⟩
    have hm : t ∈ bs.flatMap (·.txs) := by rw [h1]; simp only [List.mem_append]; exact .inr ht'
    obtain ⟨b', hb', ht''⟩ := List.mem_flatMap.1 hm
    exact h3 b' hb' t ht''

/-- **C57 (balance).** The balance of a database whose coins are those in `l` is the sum of their amounts, if that is less than 2^63. -/
theorem C57_balance (hn : db.utxos.keys.Nodup) {l : List (OutPoint × TxOut)} (hl : l.Nodup) (hm : ∀ k o, (k, o) ∈ l ↔ db.utxo c k = some o)
    (ht : (l.map (·.2.value)).sum < 2 ^ 63) (hr : ∀ p ∈ db.utxos, -(2 ^ 63) ≤ p.2.value ∧ p.2.value < 2 ^ 63) :
    db.balance = .ok (l.map (·.2.value)).sum := by
  have hp : l.Perm (db.list c) := (List.perm_ext_iff_of_nodup hl (nodup_list hn)).2 (by
    rintro ⟨k, o⟩
    rw [hm, mem_list hn])
  have hsum : (l.map (·.2.value)).sum = ((db.list c).map (·.2.value)).sum := (hp.map _).sum_nat
  rw [hsum] at ht ⊢
  have hsmall : ∀ v ∈ (db.list c).map (·.2.value), v < 2 ^ 63 := fun v hv => Nat.lt_of_le_of_lt (le_sum _ v hv) ht
  have hrow : ∀ p ∈ db.utxos, p.2.value = (toU64 p.2.value : Nat) := by
    intro p hp
    have h1 := hsmall (toU64 p.2.value) (List.mem_map.2 ⟨_, List.mem_map.2 ⟨p, hp, rfl⟩, rfl⟩)
    have h2 := hr p hp
    unfold toU64 at h1 ⊢
    omega
  have hcast : (db.utxos.map (·.2.value)).sum = (((db.list c).map (·.2.value)).sum : Nat) := by
    unfold Db.list
    rw [List.map_map]
    clear hsum hp hsmall ht hm hl hn hr
    obtain ⟨rows⟩ := db
    simp only at hrow ⊢
    induction rows with
    | nil => rfl
    | cons p rows ih =>
      have h1 := ih (fun q hq => hrow q (by simp [hq]))
      have h2 := hrow p (by simp)
      simp only [List.map_cons, List.sum_cons, Function.comp_apply, Int.natCast_add] at h1 ⊢
      rw [h1, ← h2]
  unfold Db.balance
  rw [sum_ok _ 0 ?_ (by omega) ?_]
  · rw [Res.ok_bind, hcast]
    unfold toU64
    congr 1
    omega
  · intro v hv
    obtain ⟨p, hp, rfl⟩ := List.mem_map.1 hv
    rw [hrow p hp]; omega
  · rw [hcast]; omega

/-- All values in the table have 64 bits. -/
theorem range_exec {db : Db} (h : ∀ p ∈ db.utxos, -(2 ^ 63) ≤ p.2.value ∧ p.2.value < 2 ^ 63) (s : Stmt) :
    ∀ p ∈ (db.exec s).utxos, -(2 ^ 63) ≤ p.2.value ∧ p.2.value < 2 ^ 63 := by
  intro p hp
  cases s with
  | remove k => exact h p (List.mem_of_mem_filter hp)
  | add k a v =>
    simp only [Db.exec, Db.addUtxo] at hp
    split at hp
    · exact h p hp
    · simp only [List.mem_append, List.mem_singleton] at hp
      rcases hp with hp | rfl
      · exact h p hp
      · simp only [toI64]
        have := Nat.mod_lt v (show 0 < 2 ^ 64 by decide)
        split <;> omega

theorem range_foldl (l : List Stmt) {db : Db} (h : ∀ p ∈ db.utxos, -(2 ^ 63) ≤ p.2.value ∧ p.2.value < 2 ^ 63) :
    ∀ p ∈ (l.foldl Db.exec db).utxos, -(2 ^ 63) ≤ p.2.value ∧ p.2.value < 2 ^ 63 := by
  induction l generalizing db with
  | nil => exact h
  | cons s l ih => exact ih (range_exec h s)

/-- **C57 (balance shown).** After scanning at least one block, the balance shown is the sum of the amounts of the unspent outputs, if that is
less than 2^63 (there are less than 2^51 satoshis). -/
theorem C57_balance_shown (hs : c.Sound) {bs : List Block} (hc : Sane (bs.flatMap (·.txs))) (hb : bs ≠ []) {balance : Nat}
    (e : scan c (c.watch addrs) bs (Db.new, 0) = .ok (db, balance)) {l : List (OutPoint × TxOut)} (hl : l.Nodup)
    (hm : ∀ k o, (k, o) ∈ l ↔ Unspent c addrs (bs.flatMap (·.txs)) k o) (ht : (l.map (·.2.value)).sum < 2 ^ 63) :
    balance = (l.map (·.2.value)).sum := by
  have h1 := scan_ok bs e
  have h2 : db.balance = .ok balance := by
    rcases h1.2 with ⟨h, -⟩ | h
    · exact absurd h hb
    · exact h
  have h3 := h1.1
  have hn := nodup_applyAll hs (by simp [Db.new, AMap.keys]) h3
  have hr : ∀ p ∈ db.utxos, -(2 ^ 63) ≤ p.2.value ∧ p.2.value < 2 ^ 63 := by
    rw [applyAll_eq (known_watch hs)] at h3
    cases h3
    exact range_foldl _ (by simp [Db.new])
  rw [C57_balance hn hl (fun k o => by rw [hm, C57_coins hs hc e]) ht hr] at h2
  exact (Res.ok.inj h2).symm

/-- **C57 (never stops).** Blocks never crash the wallet, and do not end it as long as the coins are worth less than 2^63 after each block. -/
theorem C57_no_panic (hs : c.Sound) (scripts : List Nat) (hw : scripts = c.watch addrs) (b : Block) (db : Db) :
    blockMatched c scripts b db ≠ .panic ∧ ∃ db', applyAll c scripts b.txs db = .ok db' := by
  subst hw
  unfold blockMatched Db.balance
  rw [applyAll_eq (known_watch hs), Res.ok_bind]
  refine ⟨?_, _, rfl⟩
  generalize (List.map _ _ : List Int) = l
  generalize ((List.flatMap _ _).foldl Db.exec db) = d
  have : ∀ (l : List Int) (s : Int), sum l s ≠ .panic := by
    intro l
    induction l with
    | nil => intro s; simp [sum]
    | cons v l ih =>
      intro s
      rw [sum]
      split
      · exact ih _
      · simp
  cases h : sum l 0 with
  | ok s => simp
  | err e => simp
  | panic => exact absurd h (this l 0)

theorem scan_append {scripts : List Nat} (a b : List Block) (s : Db × Nat) :
    scan c scripts (a ++ b) s = (scan c scripts a s >>= scan c scripts b) := by
  induction a generalizing s with
  | nil => rfl
  | cons t a ih =>
    simp only [List.cons_append, scan]
    cases blockMatched c scripts t s.1 with
    | ok d => simp only [Res.ok_bind, ih]
    | err e => rfl
    | panic => rfl

/-- **C57 (runs).** The scan goes through if the unspent outputs are worth less than 2^63 after each block. -/
theorem C57_runs (hs : c.Sound) (bs : List Block) (hc : Sane (bs.flatMap (·.txs)))
    (ht : ∀ pre, pre <+: bs → ∃ l : List (OutPoint × TxOut), l.Nodup ∧ (∀ k o, (k, o) ∈ l ↔ Unspent c addrs (pre.flatMap (·.txs)) k o) ∧
      (l.map (·.2.value)).sum < 2 ^ 63) :
    ∃ db balance, scan c (c.watch addrs) bs (Db.new, 0) = .ok (db, balance) := by
  induction bs using List.reverseRecOn with
  | nil => exact ⟨_, _, rfl⟩
  | append_singleton bs b ih =>
    have hc' : Sane (bs.flatMap (·.txs)) := by
      rw [List.flatMap_append] at hc
      exact ⟨fun t ht t' ht' => hc.ids t (List.mem_append_left _ ht) t' (List.mem_append_left _ ht'), fun t ht => hc.amounts t (List.mem_append_left _ ht)⟩
    obtain ⟨db, balance, e⟩ := ih hc' (fun pre hp => ht pre (hp.trans (List.prefix_append _ _)))
    obtain ⟨db', e'⟩ := (C57_no_panic (addrs := addrs) hs _ rfl b db).2
    have e2 : applyAll c (c.watch addrs) ((bs ++ [b]).flatMap (·.txs)) Db.new = .ok db' := by
      rw [List.flatMap_append, applyAll_append, (scan_ok bs e).1, Res.ok_bind]
      simpa using e'
    obtain ⟨l, hl, hm, hsum⟩ := ht (bs ++ [b]) (List.prefix_refl _)
    have hn := nodup_applyAll hs (by simp [Db.new, AMap.keys]) e2
    have hr : ∀ p ∈ db'.utxos, -(2 ^ 63) ≤ p.2.value ∧ p.2.value < 2 ^ 63 := by
      have h3 := e2
      rw [applyAll_eq (known_watch hs)] at h3
      cases h3
      exact range_foldl _ (by simp [Db.new])
    have hb := C57_balance (c := c) hn hl (fun k o => by
      rw [hm, utxo_scan hs hc (db := Db.new) (by intro t _ k r r' h; simp [Db.new] at h) e2]
      simp [Db.utxo, Db.new]) hsum hr
    refine ⟨db', (l.map (·.2.value)).sum, ?_⟩
    rw [scan_append, e, Res.ok_bind, scan, blockMatched, e', Res.ok_bind, hb]
    rfl

/-! ## C83 — restarts -/

theorem left_rows (h : Left c addrs txs db) : ∀ k r, db.utxos.get k = some r → ∃ t ∈ txs, created c (c.watch addrs) t k = some r := by
  induction h with
  | new => intro k r h; simp [Db.new] at h
  | grow more h ih =>
    intro k r hk
    obtain ⟨t, h1, h2⟩ := ih k r hk
    exact ⟨t, by simp [h1], h2⟩
  | @stopped txs db n h ih =>
    -- the statements executed are among those of the scan
    have step : ∀ (l : List Stmt), (∀ s ∈ l, s ∈ txs.flatMap (stmts c (c.watch addrs))) → ∀ db : Db,
        (∀ k r, db.utxos.get k = some r → ∃ t ∈ txs, created c (c.watch addrs) t k = some r) →
        ∀ k r, (l.foldl Db.exec db).utxos.get k = some r → ∃ t ∈ txs, created c (c.watch addrs) t k = some r := by
      intro l
      induction l with
      | nil => intro _ db h; exact h
      | cons s l ihl =>
        intro hm db hd
        refine ihl (fun s' hs' => hm s' (by simp [hs'])) _ ?_
        intro k r hk
        obtain ⟨t, ht, hst⟩ := List.mem_flatMap.1 (hm s (by simp))
        cases s with
        | remove k' =>
          simp only [Db.exec, get_removeUtxo] at hk
          split at hk
          · simp at hk
          · exact hd k r hk
        | add k' a v =>
          simp only [Db.exec, get_addUtxo] at hk
          have hor := Option.or_eq_some_iff.1 hk
          clear hk
          rcases hor with hk | ⟨-, hk⟩
          · exact hd k r hk
          · split at hk
            · rename_i he
              subst he
              refine ⟨t, ht, ?_⟩
              rw [← hk]
              unfold stmts at hst
              simp only [List.mem_append, List.mem_map, reduceCtorEq, and_false, exists_false, or_false] at hst
              have : ∀ (os : List TxOut) (v0 : Nat), Stmt.add k' a v ∈ addStmts c (c.watch addrs) t.txid v0 os →
                  k'.txid = t.txid ∧ v0 ≤ k'.vout ∧ (os[k'.vout - v0]?).bind (rowOf c (c.watch addrs)) = some ⟨a, toI64 v⟩ := by
                intro os
                induction os with
                | nil => intro v0 h; simp [addStmts] at h
                | cons o os iho =>
                  intro v0 h
                  rw [addStmts, List.mem_append] at h
                  rcases h with h | h
                  · unfold addStmt at h
                    split at h
                    · rename_i hsc
                      split at h
                      · rename_i address hf
                        simp only [List.mem_singleton, Stmt.add.injEq] at h
                        obtain ⟨rfl, rfl, rfl⟩ := h
                        simp only [Nat.le_refl, Nat.sub_self, List.getElem?_cons_zero, Option.bind_some, rowOf, hsc, if_true, hf, Option.map_some,
                          true_and]
                      · simp at h
                    · simp at h
                  · obtain ⟨g1, g2, g3⟩ := iho _ h
                    refine ⟨g1, by omega, ?_⟩
                    rw [show k'.vout - v0 = (k'.vout - (v0 + 1)) + 1 by omega, List.getElem?_cons_succ]
                    exact g3
              obtain ⟨g1, -, g3⟩ := this _ _ hst
              unfold created
              rw [if_pos g1]
              simpa using g3
            · simp at hk
    exact step _ (fun s hs => List.mem_of_mem_take hs) db ih

/-- **C83.** A wallet that was stopped any number of times, at any point, has the right coins once it scanned the chain again:
exactly those a fresh wallet has. -/
theorem C83_restart (hs : c.Sound) (hc : Sane txs) (h : Left c addrs txs db) (e : applyAll c (c.watch addrs) txs db = .ok db') (k : OutPoint) (o : TxOut) :
    db'.utxo c k = some o ↔ Unspent c addrs txs k o := by
  have hr := left_rows h
  rw [utxo_scan hs hc (fun t ht k r r' h1 h2 => by
    obtain ⟨t', ht', h3⟩ := hr k r h1
    exact created_congr (hc.ids t' ht' t ht) h3 h2) e]
  constructor
  · rintro (h1 | ⟨h1, h2⟩)
    · exact h1
    · obtain ⟨r, h3, rfl⟩ := utxo_eq_some.1 h1
      obtain ⟨t, ht, h4⟩ := hr k r h3
      obtain ⟨pre, post, h5⟩ := List.append_of_mem ht
      refine ⟨pre, t, post, h5, created_pays hs h4 (hc.amounts t ht), fun x hx => h2 x ?_⟩
      rw [h5]; simp only [List.mem_append]; exact .inr hx
  · exact .inl

/-! ## C84 — re-organisations -/

/-- **C84.** Once a wallet that has seen the transactions `old` of another chain scanned the active chain from the beginning, it has all coins of the
active chain; any other coin it has was created on the other chain and is not spent on the active chain.  (Missing: such coins should be
gone, see `Scenario.C84_phantom`; and the coins should be right without scanning again, see `Scenario.C84_lost`.) -/
theorem C84_rescan_partial {old : List Transaction} (hs : c.Sound) (hc : Sane (old ++ txs)) (h : Left c addrs old db)
    (e : applyAll c (c.watch addrs) txs db = .ok db') (k : OutPoint) (o : TxOut) :
    (Unspent c addrs txs k o → db'.utxo c k = some o) ∧
    (db'.utxo c k = some o → Unspent c addrs txs k o ∨ ((∃ t ∈ old, Pays c addrs t k o) ∧ ∀ t ∈ txs, k ∉ t.inputs)) := by
  have hr := left_rows h
  have hc' : Sane txs := ⟨fun t ht t' ht' => hc.ids t (by simp [ht]) t' (by simp [ht']), fun t ht => hc.amounts t (by simp [ht])⟩
  have key := utxo_scan (db := db) (db' := db') hs hc' (fun t ht k r r' h1 h2 => by
    obtain ⟨t', ht', h3⟩ := hr k r h1
    exact created_congr (hc.ids t' (by simp [ht']) t (by simp [ht])) h3 h2) e k o
  refine ⟨fun hu => key.2 (.inl hu), fun hu => ?_⟩
  rcases key.1 hu with h1 | ⟨h1, h2⟩
  · exact .inl h1
  · obtain ⟨r, h3, rfl⟩ := utxo_eq_some.1 h1
    obtain ⟨t, ht, h4⟩ := hr k r h3
    exact .inr ⟨⟨t, ht, created_pays hs h4 (hc.amounts t (by simp [ht]))⟩, h2⟩

/-! ## C85 — watched addresses -/

theorem addAll_append : ∀ (l : List (Nat × Nat)) (t : List AddressRow), ((l.map (·.2)).Nodup) → (l.map (·.1)).Nodup →
    (∀ p ∈ l, ∀ r ∈ t, r.address ≠ p.2 ∧ r.index ≠ p.1) →
    l.foldl (fun t p => addAddress t p.2 p.1) t = t ++ l.map (fun p => ⟨p.2, p.1⟩)
  | [], t, _, _, _ => by simp
  | p :: l, t, h1, h2, h3 => by
    simp only [List.map_cons, List.nodup_cons] at h1 h2
    rw [List.foldl_cons]
    have : addAddress t p.2 p.1 = t ++ [⟨p.2, p.1⟩] := by
      unfold addAddress
      rw [if_neg]
      simp only [List.any_eq_true, Bool.or_eq_true, decide_eq_true_eq, not_exists, not_and]
      intro r hr
      have := h3 p (by simp) r hr
      rintro (h | h)
      · exact this.1 h
      · exact this.2 h
    rw [this, addAll_append l _ h1.2 h2.2]
    · simp
    · intro q hq r hr
      rw [List.mem_append, List.mem_singleton] at hr
      rcases hr with hr | rfl
      · exact h3 q (by simp [hq]) r hr
      · constructor
        · intro h; exact h1.1 (List.mem_map.2 ⟨q, hq, h.symm⟩)
        · intro h; exact h2.1 (List.mem_map.2 ⟨q, hq, h.symm⟩)

/-- **C85.** If the first start gets distinct addresses with distinct indexes from the device, every later start watches the same addresses, whatever the
device says then.  (Missing: the first start may be interrupted while it stores the addresses; see `Scenario.C85_interrupted`.) -/
theorem C85_watched_partial {l : List (Nat × Nat)} (h1 : (l.map (·.2)).Nodup) (h2 : (l.map (·.1)).Nodup) (hl : l ≠ []) (again : Option (List (Nat × Nat))) :
    (start (start [] (some l)).1 again).2 = (start [] (some l)).2 ∧ (start (start [] (some l)).1 again).1 = (start [] (some l)).1 := by
  have : (start [] (some l)).1 = l.map (fun p => ⟨p.2, p.1⟩) := by
    simp only [start, List.isEmpty_nil, if_true]
    rw [addAll_append l [] h1 h2 (by simp)]; rfl
  rw [this]
  have hne : (l.map (fun p => (⟨p.2, p.1⟩ : AddressRow))).isEmpty = false := by
    cases l with
    | nil => exact absurd rfl hl
    | cons p l => rfl
  simp only [start, hne, List.isEmpty_nil, if_true, Bool.false_eq_true, if_false, List.map_map, and_true]
  rfl

end Verif.Wallet
