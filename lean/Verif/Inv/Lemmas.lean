import Verif.Inv.Spec
import Mathlib.Data.List.Sort

/-!
# Lemmas about the inventory manager: what each loop does
-/

set_option autoImplicit false

namespace Verif.Inv
open Verif.Tx
open Verif.Fees (Estimator Estimate)

/-! ## Maps -/

theorem get_poolInsert (k : Nat) (t : Transaction) : ∀ (m : AMap Nat Transaction) (w : Nat),
    (poolInsert k t m).get w = if k = w then some t else m.get w
  | [], w => by simp [poolInsert, sinsert, AMap.get]
  | (k', t') :: m, w => by
    have ih := get_poolInsert k t m w
    unfold poolInsert at *
    rw [sinsert]
    simp only [decide_eq_true_eq]
    split
    · simp only [AMap.get_cons]
    · split
      · simp only [AMap.get_cons, ih]
        by_cases h1 : k' = w
        · have : k ≠ w := by omega
          simp [h1, this]
        · simp [h1]
      · have : k = k' := by omega
        subst this
        simp only [AMap.get_cons]
        split <;> rfl

theorem get_mapPeers (f : Peer → Peer) : ∀ (l : AMap Nat Peer) (a : Nat), (mapPeers f l).get a = (l.get a).map f
  | [], a => rfl
  | (b, p) :: l, a => by
    have ih := get_mapPeers f l a
    simp only [mapPeers, List.map_cons, AMap.get_cons] at ih ⊢
    split
    · rfl
    · exact ih

theorem keys_mapPeers (f : Peer → Peer) (l : AMap Nat Peer) : (mapPeers f l).keys = l.keys := by
  simp [mapPeers, AMap.keys, Function.comp_def]

theorem contains_of_get {K V : Type} [DecidableEq K] {m : AMap K V} {k : K} {v : V} (h : m.get k = some v) : m.contains k = true := by
  simp [AMap.contains, h]

theorem sorted_poolInsert {k : Nat} {t : Transaction} {m : AMap Nat Transaction} (h : SSorted (fun a b : Nat => decide (a < b)) m) :
    SSorted (fun a b : Nat => decide (a < b)) (poolInsert k t m) := sorted_sinsert natLt_total k t h

theorem sorted_erase {V : Type} {k : Nat} {m : AMap Nat V} (h : SSorted (fun a b : Nat => decide (a < b)) m) :
    SSorted (fun a b : Nat => decide (a < b)) (m.erase k) := List.Pairwise.sublist List.filter_sublist h

theorem sorted_keys {V : Type} {m : AMap Nat V} (h : SSorted (fun a b : Nat => decide (a < b)) m) : m.keys.Nodup := by
  unfold AMap.keys
  rw [List.Nodup, List.pairwise_map]
  exact h.imp (by simp; omega)

/-- The first transaction with some property is the one with the lowest witness id. -/
theorem find_sorted {q : Transaction → Bool} : ∀ {m : AMap Nat Transaction} (_ : SSorted (fun a b : Nat => decide (a < b)) m) (w : Nat) (t : Transaction),
    m.find? (fun p => q p.2) = some (w, t) ↔ (m.get w = some t ∧ q t = true) ∧ ∀ w' t', m.get w' = some t' → q t' = true → w ≤ w'
  | [], _, w, t => by simp
  | (k, x) :: m, hs, w, t => by
    have hs' := List.pairwise_cons.1 hs
    have ih := find_sorted (q := q) hs'.2 w t
    have hk : ∀ w' t', AMap.get m w' = some t' → k < w' := by
      intro w' t' h
      simpa using hs'.1 _ (AMap.mem_of_get h)
    rw [List.find?_cons]
    cases hq : q x with
    | true =>
      simp only [Option.some.injEq, Prod.mk.injEq, AMap.get_cons]
      constructor
      · rintro ⟨rfl, rfl⟩
        simp only [if_true, hq, and_self, true_and]
        intro w' t' h _
        split at h
        · omega
        · exact (hk w' t' h).le
      · rintro ⟨⟨h1, h2⟩, h3⟩
        have := h3 k x (by simp) hq
        split at h1
        · rename_i h; exact ⟨h, by simpa using h1⟩
        · have := hk w t h1; omega
    | false =>
      rw [ih]
      simp only [AMap.get_cons]
      constructor
      · rintro ⟨⟨h1, h2⟩, h3⟩
        have := hk w t h1
        refine ⟨⟨by rw [if_neg (by omega)]; exact h1, h2⟩, ?_⟩
        intro w' t' h h4
        split at h
        · simp only [Option.some.injEq] at h
          rw [h] at hq
          rw [hq] at h4
          cases h4
        · exact h3 w' t' h h4
      · rintro ⟨⟨h1, h2⟩, h3⟩
        split at h1
        · simp only [Option.some.injEq] at h1
          rw [h1] at hq
          rw [hq] at h2
          cases h2
        · refine ⟨⟨h1, h2⟩, ?_⟩
          intro w' t' h h4
          have := hk w' t' h
          exact h3 w' t' (by rw [if_neg (by omega)]; exact h) h4

theorem find_none {q : Transaction → Bool} {m : AMap Nat Transaction} (hn : m.keys.Nodup) :
    m.find? (fun p => q p.2) = none ↔ ∀ w t, m.get w = some t → q t = false := by
  rw [List.find?_eq_none]
  constructor
  · intro h w t g
    simpa using h _ (AMap.mem_of_get g)
  · rintro h ⟨w, t⟩ hm
    simpa using h w t (AMap.get_of_mem hn hm)

theorem get_foldl_insert (l : AMap Nat Transaction) : ∀ (o : AMap Nat Nat) (w : Nat), l.keys.Nodup →
    (l.foldl (fun (o : AMap Nat Nat) p => o.insert p.1 p.2.txid) o).get w =
      match l.get w with | some t => some t.txid | none => o.get w := by
  induction l with
  | nil => intro o w _; rfl
  | cons p l ih =>
    intro o w hn
    have hn' : p.1 ∉ AMap.keys l ∧ (AMap.keys l).Nodup := by simpa [AMap.keys] using hn
    rw [List.foldl_cons, ih _ _ hn'.2, AMap.get_insert, AMap.get_cons]
    by_cases h : p.1 = w
    · subst h
      rw [(AMap.get_eq_none_iff _ _).2 hn'.1]
      simp
    · simp [h]

theorem nodup_foldl_insert (l : AMap Nat Transaction) : ∀ (o : AMap Nat Nat), o.keys.Nodup →
    (l.foldl (fun (o : AMap Nat Nat) p => o.insert p.1 p.2.txid) o).keys.Nodup := by
  induction l with
  | nil => intro o h; exact h
  | cons p l ih => intro o h; exact ih _ (AMap.nodup_insert h _ _)

/-! ## Structure -/

/-- What holds of every reachable state, whatever the history. -/
structure Good (m : Mgr) : Prop where
  peers : m.peers.keys.Nodup
  outbox : ∀ a p, m.peers.get a = some p → p.outbox.keys.Nodup
  sub : ∀ a p w, m.peers.get a = some p → p.outbox.contains w = true → m.pool.contains w = true
  pool : SSorted (fun a b : Nat => decide (a < b)) m.pool
  keys : ∀ w t, m.pool.get w = some t → t.wtxid = w
  remaining : m.remaining.keys.Nodup
  received : m.received.keys.Nodup
  confirmed : m.confirmed.keys.Nodup

theorem Good.congr {m m' : Mgr} (g : Good m) (h1 : m'.peers = m.peers) (h2 : m'.pool = m.pool) (h3 : m'.remaining = m.remaining)
    (h4 : m'.received = m.received) (h5 : m'.confirmed = m.confirmed) : Good m' :=
  ⟨h1 ▸ g.peers, h1 ▸ g.outbox, h1 ▸ h2 ▸ g.sub, h2 ▸ g.pool, h2 ▸ g.keys, h3 ▸ g.remaining, h4 ▸ g.received, h5 ▸ g.confirmed⟩

theorem good_new : Good Mgr.new := by
  constructor <;> simp [Mgr.new, AMap.keys, SSorted]

theorem good_announce {m : Mgr} (g : Good m) (t : Transaction) : Good (m.announce t) := by
  refine ⟨?_, ?_, ?_, sorted_poolInsert g.pool, ?_, g.remaining, g.received, g.confirmed⟩
  · simp only [Mgr.announce, Mgr.scheduleTick, keys_mapPeers]
    exact g.peers
  · intro a p h
    simp only [Mgr.announce, Mgr.scheduleTick, get_mapPeers, Option.map_eq_some_iff] at h
    obtain ⟨q, hq, rfl⟩ := h
    have := g.outbox a q hq
    split
    · exact AMap.nodup_insert this _ _
    · exact this
  · intro a p w h hc
    simp only [Mgr.announce, Mgr.scheduleTick, get_mapPeers, Option.map_eq_some_iff] at h
    obtain ⟨q, hq, rfl⟩ := h
    simp only [Mgr.announce, Mgr.scheduleTick, AMap.contains, get_poolInsert]
    by_cases hw : t.wtxid = w
    · simp [hw]
    · rw [if_neg hw]
      refine g.sub a q w hq ?_
      split at hc
      · simpa [AMap.contains, AMap.get_insert, hw] using hc
      · exact hc
  · intro w x h
    simp only [Mgr.announce, Mgr.scheduleTick, get_poolInsert] at h
    split at h
    · cases h; assumption
    · exact g.keys w x h

/-! ## Reverted blocks -/

/-- Outputs that concern reverted transactions. -/
def revertOuts : List Transaction → List Out
  | [] => []
  | t :: ts => Out.timer 1000 :: Out.reverted t :: revertOuts ts

theorem mem_revertOuts {ts : List Transaction} {o : Out} : o ∈ revertOuts ts → o = .timer 1000 ∨ ∃ t ∈ ts, o = .reverted t := by
  induction ts with
  | nil => simp [revertOuts]
  | cons t ts ih =>
    simp only [revertOuts, List.mem_cons]
    rintro (h | h | h)
    · exact .inl h
    · exact .inr ⟨t, .inl rfl, h⟩
    · rcases ih h with h | ⟨x, hx, h⟩
      · exact .inl h
      · exact .inr ⟨x, .inr hx, h⟩

theorem reverted_mem_revertOuts {ts : List Transaction} {t : Transaction} : Out.reverted t ∈ revertOuts ts ↔ t ∈ ts := by
  induction ts with
  | nil => simp [revertOuts]
  | cons x ts ih => simp [revertOuts, ih]

theorem revertOuts_append (l l' : List Transaction) : revertOuts (l ++ l') = revertOuts l ++ revertOuts l' := by
  induction l with
  | nil => rfl
  | cons t l ih => simp [revertOuts, ih]

/-- What announcing again the given transactions does. -/
structure Again (m m' : Mgr) (ts : List Transaction) : Prop where
  out : m'.out = m.out ++ revertOuts ts
  pool : m'.pool.get = (revertOuts ts).foldl settle m.pool.get
  remaining : m'.remaining = m.remaining
  received : m'.received = m.received
  peers_none : ∀ a, m.peers.get a = none → m'.peers.get a = none
  peers_some : ∀ a p, m.peers.get a = some p → ∃ p', m'.peers.get a = some p' ∧ p'.relay = p.relay ∧ p'.network = p.network ∧
    p'.wtxidrelay = p.wtxidrelay ∧ p'.attempts = p.attempts ∧ p'.lastAttempt = p.lastAttempt ∧
    (∀ w, p'.outbox.contains w = true ↔ p.outbox.contains w = true ∨ ((∃ t ∈ ts, t.wtxid = w) ∧ p.relay = true)) ∧
    (∀ w x, p'.outbox.get w = some x → p.outbox.get w = some x ∨ ∃ t ∈ ts, t.wtxid = w ∧ t.txid = x)
  good : Good m → Good m'

theorem again_nil {m m' : Mgr} (h1 : m'.peers = m.peers) (h2 : m'.pool = m.pool) (h3 : m'.remaining = m.remaining)
    (h4 : m'.received = m.received) (h5 : m'.out = m.out) (h6 : Good m → Good m') : Again m m' [] := by
  refine ⟨by simp [h5, revertOuts], by simp [h2, revertOuts], h3, h4, by simp [h1], ?_, h6⟩
  intro a p h
  exact ⟨p, by rw [h1]; exact h, rfl, rfl, rfl, rfl, rfl, by simp, fun w x h => .inl h⟩

theorem again_one (m : Mgr) (t : Transaction) : Again m ((m.announce t).emit [.reverted t]) [t] := by
  refine ⟨?_, ?_, rfl, rfl, ?_, ?_, ?_⟩
  · simp [Mgr.announce, Mgr.emit, Mgr.scheduleTick, revertOuts]
  · funext w
    simp only [Mgr.announce, Mgr.emit, Mgr.scheduleTick, get_poolInsert, revertOuts, List.foldl_cons, List.foldl_nil, settle]
    by_cases h : w = t.wtxid
    · simp [h]
    · rw [if_neg h, if_neg (Ne.symm h)]
  · intro a h
    simp [Mgr.announce, Mgr.emit, Mgr.scheduleTick, get_mapPeers, h]
  · intro a p h
    simp only [Mgr.announce, Mgr.emit, Mgr.scheduleTick, get_mapPeers, h, Option.map_some, Option.some.injEq, exists_eq_left',
      List.mem_singleton, exists_eq_left]
    cases hr : p.relay with
    | true =>
      refine ⟨by simp, by simp, by simp, by simp, by simp, ?_, ?_⟩
      · intro w
        simp only [if_true, AMap.contains, AMap.get_insert, and_true]
        by_cases hw : t.wtxid = w <;> simp [hw]
      · intro w x hx
        simp only [if_true, AMap.get_insert] at hx
        split at hx
        · rename_i hw; cases hx; exact .inr ⟨hw, rfl⟩
        · exact .inl hx
    | false => exact ⟨by simp [hr], by simp, by simp, by simp, by simp, by simp, by simp; intro w x h; exact .inl h⟩
  · intro g
    exact (good_announce g t).congr rfl rfl rfl rfl rfl

theorem Again.trans {m1 m2 m3 : Mgr} {l l' : List Transaction} (a : Again m1 m2 l) (b : Again m2 m3 l') : Again m1 m3 (l ++ l') := by
  refine ⟨?_, ?_, b.remaining.trans a.remaining, b.received.trans a.received, fun x h => b.peers_none x (a.peers_none x h), ?_,
    fun g => b.good (a.good g)⟩
  · rw [b.out, a.out, revertOuts_append, List.append_assoc]
  · rw [b.pool, a.pool, revertOuts_append, List.foldl_append]
  · intro x p h
    obtain ⟨p', h1, r1, n1, w1, t1, l1, c1, g1⟩ := a.peers_some x p h
    obtain ⟨p'', h2, r2, n2, w2, t2, l2, c2, g2⟩ := b.peers_some x p' h1
    refine ⟨p'', h2, r2.trans r1, n2.trans n1, w2.trans w1, t2.trans t1, l2.trans l1, ?_, ?_⟩
    · intro w
      rw [c2, c1, r1]
      simp only [List.mem_append]
      constructor
      · rintro ((h | ⟨⟨t, ht, e⟩, h⟩) | ⟨⟨t, ht, e⟩, h⟩)
        · exact .inl h
        · exact .inr ⟨⟨t, .inl ht, e⟩, h⟩
        · exact .inr ⟨⟨t, .inr ht, e⟩, h⟩
      · rintro (h | ⟨⟨t, ht | ht, e⟩, h⟩)
        · exact .inl (.inl h)
        · exact .inl (.inr ⟨⟨t, ht, e⟩, h⟩)
        · exact .inr ⟨⟨t, ht, e⟩, h⟩
    · intro w y h
      rcases g2 w y h with h | ⟨t, ht, e⟩
      · rcases g1 w y h with h | ⟨t, ht, e⟩
        · exact .inl h
        · exact .inr ⟨t, List.mem_append_left _ ht, e⟩
      · exact .inr ⟨t, List.mem_append_right _ ht, e⟩

theorem again_revertTxs (ts : List Transaction) : ∀ (m : Mgr), Again m (Mgr.revertTxs ts m) ts := by
  induction ts with
  | nil => intro m; exact again_nil rfl rfl rfl rfl rfl id
  | cons t ts ih => intro m; exact (again_one m t).trans (ih _)

theorem revertTxs_keeps (ts : List Transaction) : ∀ (m : Mgr), (Mgr.revertTxs ts m).confirmed = m.confirmed ∧ (Mgr.revertTxs ts m).est = m.est := by
  induction ts with
  | nil => intro m; exact ⟨rfl, rfl⟩
  | cons t ts ih => intro m; exact ih _

theorem blockReverted_ok {c : Bool} {m m' : Mgr} {n : Nat} (h : m.blockReverted c n = .ok m') :
    Again m m' ((m.confirmed.get n).getD []) ∧ m'.confirmed = m.confirmed.erase n ∧
    m.est.rollback (if 0 < n then n - 1 else 2 ^ 64 - 1) = .ok m'.est := by
  unfold Mgr.blockReverted at h
  obtain ⟨target, h1, h⟩ := Res.bind_eq_ok.1 h
  have ht : target = if 0 < n then n - 1 else 2 ^ 64 - 1 := by
    unfold revertTarget at h1
    split at h1
    · rename_i hn; cases h1; rw [if_pos hn]
    · rename_i hn
      cases c
      · cases h1; rw [if_neg hn]
      · cases h1
  obtain ⟨est, h2, h⟩ := Res.bind_eq_ok.1 h
  rw [← ht, h2]
  simp only at h
  cases hg : m.confirmed.get n with
  | none =>
    rw [hg] at h
    cases h
    refine ⟨again_nil rfl rfl rfl rfl rfl (fun g => g.congr rfl rfl rfl rfl rfl), ?_, rfl⟩
    exact (AMap.erase_eq_self ((AMap.get_eq_none_iff _ _).1 hg)).symm
  | some ts =>
    rw [hg] at h
    cases h
    have k := revertTxs_keeps ts { m with est := est, confirmed := m.confirmed.erase n }
    refine ⟨?_, k.1, by rw [k.2]⟩
    have a := again_revertTxs ts { m with est := est, confirmed := m.confirmed.erase n }
    have b : Again m { m with est := est, confirmed := m.confirmed.erase n } [] :=
      again_nil rfl rfl rfl rfl rfl (fun g =>
        ⟨g.peers, g.outbox, g.sub, g.pool, g.keys, g.remaining, g.received, AMap.nodup_erase g.confirmed _⟩)
    exact b.trans a

theorem reverted_ok {c : Bool} : ∀ {hs : List Nat} {m m' : Mgr}, Mgr.reverted c hs m = .ok m' →
    ∃ ts, Again m m' ts ∧ (∀ t, t ∈ ts ↔ ∃ n ∈ hs, t ∈ (m.confirmed.get n).getD []) ∧
      (∀ n, m'.confirmed.get n = if n ∈ hs then none else m.confirmed.get n) ∧
      ∀ ops, Fees.Run c ops m.est →
        Fees.Run c ((hs.map fun n => Fees.Op.rollback (if 0 < n then n - 1 else 2 ^ 64 - 1)).reverse ++ ops) m'.est := by
  intro hs
  induction hs with
  | nil =>
    intro m m' h
    cases h
    exact ⟨[], again_nil rfl rfl rfl rfl rfl id, by simp, by simp, by simp⟩
  | cons n hs ih =>
    intro m m' h
    unfold Mgr.reverted at h
    obtain ⟨m1, h1, h⟩ := Res.bind_eq_ok.1 h
    obtain ⟨a1, c1, e1⟩ := blockReverted_ok h1
    obtain ⟨ts, a2, t2, c2, e2⟩ := ih h
    refine ⟨_, a1.trans a2, ?_, ?_, ?_⟩
    · intro t
      rw [List.mem_append, t2]
      simp only [c1, AMap.get_erase, List.mem_cons]
      constructor
      · rintro (ht | ⟨k, hk, ht⟩)
        · exact ⟨n, .inl rfl, ht⟩
        · split at ht
          · simp at ht
          · exact ⟨k, .inr hk, ht⟩
      · rintro ⟨k, rfl | hk, ht⟩
        · exact .inl ht
        · by_cases hkn : n = k
          · subst hkn; exact .inl ht
          · exact .inr ⟨k, hk, by rw [if_neg hkn]; exact ht⟩
    · intro k
      rw [c2, c1, AMap.get_erase]
      by_cases hk : k ∈ hs
      · simp [hk]
      · by_cases hkn : n = k
        · simp [hkn]
        · rw [if_neg hk, if_neg hkn, if_neg (by simp [hk]; exact Ne.symm hkn)]
    · intro ops r
      have := e2 _ (.rollback r e1)
      simpa [List.append_assoc] using this

/-! ## Processed blocks -/

theorem processed_append (l l' : List Out) : processed (l ++ l') = processed l ++ processed l' := by
  simp [processed]

theorem firstWith_append (w : Nat) (l l' : List Out) : firstWith w (l ++ l') = (firstWith w l).or (firstWith w l') := by
  simp [firstWith, processed_append, List.find?_append]

/-- What processing blocks does; `l` are the outputs. -/
structure Proc (c : Bool) (m m' : Mgr) (l : List Out) : Prop where
  out : m'.out = m.out ++ l
  only : ∀ o ∈ l, (∃ id hash n, o = .confirmed id hash n) ∨ ∃ b n f, o = .processed b n f
  pool : m'.pool.get = l.foldl settle m.pool.get
  poolGet : ∀ w, m'.pool.get w = if (firstWith w l).isSome then none else m.pool.get w
  remaining : m'.remaining = m.remaining
  lastTick : m'.lastTick = m.lastTick
  peers_none : ∀ a, m.peers.get a = none → m'.peers.get a = none
  peers_some : ∀ a p, m.peers.get a = some p → ∃ p', m'.peers.get a = some p' ∧ p'.relay = p.relay ∧ p'.network = p.network ∧
    p'.wtxidrelay = p.wtxidrelay ∧ p'.attempts = p.attempts ∧ p'.lastAttempt = p.lastAttempt ∧
    ∀ w, p'.outbox.get w = if (firstWith w l).isSome then none else p.outbox.get w
  confirmed : ∀ n t, t ∈ (m'.confirmed.get n).getD [] ↔ t ∈ (m.confirmed.get n).getD [] ∨
    ((∃ b, firstWith t.wtxid l = some (n, b)) ∧ m.pool.get t.wtxid = some t)
  events : ∀ id hash n, Out.confirmed id hash n ∈ l ↔
    ∃ b t, firstWith t.wtxid l = some (n, b) ∧ b.hash = hash ∧ m.pool.get t.wtxid = some t ∧ t.txid = id
  est : ∀ ops, Fees.Run c ops m.est → Fees.Run c (((processed l).map fun p => Fees.Op.process p.2.txs p.1).reverse ++ ops) m'.est
  fees : ∀ b n f, Out.processed b n f ∈ l → ∀ ops, Fees.Run c ops m.est → ∃ ops' e e', Fees.Run c ops' e ∧
    (∃ pre, ops' = ((pre : List (Nat × Block)).map fun p => Fees.Op.process p.2.txs p.1).reverse ++ ops ∧ ∃ post, processed l = pre ++ (n, b) :: post) ∧
    e.process c b.txs n = .ok (e', f)
  good : Good m'

theorem proc_nil {c : Bool} {m m' : Mgr} (h1 : m'.peers = m.peers) (h2 : m'.pool = m.pool) (h3 : m'.remaining = m.remaining)
    (h4 : m'.confirmed = m.confirmed) (h5 : m'.out = m.out) (h6 : m'.est = m.est) (h7 : m'.lastTick = m.lastTick) (g : Good m') :
    Proc c m m' [] := by
  refine ⟨by simp [h5], by simp, by simp [h2], by simp [h2, firstWith, processed], h3, h7, by simp [h1], ?_, ?_, ?_, ?_, by simp, g⟩
  · intro a p h
    exact ⟨p, by rw [h1]; exact h, rfl, rfl, rfl, rfl, rfl, by simp [firstWith, processed]⟩
  · simp [h4, firstWith, processed]
  · simp [firstWith, processed]
  · simp [h6, processed]

theorem Proc.trans {c : Bool} {m1 m2 m3 : Mgr} {l l' : List Out} (a : Proc c m1 m2 l) (b : Proc c m2 m3 l') :
    Proc c m1 m3 (l ++ l') := by
  have fst : ∀ (w : Nat) (x : Nat × Block), firstWith w (l ++ l') = some x ↔
      firstWith w l = some x ∨ (firstWith w l).isSome = false ∧ firstWith w l' = some x := by
    intro w x
    rw [firstWith_append]
    cases firstWith w l <;> simp
  have isS : ∀ w, (firstWith w (l ++ l')).isSome = ((firstWith w l).isSome || (firstWith w l').isSome) := by
    intro w
    rw [firstWith_append]
    cases firstWith w l <;> simp
  refine ⟨by rw [b.out, a.out, List.append_assoc], ?_, by rw [b.pool, a.pool, List.foldl_append], ?_, b.remaining.trans a.remaining,
    b.lastTick.trans a.lastTick, fun x h => b.peers_none x (a.peers_none x h), ?_, ?_, ?_, ?_, ?_, b.good⟩
  · intro o h
    rcases List.mem_append.1 h with h | h
    · exact a.only o h
    · exact b.only o h
  · intro w
    rw [b.poolGet, a.poolGet, isS]
    cases (firstWith w l).isSome <;> simp
  · intro x p h
    obtain ⟨p', h1, r1, n1, w1, t1, l1, c1⟩ := a.peers_some x p h
    obtain ⟨p'', h2, r2, n2, w2, t2, l2, c2⟩ := b.peers_some x p' h1
    refine ⟨p'', h2, r2.trans r1, n2.trans n1, w2.trans w1, t2.trans t1, l2.trans l1, ?_⟩
    intro w
    rw [c2, c1, isS]
    cases (firstWith w l).isSome <;> simp
  · intro n t
    rw [b.confirmed, a.confirmed, a.poolGet]
    simp only [fst]
    cases hf : (firstWith t.wtxid l).isSome with
    | true => simp
    | false =>
      have : firstWith t.wtxid l = none := by simpa using hf
      simp [this]
  · intro id hash n
    rw [List.mem_append, a.events, b.events]
    constructor
    · rintro (⟨x, t, h1, h2, h3, h4⟩ | ⟨x, t, h1, h2, h3, h4⟩)
      · exact ⟨x, t, (fst _ _).2 (.inl h1), h2, h3, h4⟩
      · rw [a.poolGet] at h3
        split at h3
        · cases h3
        · rename_i hf
          exact ⟨x, t, (fst _ _).2 (.inr ⟨by simpa using hf, h1⟩), h2, h3, h4⟩
    · rintro ⟨x, t, h1, h2, h3, h4⟩
      rcases (fst _ _).1 h1 with h1 | ⟨h0, h1⟩
      · exact .inl ⟨x, t, h1, h2, h3, h4⟩
      · exact .inr ⟨x, t, h1, h2, by rw [a.poolGet, h0]; simpa using h3, h4⟩
  · intro ops r
    have := b.est _ (a.est ops r)
    rw [processed_append, List.map_append, List.reverse_append, List.append_assoc]
    exact this
  · intro x n f h ops r
    rcases List.mem_append.1 h with h | h
    · obtain ⟨ops', e, e', h1, ⟨pre, h2, post, h3⟩, h4⟩ := a.fees x n f h ops r
      exact ⟨ops', e, e', h1, ⟨pre, h2, post ++ processed l', by rw [processed_append, h3]; simp⟩, h4⟩
    · obtain ⟨ops', e, e', h1, ⟨pre, h2, post, h3⟩, h4⟩ := b.fees x n f h _ (a.est ops r)
      exact ⟨ops', e, e', h1, ⟨processed l ++ pre, by rw [h2]; simp, post, by rw [processed_append, h3]; simp⟩, h4⟩

/-- What confirming the transactions of a block does. -/
structure Conf (m m' : Mgr) (hash height : Nat) (txs : List Transaction) (l : List Out) : Prop where
  out : m'.out = m.out ++ l
  only : ∀ o ∈ l, ∃ id, o = .confirmed id hash height
  poolGet : ∀ w, m'.pool.get w = if txs.any (fun t => t.wtxid = w) then none else m.pool.get w
  remaining : m'.remaining = m.remaining
  received : m'.received = m.received
  lastTick : m'.lastTick = m.lastTick
  est : m'.est = m.est
  peers_none : ∀ a, m.peers.get a = none → m'.peers.get a = none
  peers_some : ∀ a p, m.peers.get a = some p → ∃ p', m'.peers.get a = some p' ∧ p'.relay = p.relay ∧ p'.network = p.network ∧
    p'.wtxidrelay = p.wtxidrelay ∧ p'.attempts = p.attempts ∧ p'.lastAttempt = p.lastAttempt ∧
    ∀ w, p'.outbox.get w = if txs.any (fun t => t.wtxid = w) then none else p.outbox.get w
  confirmed : ∀ n t, t ∈ (m'.confirmed.get n).getD [] ↔ t ∈ (m.confirmed.get n).getD [] ∨
    (n = height ∧ txs.any (fun x => x.wtxid = t.wtxid) = true ∧ m.pool.get t.wtxid = some t)
  events : ∀ id, Out.confirmed id hash height ∈ l ↔
    ∃ t, txs.any (fun x => x.wtxid = t.wtxid) = true ∧ m.pool.get t.wtxid = some t ∧ t.txid = id
  good : Good m'

theorem conf_one {m : Mgr} (g : Good m) (hash height : Nat) (tx : Transaction) :
    ∃ l, Conf m (Mgr.confirmTx hash height m tx) hash height [tx] l := by
  cases hp : m.pool.get tx.wtxid with
  | none =>
    have e : Mgr.confirmTx hash height m tx = m := by simp [Mgr.confirmTx, hp]
    rw [e]
    refine ⟨[], by simp, by simp, ?_, rfl, rfl, rfl, rfl, fun _ h => h, ?_, ?_, ?_, g⟩
    · intro w
      by_cases hw : tx.wtxid = w
      · subst hw; simp [hp]
      · simp [hw]
    · intro a p h
      refine ⟨p, h, rfl, rfl, rfl, rfl, rfl, ?_⟩
      intro w
      by_cases hw : tx.wtxid = w
      · subst hw
        have : p.outbox.get tx.wtxid = none := by
          by_contra hc
          have h1 : p.outbox.contains tx.wtxid = true := by
            simp only [AMap.contains]
            exact Option.isSome_iff_ne_none.2 hc
          have := g.sub a p _ h h1
          simp [AMap.contains, hp] at this
        simp [this]
      · simp [hw]
    · intro n t
      simp only [List.any_cons, List.any_nil, Bool.or_false, decide_eq_true_eq]
      constructor
      · exact .inl
      · rintro (h | ⟨_, h, h'⟩)
        · exact h
        · rw [← h, hp] at h'; cases h'
    · intro id
      simp only [List.any_cons, List.any_nil, Bool.or_false, decide_eq_true_eq, List.not_mem_nil, false_iff]
      rintro ⟨t, h, h', _⟩
      rw [← h, hp] at h'; cases h'
  | some t =>
    have hk := g.keys _ _ hp
    have e : Mgr.confirmTx hash height m tx = { m with
      pool := m.pool.erase tx.wtxid
      peers := mapPeers (fun p => { p with outbox := p.outbox.erase tx.wtxid }) m.peers
      confirmed := m.confirmed.insert height ((m.confirmed.get height).getD [] ++ [t]) }.emit [.confirmed t.txid hash height] := by
      simp only [Mgr.confirmTx, hp]
    rw [e]
    refine ⟨[.confirmed t.txid hash height], by simp [Mgr.emit], by simp, ?_, rfl, rfl, rfl, rfl, ?_, ?_, ?_, ?_, ?_⟩
    · intro w
      simp only [Mgr.emit, AMap.get_erase, List.any_cons, List.any_nil, Bool.or_false, decide_eq_true_eq]
    · intro a h
      simp [Mgr.emit, get_mapPeers, h]
    · intro a p h
      simp only [Mgr.emit, get_mapPeers, h, Option.map_some, Option.some.injEq, exists_eq_left', AMap.get_erase, List.any_cons,
        List.any_nil, Bool.or_false, decide_eq_true_eq, implies_true, and_true]
    · intro n x
      simp only [Mgr.emit, AMap.get_insert, List.any_cons, List.any_nil, Bool.or_false, decide_eq_true_eq]
      by_cases hn : height = n
      · subst hn
        simp only [if_true, Option.getD_some, List.mem_append, List.mem_singleton, true_and]
        constructor
        · rintro (h | rfl)
          · exact .inl h
          · exact .inr ⟨hk.symm, by rw [hk]; exact hp⟩
        · rintro (h | ⟨h1, h2⟩)
          · exact .inl h
          · rw [← h1, hp] at h2
            exact .inr (by simpa using h2.symm)
      · rw [if_neg hn]
        constructor
        · exact .inl
        · rintro (h | ⟨h, _⟩)
          · exact h
          · exact absurd h.symm hn
    · intro id
      simp only [List.mem_singleton, Out.confirmed.injEq, and_true, List.any_cons, List.any_nil, Bool.or_false, decide_eq_true_eq]
      constructor
      · rintro rfl
        exact ⟨t, hk.symm, by rw [hk]; exact hp, rfl⟩
      · rintro ⟨x, h1, h2, h3⟩
        rw [← h1, hp] at h2
        cases h2
        exact h3.symm
    · refine ⟨?_, ?_, ?_, sorted_erase g.pool, ?_, g.remaining, g.received, AMap.nodup_insert g.confirmed _ _⟩
      · simp only [Mgr.emit, keys_mapPeers]
        exact g.peers
      · intro a p h
        simp only [Mgr.emit, get_mapPeers, Option.map_eq_some_iff] at h
        obtain ⟨q, hq, rfl⟩ := h
        exact AMap.nodup_erase (g.outbox a q hq) _
      · intro a p w h hc
        simp only [Mgr.emit, get_mapPeers, Option.map_eq_some_iff] at h
        obtain ⟨q, hq, rfl⟩ := h
        simp only [Mgr.emit, AMap.contains, AMap.get_erase] at hc ⊢
        split at hc
        · cases hc
        · rename_i hw
          rw [if_neg hw]
          exact g.sub a q w hq hc
      · intro w x h
        simp only [Mgr.emit, AMap.get_erase] at h
        split at h
        · cases h
        · exact g.keys w x h

theorem conf_all (hash height : Nat) (txs : List Transaction) : ∀ {m : Mgr}, Good m →
    ∃ l, Conf m (txs.foldl (Mgr.confirmTx hash height) m) hash height txs l := by
  induction txs with
  | nil =>
    intro m g
    exact ⟨[], by simp, by simp, by simp, rfl, rfl, rfl, rfl, fun _ h => h, fun a p h => ⟨p, h, rfl, rfl, rfl, rfl, rfl, by simp⟩,
      by simp, by simp, g⟩
  | cons tx txs ih =>
    intro m g
    obtain ⟨l1, a⟩ := conf_one g hash height tx
    obtain ⟨l2, b⟩ := ih a.good
    have any1 : ∀ w, [tx].any (fun t => t.wtxid = w) = decide (tx.wtxid = w) := by simp
    refine ⟨l1 ++ l2, ?_, ?_, ?_, b.remaining.trans a.remaining, b.received.trans a.received, b.lastTick.trans a.lastTick,
      b.est.trans a.est, fun x h => b.peers_none x (a.peers_none x h), ?_, ?_, ?_, b.good⟩
    · rw [List.foldl_cons, b.out, a.out, List.append_assoc]
    · intro o h
      rcases List.mem_append.1 h with h | h
      · exact a.only o h
      · exact b.only o h
    · intro w
      rw [List.foldl_cons, b.poolGet, a.poolGet, any1, List.any_cons]
      by_cases hw : tx.wtxid = w <;> simp [hw]
    · intro x p h
      obtain ⟨p', h1, r1, n1, w1, t1, e1, c1⟩ := a.peers_some x p h
      obtain ⟨p'', h2, r2, n2, w2, t2, e2, c2⟩ := b.peers_some x p' h1
      refine ⟨p'', h2, r2.trans r1, n2.trans n1, w2.trans w1, t2.trans t1, e2.trans e1, ?_⟩
      intro w
      rw [c2, c1, any1, List.any_cons]
      by_cases hw : tx.wtxid = w <;> simp [hw]
    · intro n t
      rw [List.foldl_cons, b.confirmed, a.confirmed, a.poolGet, any1, List.any_cons]
      by_cases hw : tx.wtxid = t.wtxid <;> simp [hw]
    · intro id
      rw [List.mem_append, a.events, b.events]
      constructor
      · rintro (⟨t, h1, h2, h3⟩ | ⟨t, h1, h2, h3⟩)
        · rw [any1] at h1
          exact ⟨t, by rw [List.any_cons, h1]; rfl, h2, h3⟩
        · rw [a.poolGet] at h2
          split at h2
          · cases h2
          · exact ⟨t, by rw [List.any_cons, h1]; simp, h2, h3⟩
      · rintro ⟨t, h1, h2, h3⟩
        by_cases hw : tx.wtxid = t.wtxid
        · exact .inl ⟨t, by rw [any1]; simp [hw], h2, h3⟩
        · refine .inr ⟨t, by rw [List.any_cons] at h1; simpa [hw] using h1, ?_, h3⟩
          rw [a.poolGet, any1]
          simp [hw, h2]

theorem processBlock_ok {c : Bool} {m m' : Mgr} {n : Nat} {b : Block} (g : Good m) (h : m.processBlock c n b = .ok m') :
    m'.received = m.received ∧ ∃ l, Proc c m m' l ∧ processed l = [(n, b)] := by
  obtain ⟨l, a⟩ := conf_all b.hash n b.txs g
  unfold Mgr.processBlock at h
  obtain ⟨⟨est, fees⟩, h1, h⟩ := Res.bind_eq_ok.1 h
  simp only [Res.ok.injEq] at h
  subst h
  rw [a.est] at h1
  have hpl : processed l = [] := by
    unfold processed
    rw [List.filterMap_eq_nil_iff]
    intro o ho
    obtain ⟨id, rfl⟩ := a.only o ho
    rfl
  have hp : processed (l ++ [.processed b n fees]) = [(n, b)] := by
    rw [processed_append, hpl]
    rfl
  have hf : ∀ w, firstWith w (l ++ [.processed b n fees]) = if b.has w then some (n, b) else none := by
    intro w
    rw [firstWith, hp, List.find?_singleton]
  have hs : ∀ w, (firstWith w (l ++ [.processed b n fees])).isSome = b.has w := by
    intro w
    rw [hf]
    cases b.has w <;> rfl
  have hfold : ∀ f, l.foldl settle f = f := by
    have : ∀ (l : List Out), (∀ o ∈ l, ∃ id, o = .confirmed id b.hash n) → ∀ f, l.foldl settle f = f := by
      intro l
      induction l with
      | nil => intro _ f; rfl
      | cons o l ih =>
        intro ho f
        obtain ⟨id, rfl⟩ := ho o List.mem_cons_self
        exact ih (fun o h => ho o (List.mem_cons_of_mem _ h)) f
    exact this l a.only
  refine ⟨a.received, l ++ [.processed b n fees], ⟨?_, ?_, ?_, ?_, a.remaining, a.lastTick, a.peers_none, ?_, ?_, ?_, ?_, ?_, a.good.congr rfl rfl rfl rfl rfl⟩, hp⟩
  · simp [Mgr.emit, a.out]
  · intro o ho
    rcases List.mem_append.1 ho with ho | ho
    · obtain ⟨id, rfl⟩ := a.only o ho
      exact .inl ⟨_, _, _, rfl⟩
    · rw [List.mem_singleton] at ho
      exact .inr ⟨_, _, _, ho⟩
  · rw [List.foldl_append, hfold]
    funext w
    exact (a.poolGet w).trans rfl
  · intro w
    rw [hs]
    exact a.poolGet w
  · intro x p hx
    obtain ⟨p', h1, r1, n1, w1, t1, e1, c1⟩ := a.peers_some x p hx
    exact ⟨p', h1, r1, n1, w1, t1, e1, fun w => by rw [hs]; exact c1 w⟩
  · intro k t
    have := a.confirmed k t
    simp only [Mgr.emit, hf]
    rw [this]
    cases hb : b.has t.wtxid with
    | true =>
      have hb' : b.txs.any (fun x => x.wtxid = t.wtxid) = true := hb
      simp only [hb', if_true, Option.some.injEq, Prod.mk.injEq, true_and]
      constructor
      · rintro (h | ⟨h2, h3⟩)
        · exact .inl h
        · exact .inr ⟨⟨b, h2.symm, rfl⟩, h3⟩
      · rintro (h | ⟨⟨_, h2, _⟩, h3⟩)
        · exact .inl h
        · exact .inr ⟨h2.symm, h3⟩
    | false =>
      have hb' : b.txs.any (fun x => x.wtxid = t.wtxid) = false := hb
      simp [hb']
  · intro id hash k
    simp only [List.mem_append, List.mem_singleton, reduceCtorEq, or_false, hf]
    constructor
    · intro ho
      obtain ⟨id', e⟩ := a.only _ ho
      cases e
      obtain ⟨t, h2, h3, h4⟩ := (a.events _).1 ho
      exact ⟨b, t, by have : b.has t.wtxid = true := h2
                      simp [this], rfl, h3, h4⟩
    · rintro ⟨x, t, h2, h3, h4, h5⟩
      split at h2
      · rename_i hb
        cases h2
        subst h3
        exact (a.events id).2 ⟨t, hb, h4, h5⟩
      · cases h2
  · intro ops r
    rw [hp]
    exact .process r h1
  · intro x k f hm ops r
    rcases List.mem_append.1 hm with hm | hm
    · obtain ⟨id, e⟩ := a.only _ hm
      cases e
    · rw [List.mem_singleton] at hm
      cases hm
      exact ⟨ops, m.est, est, r, ⟨[], by simp, [], by rw [hp]; rfl⟩, h1⟩

theorem processAll_ok {c : Bool} : ∀ {hs : List Nat} {m m' : Mgr}, hs.Nodup → Good m → Mgr.processAll c hs m = .ok m' →
    ∃ l, Proc c m m' l ∧ processed l = hs.filterMap (fun n => (m.received.get n).map (n, ·)) ∧
      ∀ n, m'.received.get n = if n ∈ hs then none else m.received.get n := by
  intro hs
  induction hs with
  | nil =>
    intro m m' _ g h
    cases h
    exact ⟨[], proc_nil rfl rfl rfl rfl rfl rfl rfl g, rfl, by simp⟩
  | cons n hs ih =>
    intro m m' hn g h
    obtain ⟨hn1, hn2⟩ := List.nodup_cons.1 hn
    unfold Mgr.processAll at h
    cases hg : m.received.get n with
    | none =>
      simp only [hg] at h
      obtain ⟨l, a, e, r⟩ := ih hn2 g h
      refine ⟨l, a, by simp [hg, e], ?_⟩
      intro k
      rw [r]
      by_cases hk : k = n
      · subst hk; simp [hg]
      · simp [hk]
    | some b =>
      simp only [hg] at h
      obtain ⟨m1, h1, h⟩ := Res.bind_eq_ok.1 h
      have g0 : Good { m with received := m.received.erase n } :=
        ⟨g.peers, g.outbox, g.sub, g.pool, g.keys, g.remaining, AMap.nodup_erase g.received _, g.confirmed⟩
      obtain ⟨hr, l1, a1, e1⟩ := processBlock_ok g0 h1
      obtain ⟨l2, a2, e2, r2⟩ := ih hn2 a1.good h
      have a0 : Proc c m { m with received := m.received.erase n } [] := proc_nil rfl rfl rfl rfl rfl rfl rfl g0
      refine ⟨l1 ++ l2, Proc.trans (by simpa using a0.trans a1) a2, ?_, ?_⟩
      · rw [processed_append, e1, e2, hr]
        simp only [List.filterMap_cons, hg, Option.map_some, List.singleton_append, List.cons.injEq, true_and]
        apply List.filterMap_congr
        intro k hk
        rw [AMap.get_erase_ne]
        rintro rfl
        exact hn1 hk
      · intro k
        rw [r2, hr, AMap.get_erase]
        by_cases hk : k ∈ hs
        · simp [hk]
        · by_cases hkn : n = k
          · simp [hkn]
          · rw [if_neg hk, if_neg hkn, if_neg (by simp [hk]; exact Ne.symm hkn)]

end Verif.Inv
