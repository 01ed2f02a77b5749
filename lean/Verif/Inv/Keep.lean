import Verif.Inv.Props

/-!
# C129: what the inventory manager keeps
-/

set_option autoImplicit false

namespace Verif.Inv
open Verif.Tx

/-! ## Specification -/

/-- The operation asks for a block. -/
def Op.asks : Op → Nat
  | .getBlock _ => 1
  | _ => 0

/-- The operation submits a transaction. -/
def Op.submits : Op → Nat
  | .announce _ => 1
  | _ => 0

/-- How often blocks were asked for. -/
def askedFor (h : Hist) : Nat := (h.map (fun x => x.1.asks)).sum

/-- Blocks that wait for others to arrive, and blocks to be requested from peers. -/
def Mgr.held (m : Mgr) : Nat := m.received.length + m.remaining.length

/-- Transactions that are pending, and transactions that were confirmed and may become pending again. -/
def Mgr.ledger (m : Mgr) : Nat := m.pool.length + (m.confirmed.map (fun p => p.2.length)).sum

/-! ## Lemmas -/

section maps
variable {V : Type}

theorem length_erase_le (m : AMap Nat V) (k : Nat) : (m.erase k).length ≤ m.length := List.length_filter_le _ _

theorem length_erase_lt {m : AMap Nat V} {k : Nat} (h : m.contains k = true) : (m.erase k).length + 1 ≤ m.length := by
  rw [AMap.contains_iff] at h
  obtain ⟨p, hp, rfl⟩ := List.mem_map.1 h
  have : (m.erase p.1).length < m.length := by
    rw [AMap.erase, ← List.countP_eq_length_filter]
    exact List.countP_lt_length_iff.2 ⟨p, hp, by simp⟩
  omega

theorem length_insert_le (m : AMap Nat V) (k : Nat) (v : V) : (m.insert k v).length ≤ m.length + 1 := by
  have := length_erase_le m k
  simp only [AMap.insert, List.length_cons]
  omega

theorem length_insert_again {m : AMap Nat V} {k : Nat} (h : m.contains k = true) (v : V) : (m.insert k v).length ≤ m.length := by
  have := length_erase_lt h
  simp only [AMap.insert, List.length_cons]
  omega

theorem length_poolInsert (k : Nat) (t : Transaction) : ∀ (m : AMap Nat Transaction), (poolInsert k t m).length ≤ m.length + 1
  | [] => by simp [poolInsert, sinsert]
  | p :: m => by
    have ih := length_poolInsert k t m
    simp only [poolInsert, sinsert] at ih ⊢
    split
    · simp
    · split
      · simp only [List.length_cons]; omega
      · simp

theorem sum_filter_le {α : Type} (f : α → Nat) (q : α → Bool) : ∀ (l : List α), ((l.filter q).map f).sum ≤ (l.map f).sum
  | [] => by simp
  | x :: l => by
    have := sum_filter_le f q l
    rw [List.filter_cons]
    split <;> simp only [List.map_cons, List.sum_cons] <;> omega

theorem sum_erase {m : AMap Nat (List V)} {k : Nat} : (((m.erase k).map (fun p => p.2.length)).sum) + ((m.get k).getD []).length ≤ (m.map (fun p => p.2.length)).sum := by
  induction m with
  | nil => simp [AMap.erase]
  | cons p m ih =>
    rw [AMap.get_cons]
    have hf := sum_filter_le (fun p : Nat × List V => p.2.length) (fun p => decide (p.1 ≠ k)) m
    by_cases h : p.1 = k
    · rw [if_pos h]
      simp only [AMap.erase, List.filter_cons, h, ne_eq, not_true_eq_false, decide_false, Bool.false_eq_true, if_false, Option.getD_some, List.map_cons, List.sum_cons] at *
      omega
    · rw [if_neg h]
      simp only [AMap.erase, List.filter_cons, h, ne_eq, not_false_eq_true, decide_true, if_true, List.map_cons, List.sum_cons] at *
      omega

theorem sum_append {m : AMap Nat (List V)} {k : Nat} {t : V} :
    ((m.insert k ((m.get k).getD [] ++ [t])).map (fun p => p.2.length)).sum ≤ (m.map (fun p => p.2.length)).sum + 1 := by
  have := sum_erase (m := m) (k := k)
  simp only [AMap.insert, List.map_cons, List.sum_cons, List.length_append, List.length_singleton]
  omega

end maps

/-- Neither blocks nor transactions are added. -/
structure Keeps (m m' : Mgr) : Prop where
  held : m'.held ≤ m.held
  ledger : m'.ledger ≤ m.ledger

theorem Keeps.refl (m : Mgr) : Keeps m m := ⟨Nat.le_refl _, Nat.le_refl _⟩

theorem Keeps.trans {m1 m2 m3 : Mgr} (a : Keeps m1 m2) (b : Keeps m2 m3) : Keeps m1 m3 := ⟨b.held.trans a.held, b.ledger.trans a.ledger⟩

theorem nomore_of {m m' : Mgr} (h1 : m'.pool = m.pool) (h2 : m'.confirmed = m.confirmed) (h3 : m'.remaining = m.remaining) (h4 : m'.received = m.received) : Keeps m m' :=
  ⟨by rw [Mgr.held, Mgr.held, h3, h4], by rw [Mgr.ledger, Mgr.ledger, h1, h2]⟩

theorem ledger_announce (m : Mgr) (t : Transaction) : (m.announce t).ledger ≤ m.ledger + 1 ∧ (m.announce t).held = m.held := by
  have := length_poolInsert t.wtxid t m.pool
  simp only [Mgr.announce, Mgr.ledger, Mgr.held, Mgr.scheduleTick]
  exact ⟨by omega, trivial⟩

theorem ledger_revertTxs : ∀ (ts : List Transaction) (m : Mgr), (Mgr.revertTxs ts m).ledger ≤ m.ledger + ts.length ∧ (Mgr.revertTxs ts m).held = m.held
  | [], m => ⟨Nat.le_refl _, rfl⟩
  | t :: ts, m => by
    obtain ⟨a1, a2⟩ := ledger_announce m t
    obtain ⟨b1, b2⟩ := ledger_revertTxs ts ((m.announce t).emit [.reverted t])
    have c1 : ((m.announce t).emit [.reverted t]).ledger = (m.announce t).ledger := rfl
    have c2 : ((m.announce t).emit [.reverted t]).held = (m.announce t).held := rfl
    simp only [Mgr.revertTxs, List.length_cons]
    exact ⟨by omega, by omega⟩

theorem nomore_blockReverted {c : Bool} {m m' : Mgr} {n : Nat} (h : m.blockReverted c n = .ok m') : Keeps m m' := by
  unfold Mgr.blockReverted at h
  obtain ⟨target, -, h⟩ := Res.bind_eq_ok.1 h
  obtain ⟨est, -, h⟩ := Res.bind_eq_ok.1 h
  simp only at h
  cases hg : m.confirmed.get n with
  | none => rw [hg] at h; cases h; exact nomore_of rfl rfl rfl rfl
  | some ts =>
    rw [hg] at h
    cases h
    have k := ledger_revertTxs ts { m with est := est, confirmed := m.confirmed.erase n }
    have s := sum_erase (m := m.confirmed) (k := n)
    rw [hg] at s
    refine ⟨Nat.le_of_eq k.2, k.1.trans ?_⟩
    simp only [Mgr.ledger, Option.getD_some] at *
    omega

theorem nomore_reverted {c : Bool} : ∀ {hs : List Nat} {m m' : Mgr}, Mgr.reverted c hs m = .ok m' → Keeps m m'
  | [], m, m', h => by cases h; exact .refl m
  | n :: hs, m, m', h => by
    obtain ⟨m1, h1, h2⟩ := Res.bind_eq_ok.1 h
    exact (nomore_blockReverted h1).trans (nomore_reverted h2)

theorem nomore_confirmTx (hash height : Nat) (m : Mgr) (tx : Transaction) : Keeps m (Mgr.confirmTx hash height m tx) := by
  unfold Mgr.confirmTx
  split
  · exact .refl m
  · rename_i t ht
    have h1 := length_erase_lt (contains_of_get ht)
    have h2 := sum_append (m := m.confirmed) (k := height) (t := t)
    refine ⟨Nat.le_refl _, ?_⟩
    simp only [Mgr.ledger, Mgr.emit]
    omega

theorem nomore_processBlock {c : Bool} {m m' : Mgr} {n : Nat} {b : Block} (h : m.processBlock c n b = .ok m') : Keeps m m' := by
  unfold Mgr.processBlock at h
  obtain ⟨⟨est, fees⟩, -, h⟩ := Res.bind_eq_ok.1 h
  cases h
  have : ∀ (l : List Transaction) (m : Mgr), Keeps m (l.foldl (Mgr.confirmTx b.hash n) m) := by
    intro l
    induction l with
    | nil => exact fun m => .refl m
    | cons t l ih => exact fun m => (nomore_confirmTx b.hash n m t).trans (ih _)
  exact (this b.txs m).trans (nomore_of rfl rfl rfl rfl)

theorem nomore_processAll {c : Bool} : ∀ {hs : List Nat} {m m' : Mgr}, Mgr.processAll c hs m = .ok m' → Keeps m m'
  | [], m, m', h => by cases h; exact .refl m
  | n :: hs, m, m', h => by
    unfold Mgr.processAll at h
    split at h
    · exact nomore_processAll h
    · obtain ⟨m1, h1, h2⟩ := Res.bind_eq_ok.1 h
      have e : Keeps m { m with received := m.received.erase n } := by
        have := length_erase_le m.received n
        exact ⟨by simp only [Mgr.held]; omega, Nat.le_refl _⟩
      exact (e.trans (nomore_processBlock h1)).trans (nomore_processAll h2)

theorem nomore_block {c : Bool} {m m' : Mgr} {b : Block} {k : Option Nat} (h : m.block c b k = .ok m') : Keeps m m' := by
  unfold Mgr.block at h
  split at h
  · rename_i hc
    have h1 := length_erase_lt hc
    simp only at h
    split at h
    · cases h
      exact ⟨by simp only [Mgr.held]; omega, Nat.le_refl _⟩
    · rename_i i
      have h2 := length_insert_le m.received i b
      have e : Keeps m { m with remaining := m.remaining.erase b.hash, received := m.received.insert i b } :=
        ⟨by simp only [Mgr.held]; omega, Nat.le_refl _⟩
      split at h
      · exact e.trans (nomore_processAll h)
      · cases h; exact e
  · cases h; exact .refl m

theorem nomore_acknowledge (m : Mgr) (a w : Nat) (id : Option Nat) : Keeps m (m.acknowledge a w id) := by
  unfold Mgr.acknowledge
  split
  · exact .refl m
  · split
    · exact .refl m
    · exact nomore_of rfl rfl rfl rfl

theorem nomore_getdata (a : Nat) : ∀ (is : List Item) (m : Mgr), Keeps m (m.getdata a is)
  | [], m => .refl m
  | i :: is, m => by
    refine Keeps.trans ?_ (nomore_getdata a is (m.getdataOne a i))
    unfold Mgr.getdataOne
    cases i with
    | other => exact .refl m
    | wtx w =>
      simp only
      split
      · exact (nomore_of (m := m) (m' := m.emit _) rfl rfl rfl rfl).trans (nomore_acknowledge _ _ _ _)
      · exact nomore_acknowledge _ _ _ _
    | tx x =>
      simp only
      split
      · exact .refl m
      · exact (nomore_of (m := m) (m' := m.emit _) rfl rfl rfl rfl).trans (nomore_acknowledge _ _ _ _)
    | witnessTx x =>
      simp only
      split
      · exact .refl m
      · exact (nomore_of (m := m) (m' := m.emit _) rfl rfl rfl rfl).trans (nomore_acknowledge _ _ _ _)

theorem nomore_attemptAll (env : Env) (now : Nat) : ∀ (as : List Nat) (m : Mgr) (dis : List Nat) {m' : Mgr} {dis' : List Nat},
    Mgr.attemptAll env now as m dis = .ok (m', dis') → Keeps m m'
  | [], m, dis, m', dis', h => by cases h; exact .refl m
  | a :: as, m, dis, m', dis', h => by
    unfold Mgr.attemptAll at h
    split at h
    · exact nomore_attemptAll env now as _ _ h
    · split at h
      · exact nomore_attemptAll env now as _ _ h
      · split at h
        · exact nomore_attemptAll env now as _ _ h
        · split at h
          · exact nomore_attemptAll env now as _ _ h
          · obtain ⟨ids, -, h⟩ := Res.bind_eq_ok.1 h
            refine Keeps.trans ?_ (nomore_attemptAll env now as _ _ h)
            exact nomore_of rfl rfl rfl rfl

theorem nomore_dropAll : ∀ (as : List Nat) (m : Mgr), Keeps m (Mgr.dropAll as m)
  | [], m => .refl m
  | a :: as, m => by
    unfold Mgr.dropAll
    refine Keeps.trans ?_ (nomore_dropAll as _)
    exact nomore_of rfl rfl rfl rfl

theorem nomore_requestAll (env : Env) (now : Nat) : ∀ (hs : List Nat) (m : Mgr), Keeps m (Mgr.requestAll env now hs m)
  | [], m => .refl m
  | h :: hs, m => by
    unfold Mgr.requestAll
    split
    · exact nomore_requestAll env now hs m
    · rename_i t ht
      split
      · exact nomore_requestAll env now hs m
      · split
        · refine Keeps.trans ?_ (nomore_requestAll env now hs _)
          have := length_insert_again (contains_of_get ht) (some now)
          exact ⟨by simp only [Mgr.held, Mgr.emit]; omega, Nat.le_refl _⟩
        · exact nomore_requestAll env now hs m

theorem nomore_timer {c : Bool} {env : Env} {now height : Nat} {m m' : Mgr} (h : m.timerExpired c env now height = .ok m') : Keeps m m' := by
  unfold Mgr.timerExpired at h
  obtain ⟨confirmed, h1, h⟩ := Res.bind_eq_ok.1 h
  obtain ⟨⟨m2, dis⟩, h2, h⟩ := Res.bind_eq_ok.1 h
  cases h
  refine Keeps.trans (Keeps.trans ?_ (nomore_attemptAll _ _ _ _ _ h2)) ((nomore_dropAll dis m2).trans (nomore_requestAll _ _ _ _))
  have e : (confirmed.map (fun p => p.2.length)).sum ≤ (m.confirmed.map (fun p => p.2.length)).sum := by
    have hc : (if idleTimeout ≤ now - m.lastTick.getD 0 then { m with lastTick := some now, out := m.out ++ [.timer idleTimeout] } else m).confirmed = m.confirmed := by
      split <;> rfl
    rw [hc] at h1
    unfold prune at h1
    by_cases hb : (c && m.confirmed.any (fun p => height < p.1)) = true
    · rw [if_pos hb] at h1; cases h1
    · rw [if_neg hb] at h1
      cases h1
      exact sum_filter_le _ _ m.confirmed
  refine ⟨?_, ?_⟩
  · split <;> exact Nat.le_refl _
  · split <;> (simp only [Mgr.ledger] at *; omega)

/-- What one operation adds. -/
theorem step_keeps {c : Bool} {m m' : Mgr} {op : Op} (e : { m with out := [] }.step c op = .ok m') :
    m'.held ≤ m.held + op.asks ∧ m'.ledger ≤ m.ledger + op.submits := by
  have z : Keeps m { m with out := [] } := nomore_of rfl rfl rfl rfl
  have k : Keeps { m with out := [] } m' → m'.held ≤ m.held + 0 ∧ m'.ledger ≤ m.ledger + 0 := fun l => ⟨(z.trans l).held, (z.trans l).ledger⟩
  cases op with
  | negotiated => cases e; exact k (nomore_of rfl rfl rfl rfl)
  | disconnected => cases e; exact k (nomore_of rfl rfl rfl rfl)
  | reverted hs => exact k (nomore_reverted e)
  | block b h => exact k (nomore_block e)
  | getdata a is => cases e; exact k (nomore_getdata a is _)
  | timer => exact k (nomore_timer e)
  | announce t =>
    cases e
    have a := ledger_announce { m with out := [] } t
    exact ⟨Nat.le_of_eq a.2, a.1⟩
  | getBlock x =>
    cases e
    have := length_insert_le m.remaining x none
    by_cases hc : m.remaining.contains x = true
    · have e : (({ m with out := [] } : Mgr).getBlock x) = ({ m with out := [] } : Mgr).scheduleTick := by simp only [Mgr.getBlock]; rw [if_pos hc]
      rw [e]
      exact ⟨Nat.le_succ _, Nat.le_refl _⟩
    · have e : (({ m with out := [] } : Mgr).getBlock x) = ({ m with out := [], remaining := m.remaining.insert x none } : Mgr).scheduleTick := by
        simp only [Mgr.getBlock]; rw [if_neg hc]
      rw [e]
      refine ⟨?_, Nat.le_refl _⟩
      simp only [Mgr.scheduleTick, Mgr.held]
      have e1 : (Op.getBlock x).asks = 1 := rfl
      omega

/-- The block was asked for. -/
def WasAsked (x : Nat) (h : Hist) : Prop := ∃ outs, (Op.getBlock x, outs) ∈ h

theorem outstanding_asked {x : Nat} : ∀ {h : Hist}, Outstanding x h → WasAsked x h
  | [], hx => hx.elim
  | (op, outs) :: h, hx => by
    have up : WasAsked x h → WasAsked x ((op, outs) :: h) := fun ⟨o, ho⟩ => ⟨o, List.mem_cons_of_mem _ ho⟩
    cases op with
    | getBlock y =>
      rcases hx with rfl | hx
      · exact ⟨outs, List.mem_cons_self⟩
      · exact up (outstanding_asked hx)
    | block b k => exact up (outstanding_asked hx.2)
    | _ => exact up (outstanding_asked hx)

theorem waiting_asked {n : Nat} {b : Block} : ∀ {h : Hist}, Waiting n b h → WasAsked b.hash h
  | [], hx => hx.elim
  | (op, outs) :: h, hx => by
    have up : ∀ {x}, WasAsked x h → WasAsked x ((op, outs) :: h) := fun ⟨o, ho⟩ => ⟨o, List.mem_cons_of_mem _ ho⟩
    obtain ⟨-, hx⟩ := hx
    cases op with
    | block d k =>
      cases k with
      | none => exact up (waiting_asked hx)
      | some k =>
        rcases hx with ⟨-, h1, rfl⟩ | ⟨-, h1⟩
        · exact up (outstanding_asked h1)
        · exact up (waiting_asked h1)
    | _ => exact up (waiting_asked hx)

/-- The block with the hash is kept, or to be requested from peers. -/
def Mgr.Keeps (m : Mgr) (x : Nat) : Prop := (∃ t, m.remaining.get x = some t) ∨ ∃ k b, m.received.get k = some b ∧ b.hash = x

theorem run_keeps {c : Bool} {h : Hist} {m : Mgr} (r : Run c h m) (x : Nat) : m.Keeps x ↔ Outstanding x h ∨ ∃ k b, Waiting k b h ∧ b.hash = x := by
  have s := run_sync r
  have e : (∃ t, m.remaining.get x = some t) ↔ Outstanding x h := by
    rw [← s.outstanding x, AMap.contains, Option.isSome_iff_exists]
  simp only [Mgr.Keeps, e, s.received]

/-- What one operation adds is what it asks for. -/
theorem step_kept {c : Bool} {h : Hist} {m m' : Mgr} {op : Op} (r : Run c h m) (l : op.Legal) (e : { m with out := [] }.step c op = .ok m') {x : Nat}
    (hx : m'.Keeps x) : m.Keeps x ∨ op = .getBlock x := by
  rw [run_keeps (.step r l e)] at hx
  rw [run_keeps r]
  rcases hx with hx | ⟨k, b, hx, hb⟩
  · cases op with
    | getBlock y =>
      rcases hx with rfl | hx
      · exact .inr rfl
      · exact .inl (.inl hx)
    | block b k => exact .inl (.inl hx.2)
    | _ => exact .inl (.inl hx)
  · obtain ⟨-, hx⟩ := hx
    cases op with
    | block d i =>
      cases i with
      | none => exact .inl (.inr ⟨k, b, hx, hb⟩)
      | some i =>
        rcases hx with ⟨-, h1, rfl⟩ | ⟨-, h1⟩
        · exact .inl (.inl (hb ▸ h1))
        · exact .inl (.inr ⟨k, b, h1, hb⟩)
    | _ => exact .inl (.inr ⟨k, b, hx, hb⟩)

end Verif.Inv
