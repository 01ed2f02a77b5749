import Verif.Inv.Sync
import Verif.Fees.Props

/-!
# Properties of the inventory manager: C47, C48, C49, C74, C75
-/

set_option autoImplicit false

namespace Verif.Inv
open Verif.Tx
open Verif.Fees (Estimator Estimate)

/-! ## C47: transactions -/

/-- **C47.** Every transaction to be announced to a peer is a pending one. -/
theorem C47_queued {c : Bool} {h : Hist} {m : Mgr} (r : Run c h m) {a w : Nat} (q : Queued a w h) :
    ∃ t, pending h w = some t ∧ t.wtxid = w := by
  have s := run_sync r
  obtain ⟨p, h1, h2⟩ := (s.queued a w).1 q
  have h3 := s.good.sub a p w h1 h2
  obtain ⟨t, ht⟩ := Option.isSome_iff_exists.1 h3
  exact ⟨t, by rw [← s.pool]; exact ht, s.good.keys w t ht⟩

/-- Which operation an output comes from. -/
def Out.From : Out → Op → Prop
  | .inv _ _ _, op | .getBlock _ _, op | .timedOut _, op => ∃ env now height, op = .timer env now height
  | .tx a _, op | .acknowledged _ a, op => ∃ items, op = .getdata a items
  | .confirmed _ _ _, op | .processed _ _ _, op => ∃ b k, op = .block b k
  | .reverted _, op => ∃ hs, op = .reverted hs
  | .timer _, _ => True

theorem out_from {c : Bool} {h : Hist} {m m' : Mgr} {op : Op} (r : Run c h m) (le : op.Legal) (e : { m with out := [] }.step c op = .ok m')
    {o : Out} (ho : o ∈ m'.out) : o.From op := by
  have s := run_sync r
  cases op with
  | timer env now height =>
    obtain ⟨_, T⟩ := sync_timer s le e
    rcases T.only _ ho with h3 | ⟨_, _, _, rfl⟩ | ⟨_, rfl⟩ | ⟨_, rfl⟩ | ⟨_, _, rfl⟩
    · cases h3
    · exact ⟨_, _, _, rfl⟩
    · trivial
    · exact ⟨_, _, _, rfl⟩
    · exact ⟨_, _, _, rfl⟩
  | negotiated a n r w =>
    cases e
    simp only [Mgr.negotiated, Mgr.scheduleTick, List.nil_append, List.mem_singleton] at ho
    subst ho
    trivial
  | disconnected a =>
    cases e
    cases ho
  | reverted hs =>
    obtain ⟨ts, A, _⟩ := reverted_ok e
    rw [A.out] at ho
    rcases mem_revertOuts (by simpa using ho) with rfl | ⟨_, _, rfl⟩
    · trivial
    · exact ⟨_, rfl⟩
  | block b k =>
    rcases block_cases s e with ⟨h1, _⟩ | ⟨_, _, _, _, _, _, _, P, _⟩
    · rw [h1] at ho; cases ho
    · rcases P.only _ ho with ⟨_, _, _, rfl⟩ | ⟨_, _, _, rfl⟩
      · exact ⟨_, _, rfl⟩
      · exact ⟨_, _, rfl⟩
  | getdata b is =>
    cases e
    obtain ⟨l, G⟩ := getdata_ok b is (s.good.congr rfl rfl rfl rfl rfl : Good { m with out := [] })
    rw [G.rest] at ho
    rcases G.only _ (by simpa using ho) with ⟨_, rfl⟩ | ⟨_, rfl⟩
    · exact ⟨_, rfl⟩
    · exact ⟨_, rfl⟩
  | announce t =>
    cases e
    simp only [Mgr.announce, Mgr.scheduleTick, List.nil_append, List.mem_singleton] at ho
    subst ho
    trivial
  | getBlock x =>
    cases e
    have : o = .timer 1000 := by
      simp only [Mgr.getBlock] at ho
      split at ho <;> simpa [Mgr.scheduleTick] using ho
    subst this
    trivial

/-- **C47** (announcements): what is announced to a peer is exactly what is to be announced to it, each transaction once, by witness id if the
peer uses witness ids; all of it is pending, and only connected peers get announcements. -/
theorem C47_announced {c : Bool} {h : Hist} {m m' : Mgr} {op : Op} (r : Run c h m) (l : op.Legal)
    (e : { m with out := [] }.step c op = .ok m') {a : Nat} {bw : Bool} {ids : List Nat} (o : Out.inv a bw ids ∈ m'.out) :
    ∃ f, connected a h = some f ∧ bw = f.wtxidrelay ∧ ∃ ws : List Nat, ws.Nodup ∧ (∀ w, w ∈ ws ↔ Queued a w h) ∧
      List.Forall₂ (fun w id => ∃ t, pending h w = some t ∧ t.wtxid = w ∧ id = if bw then w else t.txid) ws ids := by
  obtain ⟨env, now, height, rfl⟩ := out_from r l e o
  have s := run_sync r
  obtain ⟨_, T⟩ := sync_timer s l e
  obtain ⟨p, h1, h2, h3, h4, h5⟩ := (T.inv a bw ids (by simp)).1 o
  change m.peers.get a = some p at h1
  refine ⟨p.features, by rw [s.conn, h1]; rfl, h4, env.queue a p.outbox.keys, ((l.queue a _).nodup_iff).2 (s.good.outbox a p h1), ?_, ?_⟩
  · intro w
    rw [(l.queue a _).mem_iff, s.queued, ← AMap.contains_iff]
    simp [h1]
  · refine h5.imp ?_
    rintro w id ⟨t, k1, k2⟩
    have hk := s.good.keys w t k1
    refine ⟨t, by rw [← s.pool]; exact k1, hk, ?_⟩
    rw [k2, hk]

/-- **C47** (requests): a `getdata` message is answered with exactly the pending transactions asked for. -/
theorem C47_answered {c : Bool} {h : Hist} {m m' : Mgr} (r : Run c h m) {a : Nat} {items : List Item}
    (e : { m with out := [] }.step c (.getdata a items) = .ok m') (b : Nat) (t : Transaction) :
    Out.tx b t ∈ m'.out ↔ b = a ∧ ∃ i ∈ items, ∃ w, i.Names (pending h) w ∧ pending h w = some t := by
  have s := run_sync r
  cases e
  obtain ⟨l, G⟩ := getdata_ok a items (s.good.congr rfl rfl rfl rfl rfl : Good { m with out := [] })
  rw [← s.pool]
  rw [show (({ m with out := [] } : Mgr).getdata a items).out = l from by rw [G.rest]; rfl]
  constructor
  · intro k
    have hb : b = a := by
      rcases G.only _ k with ⟨_, k'⟩ | ⟨_, k'⟩ <;> cases k'
      rfl
    subst hb
    exact ⟨rfl, (G.tx t).1 k⟩
  · rintro ⟨rfl, k⟩
    exact (G.tx t).2 k

/-- **C47** (requests by witness id): a pending transaction can be had by its witness id. -/
theorem C47_by_wtxid {c : Bool} {h : Hist} {m m' : Mgr} (r : Run c h m) {a : Nat} {items : List Item}
    (e : { m with out := [] }.step c (.getdata a items) = .ok m') {w : Nat} {t : Transaction} (p : pending h w = some t)
    (i : Item.wtx w ∈ items) : Out.tx a t ∈ m'.out :=
  (C47_answered r e a t).2 ⟨rfl, _, i, w, rfl, p⟩

/-- **C47** (requests by id): a pending transaction can be had by its id without witness (or one that differs in the witness only). -/
theorem C47_by_txid {c : Bool} {h : Hist} {m m' : Mgr} (r : Run c h m) {a : Nat} {items : List Item}
    (e : { m with out := [] }.step c (.getdata a items) = .ok m') {w : Nat} {t : Transaction} (p : pending h w = some t)
    (i : Item.tx t.txid ∈ items ∨ Item.witnessTx t.txid ∈ items) :
    ∃ w' t', pending h w' = some t' ∧ t'.txid = t.txid ∧ Out.tx a t' ∈ m'.out := by
  classical
  have ex : ∃ w, ∃ t', pending h w = some t' ∧ t'.txid = t.txid := ⟨w, t, p, rfl⟩
  obtain ⟨t', h1, h2⟩ := Nat.find_spec ex
  have least : ∀ w' t'', pending h w' = some t'' → t''.txid = t.txid → Nat.find ex ≤ w' :=
    fun w' t'' k1 k2 => Nat.find_min' ex ⟨t'', k1, k2⟩
  refine ⟨_, t', h1, h2, (C47_answered r e a t').2 ⟨rfl, ?_⟩⟩
  rcases i with i | i
  · exact ⟨_, i, _, ⟨⟨t', h1, h2⟩, least⟩, h1⟩
  · exact ⟨_, i, _, ⟨⟨t', h1, h2⟩, least⟩, h1⟩

/-- **C47** (acknowledgements): a transaction is reported as acknowledged by a peer only if the peer asked for it while it was to be
announced to that peer; the transaction is sent at the same time. -/
theorem C47_acknowledged {c : Bool} {h : Hist} {m m' : Mgr} {op : Op} (r : Run c h m) (le : op.Legal) (g : Agree h)
    (e : { m with out := [] }.step c op = .ok m') {id a : Nat} (o : Out.acknowledged id a ∈ m'.out) :
    ∃ items, op = .getdata a items ∧ ∃ w t, Queued a w h ∧ pending h w = some t ∧ t.txid = id ∧ (∃ i ∈ items, i.Names (pending h) w) ∧
      Out.tx a t ∈ m'.out := by
  have s := run_sync r
  obtain ⟨is, rfl⟩ := out_from r le e o
  have e' := e
  cases e
  obtain ⟨l, G⟩ := getdata_ok a is (s.good.congr rfl rfl rfl rfl rfl : Good { m with out := [] })
  rw [G.rest] at o
  have o' : Out.acknowledged id a ∈ l := by simpa using o
  refine ⟨is, rfl, ?_⟩
  cases hq : m.peers.get a with
  | none => exact absurd o' ((G.pnone hq).2 id)
  | some p =>
    obtain ⟨p', _, _, _, _, _, _, _, _, _, h1⟩ := G.psome p hq
    obtain ⟨w, x, h2, h3, h4⟩ := h1 id o'
    have hc : p.outbox.contains w = true := contains_of_get h2
    obtain ⟨t, ht⟩ := Option.isSome_iff_exists.1 (s.good.sub a p w hq hc)
    have hid : t.txid = id := by
      rcases h4 with rfl | ⟨t', h5, h6⟩
      · obtain ⟨t', k1, k2, k3⟩ := s.outSub a p w id hq h2
        rw [← k3]
        exact g t (s.poolSub w t ht) t' k1 (by rw [s.good.keys w t ht, k2])
      · change m.pool.get w = some t' at h5
        rw [ht] at h5
        cases h5
        exact h6
    have h3' : ∃ i ∈ is, i.Names (pending h) w := by rw [← s.pool]; exact h3
    have ht' : pending h w = some t := by rw [← s.pool]; exact ht
    refine ⟨w, t, (s.queued a w).2 ⟨p, hq, hc⟩, ht', hid, h3', ?_⟩
    obtain ⟨i, k1, k2⟩ := h3'
    exact (C47_answered r e' a t).2 ⟨rfl, i, k1, w, k2, ht'⟩

/-- **C47** (acknowledgements): asking for a transaction to be announced is reported. -/
theorem C47_asked {c : Bool} {h : Hist} {m m' : Mgr} (r : Run c h m) {a w : Nat} {items : List Item}
    (e : { m with out := [] }.step c (.getdata a items) = .ok m') (q : Queued a w h) {i : Item} (hi : i ∈ items)
    (hn : i.Names (pending h) w) : ∃ id, Out.acknowledged id a ∈ m'.out := by
  have s := run_sync r
  cases e
  obtain ⟨l, G⟩ := getdata_ok a items (s.good.congr rfl rfl rfl rfl rfl : Good { m with out := [] })
  rw [show (({ m with out := [] } : Mgr).getdata a items).out = l from by rw [G.rest]; rfl]
  obtain ⟨p, h1, h2⟩ := (s.queued a w).1 q
  obtain ⟨p', _, _, _, _, _, _, _, _, h3, _⟩ := G.psome p h1
  obtain ⟨x, hx⟩ := Option.isSome_iff_exists.1 h2
  exact h3.2 ⟨w, x, hx, i, hi, by rw [show ({ m with out := [] } : Mgr).pool = m.pool from rfl, s.pool]; exact hn⟩

/-- **C47** (submission): the peers reported are the connected ones that relay transactions. -/
theorem C47_submitted_to {c : Bool} {h : Hist} {m : Mgr} (r : Run c h m) (a : Nat) :
    a ∈ m.announced ↔ ∃ f, connected a h = some f ∧ f.relay = true := by
  have s := run_sync r
  rw [s.conn]
  unfold Mgr.announced
  simp only [List.mem_map, List.mem_filter, Option.map_eq_some_iff, exists_exists_and_eq_and, Peer.features]
  constructor
  · rintro ⟨⟨b, p⟩, ⟨h1, h2⟩, rfl⟩
    exact ⟨p, AMap.get_of_mem s.good.peers h1, h2⟩
  · rintro ⟨p, h1, h2⟩
    exact ⟨(a, p), ⟨AMap.mem_of_get h1, h2⟩, rfl⟩

/-- **C47** (look-up): asking the client for a submitted transaction gives a pending one with that id, if there is one. -/
theorem C47_lookup {c : Bool} {h : Hist} {m : Mgr} (r : Run c h m) (x : Nat) :
    (∀ t, m.getSubmitted x = some t → pending h t.wtxid = some t ∧ t.txid = x) ∧
    ((∃ w t, pending h w = some t ∧ t.txid = x) → (m.getSubmitted x).isSome = true) := by
  have s := run_sync r
  unfold Mgr.getSubmitted
  constructor
  · intro t ht
    obtain ⟨⟨w, t'⟩, h1, rfl⟩ := Option.map_eq_some_iff.1 ht
    have h2 := List.find?_some h1
    have h3 := AMap.get_of_mem (sorted_keys s.good.pool) (List.mem_of_find?_eq_some h1)
    have h4 := s.good.keys w t' h3
    subst h4
    exact ⟨by rw [← s.pool]; exact h3, by simpa using h2⟩
  · rintro ⟨w, t, h1, h2⟩
    rw [← s.pool] at h1
    have h3 := AMap.mem_of_get h1
    rw [Option.isSome_map, List.find?_isSome]
    exact ⟨_, h3, by simpa using h2⟩

/-- **C47** (confirmation): a transaction is reported as confirmed exactly if it was pending and a block with it is processed; the block
and height reported are those of the first such block. -/
theorem C47_confirmed {c : Bool} {h : Hist} {m m' : Mgr} {op : Op} (r : Run c h m) (le : op.Legal)
    (e : { m with out := [] }.step c op = .ok m') (id hash n : Nat) :
    Out.confirmed id hash n ∈ m'.out ↔
      ∃ b t, firstWith t.wtxid m'.out = some (n, b) ∧ b.hash = hash ∧ pending h t.wtxid = some t ∧ t.txid = id := by
  have s := run_sync r
  have key : (∃ b k, op = .block b k) → (Out.confirmed id hash n ∈ m'.out ↔
      ∃ b t, firstWith t.wtxid m'.out = some (n, b) ∧ b.hash = hash ∧ pending h t.wtxid = some t ∧ t.txid = id) := by
    rintro ⟨b, k, rfl⟩
    rw [← s.pool]
    rcases block_cases s e with ⟨h1, _⟩ | ⟨_, _, _, _, _, _, _, P, _⟩
    · rw [h1]; simp [firstWith, processed]
    · exact P.events id hash n
  constructor
  · intro o
    exact (key (out_from r le e o)).1 o
  · rintro ⟨b, t, h1, h2⟩
    have h3 := List.mem_of_find?_eq_some h1
    obtain ⟨o, h4, h5⟩ := List.mem_filterMap.1 h3
    refine (key ?_).2 ⟨b, t, h1, h2⟩
    cases o with
    | processed b' n' f => exact out_from r le e h4
    | _ => cases h5

/-- Nothing was done to make `w` pending. -/
def Idle (w : Nat) (h : Hist) : Prop := ∀ x ∈ h, (∀ t, x.1 = .announce t → t.wtxid ≠ w) ∧ ∀ t, Out.reverted t ∈ x.2 → t.wtxid ≠ w

theorem settle_idle {w : Nat} {l : List Out} (hl : ∀ t, Out.reverted t ∈ l → t.wtxid ≠ w) {f : Nat → Option Transaction}
    (hf : f w = none) : (l.foldl settle f) w = none := by
  induction l generalizing f with
  | nil => exact hf
  | cons o l ih =>
    rw [List.foldl_cons]
    refine ih (fun t h => hl t (List.mem_cons_of_mem _ h)) ?_
    cases o with
    | processed b n x => simp only [settle]; split <;> first | rfl | exact hf
    | reverted t =>
      simp only [settle]
      rw [if_neg (Ne.symm (hl t List.mem_cons_self))]
      exact hf
    | _ => exact hf

theorem settle_first {w : Nat} {l : List Out} (hl : ∀ t, Out.reverted t ∈ l → t.wtxid ≠ w) (hw : (firstWith w l).isSome = true)
    (f : Nat → Option Transaction) : (l.foldl settle f) w = none := by
  induction l generalizing f with
  | nil => simp [firstWith, processed] at hw
  | cons o l ih =>
    rw [List.foldl_cons]
    have hl' : ∀ t, Out.reverted t ∈ l → t.wtxid ≠ w := fun t h => hl t (List.mem_cons_of_mem _ h)
    cases o with
    | processed b n x =>
      by_cases hb : b.has w = true
      · refine settle_idle hl' ?_
        simp only [settle]
        rw [if_pos hb]
      · refine ih hl' ?_ _
        simpa [firstWith, processed, hb] using hw
    | _ => exact ih hl' (by simpa [firstWith, processed] using hw) _

theorem pending_idle {w : Nat} : ∀ {h2 h1 : Hist}, Idle w h2 → pending h1 w = none → pending (h2 ++ h1) w = none
  | [], _, _, k => k
  | (op, outs) :: h2, h1, hi, k => by
    have ih := pending_idle (h2 := h2) (fun x hx => hi x (List.mem_cons_of_mem _ hx)) k
    obtain ⟨i1, i2⟩ := hi _ List.mem_cons_self
    simp only [List.cons_append, pending]
    refine settle_idle i2 ?_
    cases op with
    | announce t => simpa [Ne.symm (i1 t rfl)] using ih
    | _ => exact ih

theorem forall₂_right {α β : Type} {R : α → β → Prop} {l : List α} {l' : List β} (f : List.Forall₂ R l l') {b : β} (hb : b ∈ l') :
    ∃ a ∈ l, R a b := by
  induction f with
  | nil => cases hb
  | cons h _ ih =>
    rcases List.mem_cons.1 hb with rfl | hb
    · exact ⟨_, List.mem_cons_self, h⟩
    · obtain ⟨a, h1, h2⟩ := ih hb
      exact ⟨a, List.mem_cons_of_mem _ h1, h2⟩

theorem settle_again (w : Nat) : ∀ (ts : List Transaction) (f : Nat → Option Transaction),
    (∃ t ∈ ts, ((revertOuts ts).foldl settle f) w = some t) ∨ ((∀ t ∈ ts, t.wtxid ≠ w) ∧ ((revertOuts ts).foldl settle f) w = f w)
  | [], f => .inr ⟨by simp, rfl⟩
  | x :: ts, f => by
    rw [revertOuts, List.foldl_cons, List.foldl_cons]
    rcases settle_again w ts (settle (settle f (.timer 1000)) (.reverted x)) with ⟨t, h1, h2⟩ | ⟨h1, h2⟩
    · exact .inl ⟨t, List.mem_cons_of_mem _ h1, h2⟩
    · rw [h2]
      by_cases hx : w = x.wtxid
      · exact .inl ⟨x, List.mem_cons_self, by simp [settle, hx]⟩
      · refine .inr ⟨?_, by simp [settle, hx]⟩
        intro t ht
        rcases List.mem_cons.1 ht with rfl | ht
        · exact Ne.symm hx
        · exact h1 t ht

/-- **C47** (confirmation): once a block with the transaction was processed, it is neither announced nor sent to anyone, until it is
submitted again or its block is reverted. -/
theorem C47_silent {c : Bool} {h1 h2 : Hist} {m m' : Mgr} {op0 op : Op} {outs0 : List Out} {w : Nat}
    (r : Run c (h2 ++ (op0, outs0) :: h1) m) (hb : (firstWith w outs0).isSome = true) (hi : Idle w (h2 ++ [(op0, outs0)]))
    (le : op.Legal) (e : { m with out := [] }.step c op = .ok m') :
    (∀ a t, Out.tx a t ∈ m'.out → t.wtxid ≠ w) ∧ (∀ a ids, Out.inv a true ids ∈ m'.out → w ∉ ids) ∧
    (∀ a ids id, Out.inv a false ids ∈ m'.out → id ∈ ids → ∃ t, t.wtxid ≠ w ∧ t.txid = id ∧ pending (h2 ++ (op0, outs0) :: h1) t.wtxid = some t) := by
  have s := run_sync r
  have hp : pending (h2 ++ (op0, outs0) :: h1) w = none := by
    refine pending_idle (fun x hx => hi x (List.mem_append_left _ hx)) ?_
    simp only [pending]
    exact settle_first (hi _ (List.mem_append_right _ List.mem_cons_self)).2 hb _
  refine ⟨?_, ?_, ?_⟩
  · intro a t o hw
    obtain ⟨items, rfl⟩ := out_from r le e o
    obtain ⟨_, i, _, w', _, h3⟩ := (C47_answered r e a t).1 o
    have h4 := s.good.keys w' t (by rw [s.pool]; exact h3)
    rw [← h4, hw, hp] at h3
    cases h3
  · intro a ids o hw
    obtain ⟨f, _, _, ws, _, _, h3⟩ := C47_announced r le e o
    obtain ⟨w', _, t, h4, h5, h6⟩ := forall₂_right h3 hw
    simp only [if_true] at h6
    rw [← h6, hp] at h4
    cases h4
  · intro a ids id o hw
    obtain ⟨f, _, _, ws, _, _, h3⟩ := C47_announced r le e o
    obtain ⟨w', _, t, h4, h5, h6⟩ := forall₂_right h3 hw
    subst h5
    refine ⟨t, ?_, by simpa using h6.symm, h4⟩
    intro hc
    rw [hc, hp] at h4
    cases h4

/-! ## C48: blocks -/

/-- **C48** (order): the blocks processed in a step are processed in ascending order of their heights. -/
theorem C48_ascending {c : Bool} {h : Hist} {m m' : Mgr} {op : Op} (r : Run c h m) (le : op.Legal)
    (e : { m with out := [] }.step c op = .ok m') : ((processed m'.out).map (·.1)).Pairwise (· < ·) := by
  have s := run_sync r
  by_cases hop : ∃ b k, op = .block b k
  · obtain ⟨b, k, rfl⟩ := hop
    rcases block_cases s e with ⟨h1, _⟩ | ⟨_, _, n, _, hs, h1, _, _, h2, _⟩
    · rw [h1]; exact .nil
    · rw [h2, List.map_filterMap]
      have : ∀ (f : Nat → Option (Nat × Block)), (∀ j p, f j = some p → p.1 = j) →
          ((hs.filterMap fun j => (f j).map (·.1))).Pairwise (· < ·) := by
        intro f hf
        refine List.Pairwise.filterMap _ ?_ h1
        intro a a' hlt b hb b' hb'
        obtain ⟨p, k1, k2⟩ := Option.map_eq_some_iff.1 hb
        obtain ⟨p', k3, k4⟩ := Option.map_eq_some_iff.1 hb'
        rw [← k2, ← k4, hf a p k1, hf a' p' k3]
        exact hlt
      refine this _ ?_
      intro j p hj
      obtain ⟨b', _, rfl⟩ := Option.map_eq_some_iff.1 hj
      rfl
  · have : processed m'.out = [] := by
      refine processed_nil ?_
      rintro o ho b n f rfl
      exact hop (out_from r le e ho)
    rw [this]
    exact .nil

theorem mem_processed {l : List Out} {n : Nat} {b : Block} : (n, b) ∈ processed l ↔ ∃ f, Out.processed b n f ∈ l := by
  unfold processed
  rw [List.mem_filterMap]
  constructor
  · rintro ⟨o, h1, h2⟩
    cases o with
    | processed b' n' f => cases h2; exact ⟨f, h1⟩
    | _ => cases h2
  · rintro ⟨f, h1⟩
    exact ⟨_, h1, rfl⟩

/-- **C48** (which blocks are processed, and when): blocks are processed when the last of the requested blocks arrives and is on the active
chain.  These are all blocks waiting, and the new one; of two blocks received for the same height the last. -/
theorem C48_processed {c : Bool} {h : Hist} {m m' : Mgr} {op : Op} (r : Run c h m) (le : op.Legal)
    (e : { m with out := [] }.step c op = .ok m') (n : Nat) (b : Block) :
    (∃ f, Out.processed b n f ∈ m'.out) ↔
      ∃ d k, op = .block d (some k) ∧ Outstanding d.hash h ∧ (∀ x, Outstanding x h → x = d.hash) ∧
        ((n = k ∧ b = d) ∨ (n ≠ k ∧ Waiting n b h)) := by
  have s := run_sync r
  rw [← mem_processed]
  have key : ∀ d j, op = .block d j → ((n, b) ∈ processed m'.out ↔
      ∃ k, j = some k ∧ Outstanding d.hash h ∧ (∀ x, Outstanding x h → x = d.hash) ∧ ((n = k ∧ b = d) ∨ (n ≠ k ∧ Waiting n b h))) := by
    rintro d j rfl
    rcases block_cases s e with ⟨h1, _, h2⟩ | ⟨h1, h2, k, rfl, hs, _, h4, _, h5, _⟩
    · rw [h1]
      constructor
      · rintro k; cases k
      · rintro ⟨k, rfl, k1, k2, _⟩
        exact absurd ⟨k1, ⟨k, rfl⟩, k2⟩ h2
    · rw [h5, List.mem_filterMap]
      constructor
      · rintro ⟨i, k1, k2⟩
        obtain ⟨b', k3, k4⟩ := Option.map_eq_some_iff.1 k2
        cases k4
        refine ⟨k, rfl, h1, h2, ?_⟩
        simp only [AMap.get_insert] at k3
        split at k3
        · rename_i hkn
          cases k3
          exact .inl ⟨hkn.symm, rfl⟩
        · rename_i hkn
          exact .inr ⟨fun hc => hkn hc.symm, (s.received n b).1 k3⟩
      · rintro ⟨k', hk', _, _, k3⟩
        cases hk'
        have hg : (m.received.insert k d).get n = some b := by
          rw [AMap.get_insert]
          rcases k3 with ⟨rfl, rfl⟩ | ⟨hn, hw⟩
          · simp
          · rw [if_neg (Ne.symm hn)]
            exact (s.received n b).2 hw
        refine ⟨n, (h4 n).2 ?_, ?_⟩
        · rw [← AMap.get_isSome_iff, hg]; rfl
        · simp only [hg, Option.map_some]
  constructor
  · intro hm
    obtain ⟨f, hf⟩ := mem_processed.1 hm
    obtain ⟨d, j, hop⟩ := out_from r le e hf
    obtain ⟨k, rfl, k1⟩ := (key d j hop).1 hm
    exact ⟨d, k, hop, k1⟩
  · rintro ⟨d, k, hop, k1⟩
    exact (key d _ hop).2 ⟨k, rfl, k1⟩

/-- **C48** (nothing is skipped): when a block is processed, no requested block is missing, and nothing is left waiting. -/
theorem C48_complete {c : Bool} {h : Hist} {m m' : Mgr} {op : Op} (r : Run c h m) (le : op.Legal)
    (e : { m with out := [] }.step c op = .ok m') {n : Nat} {b : Block} {f : Option Estimate} (o : Out.processed b n f ∈ m'.out) :
    (∀ x, ¬ Outstanding x ((op, m'.out) :: h)) ∧ ∀ n b, ¬ Waiting n b ((op, m'.out) :: h) := by
  obtain ⟨d, k, rfl, h1, h2, _⟩ := (C48_processed r le e n b).1 ⟨f, o⟩
  constructor
  · rintro x ⟨k1, k2⟩
    exact k1 (h2 x k2).symm
  · rintro n' b' ⟨k1, _⟩
    have := mem_processed.2 ⟨f, o⟩
    rw [k1] at this
    cases this

/-- **C48** (requested blocks only): what is processed was requested and received; a block nobody asked for is ignored. -/
theorem C48_requested {n : Nat} {b : Block} : ∀ {h : Hist}, Waiting n b h →
    ∃ h1 h2 outs, h = h2 ++ (Op.block b (some n), outs) :: h1 ∧ Outstanding b.hash h1
  | (op, outs) :: h, w => by
    obtain ⟨_, w⟩ := w
    cases op with
    | block d k =>
      cases k with
      | none =>
        obtain ⟨h1, h2, o, k1, k2⟩ := C48_requested (h := h) w
        exact ⟨h1, (Op.block d none, outs) :: h2, o, by rw [k1]; rfl, k2⟩
      | some k =>
        rcases w with ⟨rfl, w1, rfl⟩ | ⟨_, w⟩
        · exact ⟨h, [], outs, rfl, w1⟩
        · obtain ⟨h1, h2, o, k1, k2⟩ := C48_requested (h := h) w
          exact ⟨h1, (Op.block d (some k), outs) :: h2, o, by rw [k1]; rfl, k2⟩
    | _ =>
      obtain ⟨h1, h2, o, k1, k2⟩ := C48_requested (h := h) w
      exact ⟨h1, (_, outs) :: h2, o, by rw [k1]; rfl, k2⟩

/-! ## C49: attempts -/

theorem queued_outbox {c : Bool} {h : Hist} {m : Mgr} (s : Sync c h m) {a : Nat} {p : Peer} (hp : m.peers.get a = some p) :
    p.outbox ≠ [] ↔ ∃ w, Queued a w h := by
  constructor
  · intro hne
    cases ho : p.outbox with
    | nil => exact absurd ho hne
    | cons x l =>
      refine ⟨x.1, (s.queued a x.1).2 ⟨p, hp, ?_⟩⟩
      rw [AMap.contains_iff, ho]
      exact List.mem_map.2 ⟨x, List.mem_cons_self, rfl⟩
  · rintro ⟨w, hw⟩ hc
    obtain ⟨p', k1, k2⟩ := (s.queued a w).1 hw
    rw [hp] at k1
    cases k1
    rw [hc] at k2
    cases k2

/-- **C49** (announcements): a peer is sent an announcement exactly when there is something to announce, the last one is at least a minute
ago, and there were fewer than three since the peer connected or last asked for a transaction. -/
theorem C49_announced {c : Bool} {h : Hist} {m m' : Mgr} {env : Env} {now height : Nat} (r : Run c h m) (le : env.Legal)
    (e : { m with out := [] }.step c (.timer env now height) = .ok m') (a : Nat) :
    (∃ bw ids, Out.inv a bw ids ∈ m'.out) ↔
      (∃ w, Queued a w h) ∧ (sent a h).head?.getD 0 + 60000 ≤ now ∧ (sent a h).length < 3 := by
  have s := run_sync r
  obtain ⟨_, T⟩ := sync_timer s le e
  constructor
  · rintro ⟨bw, ids, o⟩
    obtain ⟨p, h1, ⟨h2, h3⟩, h4, _⟩ := (T.inv a bw ids (by simp)).1 o
    change m.peers.get a = some p at h1
    obtain ⟨k1, k2⟩ := s.sent a p h1
    rw [k2] at h3
    rw [k1] at h4
    exact ⟨(queued_outbox s h1).1 h2, h3, h4⟩
  · rintro ⟨⟨w, hw⟩, h2, h3⟩
    obtain ⟨p, h1, h4⟩ := (s.queued a w).1 hw
    obtain ⟨k1, k2⟩ := s.sent a p h1
    rw [← k2] at h2
    rw [← k1] at h3
    obtain ⟨ids, _, hi⟩ := lookupAll_total (pool := m.pool) (bw := p.wtxidrelay) (ws := env.queue a p.outbox.keys) (by
      intro v hv
      exact s.good.sub a p v h1 ((AMap.contains_iff _ _).2 ((le.queue a _).mem_iff.1 hv)))
    exact ⟨p.wtxidrelay, ids, (T.inv a _ _ (by simp)).2 ⟨p, h1, ⟨(queued_outbox s h1).2 ⟨w, hw⟩, h2⟩, h3, rfl, hi⟩⟩

/-- **C49** (time-outs): a peer is dropped exactly when there is something to announce, the last announcement is at least a minute ago, and it
was the third since the peer connected or last asked for a transaction. -/
theorem C49_dropped {c : Bool} {h : Hist} {m m' : Mgr} {op : Op} (r : Run c h m) (le : op.Legal)
    (e : { m with out := [] }.step c op = .ok m') (a : Nat) :
    Out.timedOut a ∈ m'.out ↔ ∃ env now height, op = .timer env now height ∧
      (∃ w, Queued a w h) ∧ (sent a h).head?.getD 0 + 60000 ≤ now ∧ (sent a h).length = 3 := by
  have s := run_sync r
  constructor
  · intro o
    obtain ⟨env, now, height, rfl⟩ := out_from r le e o
    obtain ⟨_, T⟩ := sync_timer s le e
    obtain ⟨p, h1, ⟨h2, h3⟩, h4⟩ := (T.drop a (by simp)).1 o
    change m.peers.get a = some p at h1
    obtain ⟨k1, k2⟩ := s.sent a p h1
    rw [k2] at h3
    rw [k1] at h4
    exact ⟨env, now, height, rfl, (queued_outbox s h1).1 h2, h3, Nat.le_antisymm (s.spaced a).1 h4⟩
  · rintro ⟨env, now, height, rfl, ⟨w, hw⟩, h2, h3⟩
    obtain ⟨_, T⟩ := sync_timer s le e
    obtain ⟨p, h1, h4⟩ := (s.queued a w).1 hw
    obtain ⟨k1, k2⟩ := s.sent a p h1
    rw [← k2] at h2
    rw [← k1] at h3
    exact (T.drop a (by simp)).2 ⟨p, h1, ⟨(queued_outbox s h1).2 ⟨w, hw⟩, h2⟩, h3.ge⟩

/-- **C49** (spacing): since a peer connected or last asked for a transaction, there were at most three announcements, at least a minute
apart. -/
theorem C49_spaced {c : Bool} {h : Hist} {m : Mgr} (r : Run c h m) (a : Nat) : (sent a h).length ≤ 3 ∧ Spaced 60000 (sent a h) :=
  (run_sync r).spaced a

/-- **C49** (block requests): a block is asked for only if it was requested and not received, from a connected peer that serves blocks, and
at least fifteen seconds after it was last asked for. -/
theorem C49_block_asked {c : Bool} {h : Hist} {m m' : Mgr} {op : Op} (r : Run c h m) (le : op.Legal)
    (e : { m with out := [] }.step c op = .ok m') {a x : Nat} (o : Out.getBlock a x ∈ m'.out) :
    ∃ env now height, op = .timer env now height ∧ Outstanding x h ∧ (asked x h).head?.getD 0 + 15000 ≤ now ∧
      ∃ f, connected a ((op, m'.out) :: h) = some f ∧ f.network = true := by
  have s := run_sync r
  obtain ⟨env, now, height, rfl⟩ := out_from r le e o
  obtain ⟨s', T⟩ := sync_timer s le e
  obtain ⟨⟨p, h1, h2⟩, t, h3, h4⟩ := T.get a x (by simp) o
  obtain ⟨h5, h6⟩ := s.rsome x t h3
  subst h6
  exact ⟨env, now, height, rfl, h5, h4, p.features, by rw [s'.conn, h1]; rfl, h2⟩

/-- **C49** (block requests): a requested block is asked for (again) whenever the timer fires, if fifteen seconds passed and a peer that
serves blocks is connected. -/
theorem C49_block_retried {c : Bool} {h : Hist} {m m' : Mgr} {env : Env} {now height : Nat} (r : Run c h m) (le : env.Legal)
    (e : { m with out := [] }.step c (.timer env now height) = .ok m') {x : Nat} (ho : Outstanding x h)
    (hd : (asked x h).head?.getD 0 + 15000 ≤ now) {b : Nat} {f : Features}
    (hc : connected b ((.timer env now height, m'.out) :: h) = some f) (hn : f.network = true) :
    ∃ a, Out.getBlock a x ∈ m'.out := by
  have s := run_sync r
  obtain ⟨s', T⟩ := sync_timer s le e
  rw [s'.conn] at hc
  obtain ⟨p, h1, rfl⟩ := Option.map_eq_some_iff.1 hc
  obtain ⟨t, ht⟩ := Option.isSome_iff_exists.1 ((s.outstanding x).2 ho)
  obtain ⟨_, h6⟩ := s.rsome x t ht
  exact T.got x t ht (by rw [h6]; exact hd) ⟨b, p, h1, hn⟩

/-- **C49** (block requests): requests for the same block are at least fifteen seconds apart. -/
theorem C49_block_spaced {c : Bool} {h : Hist} {m : Mgr} (r : Run c h m) (x : Nat) : Spaced 15000 (asked x h) :=
  (run_sync r).aspaced x

/-! ## C75: reverted blocks -/

/-- **C75.** When blocks are reverted, exactly the transactions confirmed in them are reported as reverted. -/
theorem C75_reported {c : Bool} {h : Hist} {m m' : Mgr} {op : Op} (r : Run c h m) (le : op.Legal)
    (e : { m with out := [] }.step c op = .ok m') (t : Transaction) :
    Out.reverted t ∈ m'.out ↔ ∃ hs, op = .reverted hs ∧ ∃ n ∈ hs, ConfirmedAt n t h := by
  have s := run_sync r
  have key : ∀ hs, op = .reverted hs → (Out.reverted t ∈ m'.out ↔ ∃ n ∈ hs, ConfirmedAt n t h) := by
    rintro hs rfl
    obtain ⟨ts, A, h1, _⟩ := reverted_ok e
    rw [show m'.out = revertOuts ts from by rw [A.out]; rfl, reverted_mem_revertOuts, h1]
    simp only [s.conf]
  constructor
  · intro o
    obtain ⟨hs, hop⟩ := out_from r le e o
    exact ⟨hs, hop, (key hs hop).1 o⟩
  · rintro ⟨hs, hop, k⟩
    exact (key hs hop).2 k

/-- **C75** (again pending): what is reported as reverted is pending afterwards, and so is available to peers again. -/
theorem C75_pending {c : Bool} {h : Hist} {m m' : Mgr} {hs : List Nat} (r : Run c h m)
    (e : { m with out := [] }.step c (.reverted hs) = .ok m') {t : Transaction} (o : Out.reverted t ∈ m'.out) :
    ∃ t', pending ((.reverted hs, m'.out) :: h) t.wtxid = some t' ∧ Out.reverted t' ∈ m'.out  := by
  have s := run_sync r
  obtain ⟨ts, A, _⟩ := reverted_ok e
  have ho : m'.out = revertOuts ts := by rw [A.out]; rfl
  rw [ho] at o ⊢
  simp only [pending]
  rcases settle_again t.wtxid ts (pending h) with ⟨t', h1, h2⟩ | ⟨h1, _⟩
  · exact ⟨t', h2, reverted_mem_revertOuts.2 h1⟩
  · exact absurd rfl (h1 t (reverted_mem_revertOuts.1 o))

end Verif.Inv
