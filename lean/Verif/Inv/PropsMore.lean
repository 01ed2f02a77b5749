import Verif.Inv.Props

/-!
# More properties of the inventory manager: C49 (one message per peer and step), C53, C74 and C75
-/

set_option autoImplicit false

namespace Verif.Inv
open Verif.Tx
open Verif.Fees (Estimator Estimate)

/-! ## C49: one announcement at a time -/

theorem attemptAll_count {env : Env} {now a : Nat} : ∀ {as : List Nat} {m m' : Mgr} {dis dis' : List Nat},
    Mgr.attemptAll env now as m dis = .ok (m', dis') →
    m'.out.countP (Out.isInvTo a) ≤ m.out.countP (Out.isInvTo a) + as.count a ∧
    ∀ x, m'.out.countP (Out.isRequestOf x) = m.out.countP (Out.isRequestOf x) := by
  intro as
  induction as with
  | nil =>
    intro m m' dis dis' e
    cases e
    simp
  | cons b as ih =>
    intro m m' dis dis' e
    have le : as.count a ≤ (b :: as).count a := List.count_le_count_cons
    unfold Mgr.attemptAll at e
    cases hp : m.peers.get b with
    | none =>
      simp only [hp] at e
      obtain ⟨h1, h2⟩ := ih e
      exact ⟨by omega, h2⟩
    | some p =>
      simp only [hp] at e
      split at e
      · obtain ⟨h1, h2⟩ := ih e
        exact ⟨by omega, h2⟩
      · split at e
        · obtain ⟨h1, h2⟩ := ih e
          exact ⟨by omega, h2⟩
        · split at e
          · obtain ⟨h1, h2⟩ := ih e
            exact ⟨by omega, h2⟩
          · obtain ⟨ids, _, e⟩ := Res.bind_eq_ok.1 e
            obtain ⟨h1, h2⟩ := ih e
            constructor
            · refine h1.trans ?_
              simp only [Mgr.emit, List.countP_append, List.count_cons]
              by_cases hb : b = a
              · subst hb
                simp only [List.countP_cons, List.countP_nil, Out.isInvTo, decide_true, if_true, beq_self_eq_true]
                simp
                omega
              · simp [Out.isInvTo, hb]
            · intro x
              rw [h2 x]
              simp [Mgr.emit, Out.isRequestOf]

theorem dropAll_count (a x : Nat) : ∀ (dis : List Nat) (m : Mgr),
    (Mgr.dropAll dis m).out.countP (Out.isInvTo a) = m.out.countP (Out.isInvTo a) ∧
    (Mgr.dropAll dis m).out.countP (Out.isRequestOf x) = m.out.countP (Out.isRequestOf x)
  | [], _ => ⟨rfl, rfl⟩
  | b :: dis, m => by
    obtain ⟨h1, h2⟩ := dropAll_count a x dis ({ m with peers := m.peers.erase b }.emit [.timedOut b])
    rw [Mgr.dropAll, h1, h2]
    simp [Mgr.emit, Out.isInvTo, Out.isRequestOf]

theorem requestAll_count {env : Env} {now : Nat} (a x : Nat) : ∀ (hs : List Nat) (m : Mgr),
    (Mgr.requestAll env now hs m).out.countP (Out.isInvTo a) = m.out.countP (Out.isInvTo a) ∧
    (Mgr.requestAll env now hs m).out.countP (Out.isRequestOf x) ≤ m.out.countP (Out.isRequestOf x) + hs.count x := by
  intro hs
  induction hs with
  | nil => intro m; simp [Mgr.requestAll]
  | cons y hs ih =>
    intro m
    have le : hs.count x ≤ (y :: hs).count x := List.count_le_count_cons
    rw [Mgr.requestAll]
    split
    · exact ⟨(ih m).1, by have := (ih m).2; omega⟩
    · split
      · exact ⟨(ih m).1, by have := (ih m).2; omega⟩
      · split
        · rename_i b _
          obtain ⟨h1, h2⟩ := ih ({ m with remaining := m.remaining.insert y (some now) }.emit [.getBlock b y, .timer requestTimeout])
          refine ⟨h1.trans (by simp [Mgr.emit, Out.isInvTo]), h2.trans ?_⟩
          simp only [Mgr.emit, List.countP_append, List.count_cons]
          by_cases hy : y = x
          · subst hy
            simp [Out.isRequestOf]
            omega
          · simp [Out.isRequestOf, hy]
        · exact ⟨(ih m).1, by have := (ih m).2; omega⟩

theorem timer_count {c : Bool} {env : Env} {now height : Nat} {m m' : Mgr} (g : Good m) (le : env.Legal)
    (e : m.timerExpired c env now height = .ok m') (a x : Nat) :
    m'.out.countP (Out.isInvTo a) ≤ m.out.countP (Out.isInvTo a) + 1 ∧
    m'.out.countP (Out.isRequestOf x) ≤ m.out.countP (Out.isRequestOf x) + 1 := by
  unfold Mgr.timerExpired at e
  simp only at e
  generalize hm0 : (if idleTimeout ≤ now - m.lastTick.getD 0 then
    ({ m with lastTick := some now, out := m.out ++ [.timer idleTimeout] } : Mgr) else m) = m0 at e
  have h0 : m0.out.countP (Out.isInvTo a) = m.out.countP (Out.isInvTo a) ∧
      m0.out.countP (Out.isRequestOf x) = m.out.countP (Out.isRequestOf x) ∧ m0.peers = m.peers ∧ m0.pool = m.pool ∧
      m0.remaining = m.remaining ∧ m0.received = m.received ∧ m0.confirmed = m.confirmed := by
    rw [← hm0]
    split
    · simp [Out.isInvTo, Out.isRequestOf]
    · simp
  obtain ⟨k1, k2, k3, k4, k5, k6, k7⟩ := h0
  obtain ⟨conf, hc, e⟩ := Res.bind_eq_ok.1 e
  obtain ⟨⟨m2, dis⟩, h2, e⟩ := Res.bind_eq_ok.1 e
  simp only [Res.ok.injEq] at e
  subst e
  have g1 : Good { m0 with confirmed := m.confirmed } := g.congr k3 k4 k5 k6 rfl
  have g2 : m2.remaining.keys.Nodup := by
    have hg1 : Good { m0 with confirmed := conf } := by
      refine ⟨g1.peers, g1.outbox, g1.sub, g1.pool, g1.keys, g1.remaining, g1.received, ?_⟩
      unfold prune at hc
      split at hc
      · cases hc
      · cases hc
        rw [k7]
        exact List.Pairwise.sublist (List.Sublist.map _ List.filter_sublist) g.confirmed
    obtain ⟨m3, dis3, l, h3, A⟩ := attemptAll_ok le (now := now) (as := env.peers m0.peers.keys) (dis := [])
      ((le.peers _).nodup_iff.2 hg1.peers) hg1
    rw [h2] at h3
    cases h3
    exact A.good.remaining
  obtain ⟨c1, c2⟩ := attemptAll_count (a := a) h2
  obtain ⟨d1, d2⟩ := dropAll_count a x dis m2
  obtain ⟨r1, r2⟩ := requestAll_count (env := env) (now := now) a x (env.blocks (Mgr.dropAll dis m2).remaining.keys) (Mgr.dropAll dis m2)
  have c2 := c2 x
  simp only at c1 c2
  rw [k1] at c1
  rw [k2] at c2
  have n1 : (env.peers m0.peers.keys).count a ≤ 1 :=
    List.nodup_iff_count_le_one.1 ((le.peers _).nodup_iff.2 (by rw [k3]; exact g.peers)) a
  have n2 : (env.blocks (Mgr.dropAll dis m2).remaining.keys).count x ≤ 1 := by
    refine List.nodup_iff_count_le_one.1 ((le.blocks _).nodup_iff.2 ?_) x
    have : ∀ (l : List Nat) (m : Mgr), (Mgr.dropAll l m).remaining = m.remaining := by
      intro l
      induction l with
      | nil => intro m; rfl
      | cons b l ih => intro m; rw [Mgr.dropAll, ih]; rfl
    rw [this]
    exact g2
  omega

/-- **C49** (one message): a peer gets at most one announcement at a time, and a block is asked for from at most one peer at a time. -/
theorem C49_once {c : Bool} {h : Hist} {m m' : Mgr} {op : Op} (r : Run c h m) (le : op.Legal)
    (e : { m with out := [] }.step c op = .ok m') (a x : Nat) :
    m'.out.countP (Out.isInvTo a) ≤ 1 ∧ m'.out.countP (Out.isRequestOf x) ≤ 1 := by
  have s := run_sync r
  by_cases hop : ∃ env now height, op = .timer env now height
  · obtain ⟨env, now, height, rfl⟩ := hop
    have := timer_count (s.good.congr rfl rfl rfl rfl rfl : Good { m with out := [] }) le e a x
    simpa using this
  · constructor
    · rw [List.countP_eq_zero.2]
      · omega
      · intro o ho
        cases o <;> simp only [Out.isInvTo, Bool.false_eq_true, not_false_eq_true]
        exact absurd (out_from r le e ho) hop
    · rw [List.countP_eq_zero.2]
      · omega
      · intro o ho
        cases o <;> simp only [Out.isRequestOf, Bool.false_eq_true, not_false_eq_true]
        exact absurd (out_from r le e ho) hop

/-! ## C75: announced again -/

/-- **C75** (announced again): a reverted transaction is announced to every connected peer that relays transactions when the timer
next fires (if it is time for an announcement to that peer), or another one with the same witness id is. -/
theorem C75_announced {c : Bool} {h : Hist} {m m1 m2 : Mgr} {hs : List Nat} {env : Env} {now height a : Nat} {f : Features} {t : Transaction}
    (r : Run c h m) (e1 : { m with out := [] }.step c (.reverted hs) = .ok m1) (o : Out.reverted t ∈ m1.out) (le : env.Legal)
    (e2 : { m1 with out := [] }.step c (.timer env now height) = .ok m2) (hf : connected a h = some f) (hr : f.relay = true)
    (hd : (sent a h).head?.getD 0 + 60000 ≤ now) (hl : (sent a h).length < 3) :
    ∃ ids t', Out.inv a f.wtxidrelay ids ∈ m2.out ∧ Out.reverted t' ∈ m1.out ∧ t'.wtxid = t.wtxid ∧
      (if f.wtxidrelay then t'.wtxid else t'.txid) ∈ ids := by
  have r1 : Run c ((.reverted hs, m1.out) :: h) m1 := Run.step (op := .reverted hs) r trivial e1
  have q : Queued a t.wtxid ((.reverted hs, m1.out) :: h) := .inr ⟨⟨t, o, rfl⟩, f, hf, hr⟩
  obtain ⟨bw, ids, hi⟩ := (C49_announced r1 le e2 a).2 ⟨⟨_, q⟩, hd, hl⟩
  obtain ⟨f', k1, k2, ws, _, k4, k5⟩ := C47_announced (op := .timer env now height) r1 le e2 hi
  have hff : f' = f := by
    have : connected a ((.reverted hs, m1.out) :: h) = some f := hf
    rw [this] at k1
    cases k1
    rfl
  subst hff
  subst k2
  obtain ⟨t', k6, k7⟩ := C75_pending r e1 o
  obtain ⟨j, hj, hjt⟩ := List.getElem_of_mem ((k4 t.wtxid).2 q)
  obtain ⟨hlen, hget⟩ := List.forall₂_iff_get.1 k5
  obtain ⟨t'', g1, g2, g3⟩ := hget j hj (by omega)
  simp only [List.get_eq_getElem, hjt] at g1 g2 g3
  rw [k6] at g1
  cases g1
  refine ⟨ids, t', hi, k7, g2, ?_⟩
  rw [g2, ← g3]
  exact List.getElem_mem _

/-! ## C53 and C74: fee estimates and crashes -/

/-- The transactions of the blocks processed. -/
def known (h : Hist) : List Transaction := h.flatMap (fun x => (processed x.2).flatMap (·.2.txs))

theorem seen_append (l l' : List Fees.Op) : Fees.seen (l ++ l') = Fees.seen l ++ Fees.seen l' := by
  induction l with
  | nil => rfl
  | cons o l ih => cases o <;> simp [Fees.seen, ih]

theorem mem_seen_process {l : List (Nat × Block)} {t : Transaction} :
    t ∈ Fees.seen ((l.map fun p => Fees.Op.process p.2.txs p.1).reverse) ↔ ∃ p ∈ l, t ∈ p.2.txs := by
  induction l with
  | nil => simp [Fees.seen]
  | cons p l ih =>
    rw [List.map_cons, List.reverse_cons, seen_append, List.mem_append, ih]
    simp only [Fees.seen, List.append_nil, List.mem_cons]
    constructor
    · rintro (⟨q, h1, h2⟩ | h)
      · exact ⟨q, .inr h1, h2⟩
      · exact ⟨p, .inl rfl, h⟩
    · rintro ⟨q, rfl | h1, h2⟩
      · exact .inr h2
      · exact .inl ⟨q, h1, h2⟩

theorem seen_rollback (l : List Nat) (f : Nat → Nat) : Fees.seen ((l.map fun n => Fees.Op.rollback (f n)).reverse) = [] := by
  induction l with
  | nil => rfl
  | cons p l ih => rw [List.map_cons, List.reverse_cons, seen_append, ih]; rfl

theorem seen_known : ∀ {h : Hist} {t : Transaction}, t ∈ Fees.seen (feeOps h) → t ∈ known h
  | (op, outs) :: h, t, ht => by
    have main : t ∈ Fees.seen (((processed outs).map fun p => Fees.Op.process p.2.txs p.1).reverse ++ feeOps h) →
        t ∈ known ((op, outs) :: h) := by
      rw [seen_append, List.mem_append, mem_seen_process]
      rintro (⟨p, h1, h2⟩ | h1)
      · exact List.mem_flatMap.2 ⟨_, List.mem_cons_self, List.mem_flatMap.2 ⟨p, h1, h2⟩⟩
      · obtain ⟨x, k1, k2⟩ := List.mem_flatMap.1 (seen_known h1)
        exact List.mem_flatMap.2 ⟨x, List.mem_cons_of_mem _ k1, k2⟩
    cases op with
    | reverted hs =>
      simp only [feeOps] at ht
      rw [seen_append, seen_rollback, List.nil_append] at ht
      obtain ⟨x, k1, k2⟩ := List.mem_flatMap.1 (seen_known ht)
      exact List.mem_flatMap.2 ⟨x, List.mem_cons_of_mem _ k1, k2⟩
    | _ => exact main ht

theorem feeRate_mono {k k' : List Transaction} (hk : ∀ t ∈ k, t ∈ k') {tx : Transaction} {vs : List Nat} {x : Nat}
    (f : Fees.FeeRate k tx vs x) : Fees.FeeRate k' tx vs x := by
  obtain ⟨h1, h2, h3⟩ := f
  refine ⟨h1, h2.imp ?_, h3⟩
  rintro i v ⟨p, hp, t, ht⟩
  exact ⟨p, hk p hp, t, ht⟩

/-- **C53** (as reported): the fees reported with a processed block are made of the rates of its transactions, whose inputs are
outputs of processed blocks. -/
theorem C53_reported {c : Bool} {h : Hist} {m m' : Mgr} {op : Op} (r : Run c h m) (le : op.Legal)
    (e : { m with out := [] }.step c op = .ok m') {b : Block} {n : Nat} {est : Estimate} (o : Out.processed b n (some est) ∈ m'.out)
    (sz : ∀ tx ∈ known ((op, m'.out) :: h), Fees.Sized tx) :
    ∃ rated : List (Transaction × Nat), (rated.map (·.1)).Sublist b.txs ∧
      (∀ x ∈ rated, ∃ vs, Fees.FeeRate (known ((op, m'.out) :: h)) x.1 vs x.2) ∧
      est.low ∈ rated.map (·.2) ∧ est.high ∈ rated.map (·.2) ∧ (∀ x ∈ rated, est.low ≤ x.2 ∧ x.2 ≤ est.high) ∧
      est.low ≤ est.median ∧ est.median ≤ est.high ∧ Fees.IsMedian (rated.map (·.2)) est.median := by
  have s := run_sync r
  obtain ⟨d, k, rfl⟩ := out_from r le e o
  rcases block_cases s e with ⟨h1, _⟩ | ⟨_, _, j, _, hs, _, _, P, _⟩
  · rw [h1] at o; cases o
  · obtain ⟨ops', f, f', h1, ⟨pre, rfl, post, h2⟩, h3⟩ := P.fees b n _ o _ s.est
    have sub : ∀ tx ∈ b.txs ++ Fees.seen (((pre.map fun p => Fees.Op.process p.2.txs p.1).reverse) ++ feeOps h),
        tx ∈ known ((Op.block d k, m'.out) :: h) := by
      intro tx htx
      rcases List.mem_append.1 htx with htx | htx
      · refine List.mem_flatMap.2 ⟨_, List.mem_cons_self, List.mem_flatMap.2 ⟨(n, b), ?_, htx⟩⟩
        rw [h2]; simp
      · rw [seen_append, List.mem_append, mem_seen_process] at htx
        rcases htx with ⟨p, k1, k2⟩ | htx
        · refine List.mem_flatMap.2 ⟨_, List.mem_cons_self, List.mem_flatMap.2 ⟨p, ?_, k2⟩⟩
          rw [h2]; simp [k1]
        · obtain ⟨x, k1, k2⟩ := List.mem_flatMap.1 (seen_known htx)
          exact List.mem_flatMap.2 ⟨x, List.mem_cons_of_mem _ k1, k2⟩
    obtain ⟨rated, a1, a2, a3⟩ := Fees.C53_estimate h1 h3 (fun tx htx => sz tx (sub tx htx))
    refine ⟨rated, a1, ?_, a3⟩
    intro x hx
    obtain ⟨vs, hv⟩ := a2 x hx
    exact ⟨vs, feeRate_mono sub hv⟩

theorem honest_anti {k k' : List Transaction} (hk : ∀ t ∈ k, t ∈ k') {tx : Transaction} (f : Fees.Honest k' tx) : Fees.Honest k tx := by
  obtain ⟨h1, h2, h3⟩ := f
  have mono : ∀ {is : List OutPoint} {vs : List Nat}, List.Forall₂ (fun i v => ∃ p ∈ k, ∃ t, Fees.Creates p i t ∧ t.value = v) is vs →
      List.Forall₂ (fun i v => ∃ p ∈ k', ∃ t, Fees.Creates p i t ∧ t.value = v) is vs := by
    intro is vs hv
    refine hv.imp ?_
    rintro i v ⟨p, hp, t, ht⟩
    exact ⟨p, hk p hp, t, ht⟩
  exact ⟨h1, fun is vs a b => h2 is vs a (mono b), fun vs b => h3 vs (mono b)⟩

theorem confirm_rest (hash height : Nat) : ∀ (txs : List Transaction) (m : Mgr),
    (txs.foldl (Mgr.confirmTx hash height) m).est = m.est ∧ (txs.foldl (Mgr.confirmTx hash height) m).received = m.received ∧
    ((∀ n l, m.confirmed.get n = some l → l ≠ []) → ∀ n l, (txs.foldl (Mgr.confirmTx hash height) m).confirmed.get n = some l → l ≠ [])
  | [], _ => ⟨rfl, rfl, id⟩
  | tx :: txs, m => by
    rw [List.foldl_cons]
    obtain ⟨h1, h2, h3⟩ := confirm_rest hash height txs (Mgr.confirmTx hash height m tx)
    rw [h1, h2]
    have k : (Mgr.confirmTx hash height m tx).est = m.est ∧ (Mgr.confirmTx hash height m tx).received = m.received ∧
        ((∀ n l, m.confirmed.get n = some l → l ≠ []) → ∀ n l, (Mgr.confirmTx hash height m tx).confirmed.get n = some l → l ≠ []) := by
      unfold Mgr.confirmTx
      split
      · exact ⟨rfl, rfl, id⟩
      · refine ⟨rfl, rfl, ?_⟩
        intro hm n l hl
        simp only [Mgr.emit, AMap.get_insert] at hl
        split at hl
        · cases hl; simp
        · exact hm n l hl
    exact ⟨k.1, k.2.1, fun hm => h3 (k.2.2 hm)⟩

theorem processAll_nonempty {c : Bool} : ∀ {hs : List Nat} {m m' : Mgr}, Mgr.processAll c hs m = .ok m' →
    (∀ n l, m.confirmed.get n = some l → l ≠ []) → ∀ n l, m'.confirmed.get n = some l → l ≠ [] := by
  intro hs
  induction hs with
  | nil => intro m m' e; cases e; exact id
  | cons j hs ih =>
    intro m m' e hm
    unfold Mgr.processAll at e
    cases hg : m.received.get j with
    | none => simp only [hg] at e; exact ih e hm
    | some b =>
      simp only [hg] at e
      obtain ⟨m1, h1, e⟩ := Res.bind_eq_ok.1 e
      refine ih e ?_
      unfold Mgr.processBlock at h1
      obtain ⟨⟨est, fees⟩, h2, h1⟩ := Res.bind_eq_ok.1 h1
      simp only [Res.ok.injEq] at h1
      subst h1
      exact (confirm_rest b.hash j b.txs _).2.2 hm

theorem run_nonempty {c : Bool} {h : Hist} {m : Mgr} (r : Run c h m) : ∀ n l, m.confirmed.get n = some l → l ≠ [] := by
  induction r with
  | start => intro n l h; cases h
  | step r l e ih =>
    rename_i h m m' op
    have s := run_sync r
    cases op with
    | negotiated a n r w => cases e; exact ih
    | disconnected a => cases e; exact ih
    | announce t => cases e; exact ih
    | getBlock x =>
      cases e
      have : (Mgr.getBlock { m with out := [] } x).confirmed = m.confirmed := by
        simp only [Mgr.getBlock]
        split <;> rfl
      rw [this]
      exact ih
    | getdata a is =>
      cases e
      obtain ⟨l, G⟩ := getdata_ok a is (s.good.congr rfl rfl rfl rfl rfl : Good { m with out := [] })
      rw [G.rest]
      exact ih
    | reverted hs =>
      obtain ⟨ts, _, _, h1, _⟩ := reverted_ok e
      intro n l hl
      rw [h1] at hl
      split at hl
      · cases hl
      · exact ih n l hl
    | timer env now height =>
      obtain ⟨s', T⟩ := sync_timer s l e
      intro n l hl
      have h1 := AMap.mem_of_get hl
      rw [T.confirmed] at h1
      exact ih n l (AMap.get_of_mem s.good.confirmed (List.mem_filter.1 h1).1)
    | block b k =>
      change Mgr.block c _ b k = _ at e
      unfold Mgr.block at e
      simp only at e
      split at e
      · split at e
        · cases e; exact ih
        · split at e
          · exact processAll_nonempty e ih
          · cases e; exact ih
      · cases e; exact ih

/-- What is needed for an operation not to panic. -/
def Op.Safe (c : Bool) (h : Hist) : Op → Prop
  | .reverted hs => c = true → 0 ∉ hs
  | .timer _ _ height => c = true → ∀ n t, ConfirmedAt n t h → n ≤ height
  | .block b _ => ∃ K : List Transaction, (∀ tx ∈ K, tx.outputs.length ≤ 2 ^ 32 ∧ Fees.Honest K tx) ∧ (∀ tx ∈ known h, tx ∈ K) ∧
      (∀ tx ∈ b.txs, tx ∈ K) ∧ ∀ n d, Waiting n d h → ∀ tx ∈ d.txs, tx ∈ K
  | _ => True

theorem processAll_total {c : Bool} {K : List Transaction} (hK : ∀ tx ∈ K, tx.outputs.length ≤ 2 ^ 32 ∧ Fees.Honest K tx) :
    ∀ (hs : List Nat) (m : Mgr) (ops : List Fees.Op), Fees.Run c ops m.est → (∀ tx ∈ Fees.seen ops, tx ∈ K) →
      (∀ n b, m.received.get n = some b → ∀ tx ∈ b.txs, tx ∈ K) → ∃ m', Mgr.processAll c hs m = .ok m' := by
  intro hs
  induction hs with
  | nil => intro m _ _ _ _; exact ⟨m, rfl⟩
  | cons j hs ih =>
    intro m ops hr hseen hrec
    rw [Mgr.processAll]
    cases hg : m.received.get j with
    | none => exact ih m ops hr hseen hrec
    | some b =>
      simp only
      obtain ⟨k1, k2, _⟩ := confirm_rest b.hash j b.txs { m with received := m.received.erase j }
      have hb := hrec j b hg
      have sub : ∀ tx ∈ b.txs ++ Fees.seen ops, tx ∈ K := by
        intro tx htx
        rcases List.mem_append.1 htx with h | h
        · exact hb tx h
        · exact hseen tx h
      obtain ⟨est', fees, he⟩ := Fees.C74_no_panic_partial hr b.txs j (fun tx h => (hK tx (sub tx h)).1)
        (fun tx h => honest_anti sub (hK tx (hb tx h)).2)
      have hp : ∃ m1, Mgr.processBlock c { m with received := m.received.erase j } j b = .ok m1 ∧ m1.est = est' ∧
          m1.received = m.received.erase j := by
        unfold Mgr.processBlock
        simp only [k1, he, Res.ok_bind]
        exact ⟨_, rfl, rfl, k2⟩
      obtain ⟨m1, hp1, hp2, hp3⟩ := hp
      rw [hp1, Res.ok_bind]
      refine ih m1 (.process b.txs j :: ops) (by rw [hp2]; exact .process hr he) ?_ ?_
      · intro tx htx
        exact sub tx htx
      · intro n d hd
        rw [hp3, AMap.get_erase] at hd
        split at hd
        · cases hd
        · exact hrec n d hd

theorem reverted_total {c : Bool} : ∀ (hs : List Nat) (m : Mgr), (c = true → 0 ∉ hs) → ∃ m', Mgr.reverted c hs m = .ok m' := by
  intro hs
  induction hs with
  | nil => intro m _; exact ⟨m, rfl⟩
  | cons n hs ih =>
    intro m h0
    have : ∃ m1, m.blockReverted c n = .ok m1 := by
      have ht : ∃ x, revertTarget c n = .ok x := by
        unfold revertTarget
        split
        · exact ⟨_, rfl⟩
        · rename_i hn
          cases c
          · exact ⟨_, rfl⟩
          · exact absurd (h0 rfl) (by simp; omega)
      obtain ⟨x, hx⟩ := ht
      obtain ⟨est, he⟩ := Fees.C54_rollback_total m.est x
      unfold Mgr.blockReverted
      simp only [hx, he, Res.ok_bind]
      split
      · exact ⟨_, rfl⟩
      · exact ⟨_, rfl⟩
    obtain ⟨m1, h1⟩ := this
    obtain ⟨m2, h2⟩ := ih m1 (fun hc => fun hm => h0 hc (List.mem_cons_of_mem _ hm))
    exact ⟨m2, by rw [Mgr.reverted, h1, Res.ok_bind, h2]⟩

/-- **C74** (part): the inventory manager never panics, provided the amounts in the blocks received make sense, and, in debug builds, the genesis
block is not reverted and no block was processed at a height above the tip.

Missing: blocks whose amounts make no sense, which nothing prevents (`Fees.Scenario.C74_forged_block`, `Scenario.C74_forged_block`), and
blocks processed above the tip, which happens when a block arrives before a reorganisation to a shorter chain and is processed after it
(`Scenario.C74_timer_panics`). -/
theorem C74_inventory_partial {c : Bool} {h : Hist} {m : Mgr} {op : Op} (r : Run c h m) (le : op.Legal) (safe : op.Safe c h) :
    ∃ m', { m with out := [] }.step c op = .ok m' := by
  have s := run_sync r
  cases op with
  | negotiated a n r w => exact ⟨_, rfl⟩
  | disconnected a => exact ⟨_, rfl⟩
  | announce t => exact ⟨_, rfl⟩
  | getBlock x => exact ⟨_, rfl⟩
  | getdata a is => exact ⟨_, rfl⟩
  | reverted hs => exact reverted_total hs _ safe
  | timer env now height =>
    obtain ⟨m', h1, _⟩ := timerExpired_ok (c := c) le (now := now) (height := height)
      (s.good.congr rfl rfl rfl rfl rfl : Good { m with out := [] }) (by
      cases hc : c with
      | false => rfl
      | true =>
        rw [Bool.true_and, List.any_eq_false]
        rintro ⟨n, l⟩ hm
        have hg := AMap.get_of_mem s.good.confirmed hm
        have hl := run_nonempty r n l hg
        cases l with
        | nil => exact absurd rfl hl
        | cons t l =>
          have := safe hc n t ((s.conf n t).1 (by rw [hg]; simp))
          simpa using this)
    exact ⟨m', h1⟩
  | block b k =>
    obtain ⟨K, h1, h2, h3, h4⟩ := safe
    change ∃ m', Mgr.block c _ b k = .ok m'
    unfold Mgr.block
    simp only
    split
    · split
      · exact ⟨_, rfl⟩
      · rename_i n
        split
        · refine processAll_total h1 _ _ (feeOps h) s.est (fun tx htx => h2 tx (seen_known htx)) ?_
          intro j d hd
          simp only [AMap.get_insert] at hd
          split at hd
          · cases hd; exact h3
          · exact h4 j d ((s.received j d).1 hd)
        · exact ⟨_, rfl⟩
    · exact ⟨_, rfl⟩

/-! ## C77: what is left waiting -/

/-- **C77** (part): when the last requested block arrives and is on the active chain, all blocks waiting are processed, and nothing waits afterwards.

Missing: when the last requested block is not on the active chain, the others wait until another block is requested and received
(`C77_waits`, `Scenario.C77_stuck`); a waiting block is processed although it was reverted (`Scenario.C77_stale`). -/
theorem C77_processed_partial {c : Bool} {h : Hist} {m m' : Mgr} {d : Block} {k : Nat} (r : Run c h m)
    (e : { m with out := [] }.step c (.block d (some k)) = .ok m') (ho : Outstanding d.hash h) (hl : ∀ x, Outstanding x h → x = d.hash) :
    (∃ f, Out.processed d k f ∈ m'.out) ∧ (∀ n b, n ≠ k → Waiting n b h → ∃ f, Out.processed b n f ∈ m'.out) ∧
    ∀ n b, ¬ Waiting n b ((.block d (some k), m'.out) :: h) := by
  have key := fun n b => (C48_processed (op := .block d (some k)) r trivial e n b).2
  obtain ⟨f, hf⟩ := key k d ⟨d, k, rfl, ho, hl, .inl ⟨rfl, rfl⟩⟩
  exact ⟨⟨f, hf⟩, fun n b hn hw => key n b ⟨d, k, rfl, ho, hl, .inr ⟨hn, hw⟩⟩, (C48_complete (op := .block d (some k)) r trivial e hf).2⟩


/-- Blocks that are waiting while none is requested stay unprocessed until another block is requested. -/
theorem C77_waits {c : Bool} {h1 : Hist} : ∀ {h2 : Hist} {m : Mgr}, Run c (h2 ++ h1) m → (∀ x, ¬ Outstanding x h1) →
    (∀ x ∈ h2, ∀ y, x.1 ≠ .getBlock y) → (∀ x ∈ h2, processed x.2 = []) ∧ ∀ x, ¬ Outstanding x (h2 ++ h1)
  | [], _, _, h, _ => ⟨by simp, h⟩
  | (op, outs) :: h2, m, r, h, hn => by
    cases r with
    | step r le e =>
      rename_i m0
      obtain ⟨k1, k2⟩ := C77_waits (h2 := h2) r h (fun x hx => hn x (List.mem_cons_of_mem _ hx))
      have k3 : processed m.out = [] := by
        rw [List.eq_nil_iff_forall_not_mem]
        rintro ⟨n, b⟩ hm
        obtain ⟨d, j, _, k4, _⟩ := (C48_processed r le e n b).1 (mem_processed.1 hm)
        exact k2 _ k4
      refine ⟨?_, ?_⟩
      · intro x hx
        rcases List.mem_cons.1 hx with rfl | hx
        · exact k3
        · exact k1 x hx
      · intro x hx
        cases op with
        | getBlock y => exact hn _ List.mem_cons_self y rfl
        | block d j => exact k2 x hx.2
        | _ => exact k2 x hx

/-! ## C76: peers that do not relay transactions -/

/-- **C76** (part): nothing submitted after a peer connected that does not want transactions is announced to it.

Missing: transactions pending when the peer connects are announced to it all the same (`Scenario.C76_unwanted`). -/
theorem C76_relay_partial {a w : Nat} : ∀ {h : Hist} {f : Features}, connected a h = some f → f.relay = false → Queued a w h →
    ∃ h1 h2 n x outs, h = h2 ++ (Op.negotiated a n false x, outs) :: h1 ∧ pending h1 w ≠ none
  | [], _, h, _, _ => by cases h
  | (op, outs) :: h, f, hc, hr, hq => by
    have prev : connected a h = some f → Queued a w h →
        ∃ h1 h2 n x outs', (op, outs) :: h = h2 ++ (Op.negotiated a n false x, outs') :: h1 ∧ pending h1 w ≠ none := by
      intro k1 k2
      obtain ⟨h1, h2, n, x, o, k3, k4⟩ := C76_relay_partial k1 hr k2
      exact ⟨h1, (op, outs) :: h2, n, x, o, by rw [k3]; rfl, k4⟩
    cases op with
    | negotiated b n r x =>
      simp only [connected] at hc
      simp only [Queued] at hq
      by_cases hb : b = a
      · subst hb
        rw [if_pos rfl] at hc hq
        cases hc
        cases hr
        exact ⟨h, [], n, x, outs, rfl, hq⟩
      · rw [if_neg hb] at hc hq
        exact prev hc hq
    | disconnected b =>
      simp only [connected] at hc
      split at hc
      · cases hc
      · exact prev hc hq.2
    | timer env now height =>
      simp only [connected] at hc
      split at hc
      · cases hc
      · exact prev hc hq.2
    | announce t =>
      rcases hq with hq | ⟨_, f', k1, k2⟩
      · exact prev hc hq
      · change connected a h = some f at hc
        rw [hc] at k1
        cases k1
        rw [hr] at k2
        cases k2
    | reverted hs =>
      rcases hq with hq | ⟨_, f', k1, k2⟩
      · exact prev hc hq
      · change connected a h = some f at hc
        rw [hc] at k1
        cases k1
        rw [hr] at k2
        cases k2
    | getdata b is => exact prev hc hq.1
    | block b k => exact prev hc hq.1
    | getBlock x => exact prev hc hq

end Verif.Inv
