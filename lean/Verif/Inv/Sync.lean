import Verif.Inv.Timer

/-!
# The inventory manager follows its history
-/

set_option autoImplicit false

namespace Verif.Inv
open Verif.Tx
open Verif.Fees (Estimator Estimate)

def Peer.features (p : Peer) : Features := ⟨p.network, p.relay, p.wtxidrelay⟩

/-- The state is what the history says. -/
structure Sync (c : Bool) (h : Hist) (m : Mgr) : Prop where
  good : Good m
  pool : m.pool.get = pending h
  poolSub : ∀ w t, m.pool.get w = some t → t ∈ submitted h
  outSub : ∀ a p w x, m.peers.get a = some p → p.outbox.get w = some x → ∃ t ∈ submitted h, t.wtxid = w ∧ t.txid = x
  conf : ∀ n t, t ∈ (m.confirmed.get n).getD [] ↔ ConfirmedAt n t h
  confSub : ∀ n t, ConfirmedAt n t h → t ∈ submitted h
  conn : ∀ a, connected a h = (m.peers.get a).map Peer.features
  queued : ∀ a w, Queued a w h ↔ ∃ p, m.peers.get a = some p ∧ p.outbox.contains w = true
  sent : ∀ a p, m.peers.get a = some p → p.attempts = (sent a h).length ∧ p.lastAttempt = (sent a h).head?
  spaced : ∀ a, (Inv.sent a h).length ≤ 3 ∧ Spaced 60000 (Inv.sent a h)
  rnone : ∀ x, m.remaining.get x = none → ¬ Outstanding x h ∧ asked x h = []
  rsome : ∀ x t, m.remaining.get x = some t → Outstanding x h ∧ t = (asked x h).head?
  aspaced : ∀ x, Spaced 15000 (asked x h)
  received : ∀ n b, m.received.get n = some b ↔ Waiting n b h
  est : Fees.Run c (feeOps h) m.est

theorem Sync.outstanding {c : Bool} {h : Hist} {m : Mgr} (s : Sync c h m) (x : Nat) : m.remaining.contains x = true ↔ Outstanding x h := by
  cases hg : m.remaining.get x with
  | none => simp [AMap.contains, hg, (s.rnone x hg).1]
  | some t => simp [AMap.contains, hg, (s.rsome x t hg).1]

theorem sync_new (c : Bool) : Sync c [] Mgr.new := by
  refine ⟨good_new, rfl, ?_, ?_, ?_, ?_, ?_, ?_, ?_, ?_, ?_, ?_, ?_, ?_, .start⟩ <;>
    simp [Mgr.new, ConfirmedAt, connected, Queued, Inv.sent, Spaced, Outstanding, asked, Waiting]

theorem outbox_contains {p : Peer} {w : Nat} : p.outbox.contains w = true ↔ p.outbox.get w ≠ none := by
  simp only [AMap.contains, Option.isSome_iff_ne_none]

theorem sync_negotiated {c : Bool} {h : Hist} {m : Mgr} (s : Sync c h m) (a : Nat) (n r w : Bool) :
    let m' := { m with out := [] }.negotiated a n r w
    Sync c ((.negotiated a n r w, m'.out) :: h) m' := by
  intro m'
  have ob : ∀ v, (m.pool.foldl (fun (o : AMap Nat Nat) p => o.insert p.1 p.2.txid) []).get v = (m.pool.get v).map (·.txid) := by
    intro v
    rw [get_foldl_insert _ _ _ (sorted_keys s.good.pool)]
    cases m.pool.get v <;> simp
  have gp : ∀ b, m'.peers.get b = if a = b then
      some ⟨r, n, w, m.pool.foldl (fun (o : AMap Nat Nat) p => o.insert p.1 p.2.txid) [], 0, none⟩ else m.peers.get b := by
    intro b
    exact AMap.get_insert _ _ _ _
  refine ⟨⟨AMap.nodup_insert s.good.peers _ _, ?_, ?_, s.good.pool, s.good.keys, s.good.remaining, s.good.received, s.good.confirmed⟩,
    ?_, s.poolSub, ?_, s.conf, s.confSub, ?_, ?_, ?_, ?_, s.rnone, s.rsome, s.aspaced, ?_, ?_⟩
  · intro b p hb
    rw [gp] at hb
    split at hb
    · cases hb
      exact nodup_foldl_insert _ _ (by simp [AMap.keys])
    · exact s.good.outbox b p hb
  · intro b p v hb hc
    rw [gp] at hb
    split at hb
    · cases hb
      rw [AMap.contains, ob] at hc
      have : m'.pool = m.pool := rfl
      rw [this]
      simpa [AMap.contains] using hc
    · exact s.good.sub b p v hb hc
  · exact s.pool
  · intro b p v x hb hx
    rw [gp] at hb
    split at hb
    · cases hb
      rw [ob] at hx
      obtain ⟨t, h1, h2⟩ := Option.map_eq_some_iff.1 hx
      exact ⟨t, s.poolSub v t h1, s.good.keys v t h1, h2⟩
    · exact s.outSub b p v x hb hx
  · intro b
    rw [gp]
    simp only [connected]
    split
    · rfl
    · exact s.conn b
  · intro b v
    rw [Queued]
    simp only [gp]
    split
    · rw [← s.pool]
      simp only [Option.some.injEq, exists_eq_left', AMap.contains, ob]
      cases m.pool.get v <;> simp
    · exact s.queued b v
  · intro b p hb
    rw [gp] at hb
    simp only [Inv.sent]
    split at hb
    · rename_i he
      cases hb
      rw [if_pos he]
      exact ⟨rfl, rfl⟩
    · rename_i he
      rw [if_neg he]
      exact s.sent b p hb
  · intro b
    simp only [Inv.sent]
    split
    · exact ⟨by simp, trivial⟩
    · exact s.spaced b
  · intro k b
    exact (s.received k b).trans (by simp [Waiting, m', Mgr.negotiated, Mgr.scheduleTick, processed])
  · exact s.est

theorem sync_disconnected {c : Bool} {h : Hist} {m : Mgr} (s : Sync c h m) (a : Nat) :
    Sync c ((.disconnected a, []) :: h) { m with peers := m.peers.erase a, out := [] } := by
  have gp : ∀ b, ({ m with peers := m.peers.erase a, out := [] } : Mgr).peers.get b = if a = b then none else m.peers.get b :=
    fun b => AMap.get_erase _ _ _
  refine ⟨⟨AMap.nodup_erase s.good.peers _, ?_, ?_, s.good.pool, s.good.keys, s.good.remaining, s.good.received, s.good.confirmed⟩,
    s.pool, s.poolSub, ?_, s.conf, s.confSub, ?_, ?_, ?_, s.spaced, s.rnone, s.rsome, s.aspaced, ?_, s.est⟩
  · intro b p hb
    rw [gp] at hb
    split at hb
    · cases hb
    · exact s.good.outbox b p hb
  · intro b p v hb hc
    rw [gp] at hb
    split at hb
    · cases hb
    · exact s.good.sub b p v hb hc
  · intro b p v x hb hx
    rw [gp] at hb
    split at hb
    · cases hb
    · exact s.outSub b p v x hb hx
  · intro b
    rw [gp]
    simp only [connected]
    split
    · rfl
    · exact s.conn b
  · intro b v
    rw [Queued, s.queued]
    simp only [gp]
    by_cases hb : a = b
    · simp [hb]
    · simp [hb]
  · intro b p hb
    rw [gp] at hb
    simp only [Inv.sent]
    split at hb
    · cases hb
    · exact s.sent b p hb
  · intro k b
    exact (s.received k b).trans (by simp [Waiting, processed])

theorem sync_announce {c : Bool} {h : Hist} {m : Mgr} (s : Sync c h m) (t : Transaction) :
    let m' := { m with out := [] }.announce t
    Sync c ((.announce t, m'.out) :: h) m' := by
  intro m'
  have ho : m'.out = [.timer 1000] := rfl
  have gp : ∀ b, m'.peers.get b = (m.peers.get b).map
      (fun p => if p.relay then { p with outbox := p.outbox.insert t.wtxid t.txid } else p) := by
    intro b
    simp only [m', Mgr.announce, Mgr.scheduleTick]
    exact get_mapPeers _ _ _
  have gpool : ∀ w, m'.pool.get w = if t.wtxid = w then some t else m.pool.get w := fun w => get_poolInsert _ _ _ _
  have g0 : Good { m with out := [] } := s.good.congr rfl rfl rfl rfl rfl
  refine ⟨good_announce g0 t, ?_, ?_, ?_, s.conf, ?_, ?_, ?_, ?_, s.spaced, s.rnone, s.rsome, s.aspaced, ?_,
    ?_⟩
  · funext w
    rw [gpool, ho]
    simp only [pending, List.foldl_cons, List.foldl_nil, settle, ← s.pool]
    by_cases hw : w = t.wtxid
    · simp [hw]
    · rw [if_neg hw, if_neg (Ne.symm hw)]
  · intro w x hx
    rw [gpool] at hx
    split at hx
    · cases hx; exact List.mem_cons_self
    · exact List.mem_cons_of_mem _ (s.poolSub w x hx)
  · intro b p v x hb hx
    rw [gp] at hb
    obtain ⟨q, hq, rfl⟩ := Option.map_eq_some_iff.1 hb
    have old : q.outbox.get v = some x → ∃ t' ∈ submitted ((.announce t, m'.out) :: h), t'.wtxid = v ∧ t'.txid = x := by
      intro k
      obtain ⟨t', h1, h2⟩ := s.outSub b q v x hq k
      exact ⟨t', List.mem_cons_of_mem _ h1, h2⟩
    split at hx
    · simp only [AMap.get_insert] at hx
      split at hx
      · rename_i hv
        cases hx
        exact ⟨t, List.mem_cons_self, hv, rfl⟩
      · exact old hx
    · exact old hx
  · intro n x hx
    exact List.mem_cons_of_mem _ (s.confSub n x hx)
  · intro b
    rw [gp]
    simp only [connected]
    rw [s.conn, Option.map_map]
    congr 1
    funext p
    simp only [Function.comp_apply]
    split <;> rfl
  · intro b v
    rw [Queued, s.queued, s.conn]
    simp only [gp, Option.map_eq_some_iff]
    constructor
    · rintro (⟨p, h1, h2⟩ | ⟨rfl, f, ⟨p, h1, rfl⟩, h2⟩)
      · refine ⟨_, ⟨p, h1, rfl⟩, ?_⟩
        split
        · simp only [AMap.contains, AMap.get_insert]
          split
          · rfl
          · exact h2
        · exact h2
      · refine ⟨_, ⟨p, h1, rfl⟩, ?_⟩
        have : p.relay = true := h2
        simp [this, AMap.contains]
    · rintro ⟨p', ⟨p, h1, rfl⟩, h2⟩
      cases hr : p.relay with
      | true =>
        simp only [hr, if_true, AMap.contains, AMap.get_insert] at h2
        split at h2
        · rename_i hv
          exact .inr ⟨hv, _, ⟨p, h1, rfl⟩, hr⟩
        · exact .inl ⟨p, h1, h2⟩
      | false =>
        simp only [hr] at h2
        exact .inl ⟨p, h1, h2⟩
  · intro b p hb
    rw [gp] at hb
    obtain ⟨q, hq, rfl⟩ := Option.map_eq_some_iff.1 hb
    have := s.sent b q hq
    simp only [Inv.sent]
    split <;> exact this
  · intro k b
    exact (s.received k b).trans (by simp [Waiting, ho, processed])
  · exact s.est

theorem sync_getBlock {c : Bool} {h : Hist} {m : Mgr} (s : Sync c h m) (x : Nat) :
    let m' := { m with out := [] }.getBlock x
    Sync c ((.getBlock x, m'.out) :: h) m' := by
  intro m'
  have ho : m'.out = [.timer 1000] := by
    simp only [m', Mgr.getBlock]
    split <;> rfl
  have rest : m' = { m with remaining := m'.remaining, lastTick := none, out := [.timer 1000] } := by
    simp only [m', Mgr.getBlock]
    split <;> rfl
  have gr : ∀ y, m'.remaining.get y = if y = x ∧ m.remaining.get y = none then some none else m.remaining.get y := by
    intro y
    simp only [m', Mgr.getBlock]
    split
    · rename_i hc
      simp only [Mgr.scheduleTick]
      rw [if_neg]
      rintro ⟨rfl, hn⟩
      simp [AMap.contains, hn] at hc
    · rename_i hc
      simp only [Mgr.scheduleTick, AMap.get_insert]
      have hn : m.remaining.get x = none := by
        simpa [AMap.contains] using hc
      by_cases hy : x = y
      · subst hy; simp [hn]
      · rw [if_neg hy, if_neg (fun h => hy h.1.symm)]
  have hn : m'.remaining.keys.Nodup := by
    simp only [m', Mgr.getBlock]
    split
    · exact s.good.remaining
    · exact AMap.nodup_insert s.good.remaining _ _
  have e1 : m'.peers = m.peers := by rw [rest]
  have e2 : m'.pool = m.pool := by rw [rest]
  have e3 : m'.received = m.received := by rw [rest]
  have e4 : m'.confirmed = m.confirmed := by rw [rest]
  have e5 : m'.est = m.est := by rw [rest]
  refine ⟨⟨e1 ▸ s.good.peers, e1 ▸ s.good.outbox, e1 ▸ e2 ▸ s.good.sub, e2 ▸ s.good.pool, e2 ▸ s.good.keys, hn, e3 ▸ s.good.received, e4 ▸ s.good.confirmed⟩,
    ?_, ?_, ?_, ?_, s.confSub, ?_, ?_, ?_, s.spaced, ?_, ?_, ?_, ?_, ?_⟩
  · rw [e2, ho, s.pool]; rfl
  · rw [e2]; exact s.poolSub
  · rw [e1]; exact s.outSub
  · rw [e4]; exact s.conf
  · rw [e1]; exact s.conn
  · rw [e1]; exact s.queued
  · rw [e1]; exact s.sent
  · intro y hy
    rw [gr] at hy
    split at hy
    · cases hy
    · rename_i hc
      have := s.rnone y hy
      refine ⟨?_, this.2⟩
      rw [Outstanding]
      rintro (rfl | h)
      · exact hc ⟨rfl, hy⟩
      · exact this.1 h
  · intro y t hy
    rw [gr] at hy
    rw [Outstanding]
    split at hy
    · rename_i hc
      cases hy
      have := s.rnone y hc.2
      refine ⟨.inl hc.1.symm, ?_⟩
      rw [show asked y ((Op.getBlock x, m'.out) :: h) = asked y h from rfl, this.2]
      rfl
    · exact ⟨.inr (s.rsome y t hy).1, (s.rsome y t hy).2⟩
  · exact s.aspaced
  · intro k b
    rw [e3, ho]
    exact (s.received k b).trans (by simp [Waiting, processed])
  · rw [e5, ho]; exact s.est

theorem processed_nil {l : List Out} (h : ∀ o ∈ l, ∀ b n f, o ≠ .processed b n f) : processed l = [] := by
  unfold processed
  rw [List.filterMap_eq_nil_iff]
  intro o ho
  cases o <;> first | rfl | exact absurd rfl (h _ ho _ _ _)

theorem settle_keep {l : List Out} (h1 : ∀ o ∈ l, ∀ b n f, o ≠ .processed b n f) (h2 : ∀ o ∈ l, ∀ t, o ≠ .reverted t)
    (f : Nat → Option Transaction) : l.foldl settle f = f := by
  induction l generalizing f with
  | nil => rfl
  | cons o l ih =>
    have e : settle f o = f := by
      cases o <;> first | rfl | exact absurd rfl (h1 _ List.mem_cons_self _ _ _) | exact absurd rfl (h2 _ List.mem_cons_self _)
    rw [List.foldl_cons, e]
    exact ih (fun o h => h1 o (List.mem_cons_of_mem _ h)) (fun o h => h2 o (List.mem_cons_of_mem _ h)) f

theorem sync_reverted {c : Bool} {h : Hist} {m m' : Mgr} (s : Sync c h m) {hs : List Nat}
    (e : Mgr.reverted c hs { m with out := [] } = .ok m') : Sync c ((.reverted hs, m'.out) :: h) m' := by
  obtain ⟨ts, A, ht, hc, he⟩ := reverted_ok e
  have ho : m'.out = revertOuts ts := by rw [A.out]; rfl
  have ht' : ∀ t, t ∈ ts ↔ ∃ n ∈ hs, ConfirmedAt n t h := by
    intro t
    rw [ht]
    simp only [s.conf]
  have ne : ∀ o ∈ m'.out, ∀ b n f, o ≠ .processed b n f := by
    rw [ho]
    intro o h1 b n f h2
    rcases mem_revertOuts h1 with h3 | ⟨t, _, h3⟩ <;> rw [h3] at h2 <;> cases h2
  have hp := processed_nil ne
  have tsub : ∀ t ∈ ts, t ∈ submitted h := by
    intro t h1
    obtain ⟨n, _, h2⟩ := (ht' t).1 h1
    exact s.confSub n t h2
  refine ⟨A.good (s.good.congr rfl rfl rfl rfl rfl), ?_, ?_, ?_, ?_, ?_, ?_, ?_, ?_, s.spaced, ?_, ?_, s.aspaced, ?_, ?_⟩
  · rw [A.pool, ho]
    show (revertOuts ts).foldl settle m.pool.get = (revertOuts ts).foldl settle (pending h)
    rw [s.pool]
  · intro w t hw
    rw [A.pool] at hw
    show t ∈ submitted h
    have go : ∀ (ts : List Transaction) (f : Nat → Option Transaction), (∀ t ∈ ts, t ∈ submitted h) → (∀ w t, f w = some t → t ∈ submitted h) →
        ∀ w t, (revertOuts ts).foldl settle f w = some t → t ∈ submitted h := by
      intro ts
      induction ts with
      | nil => intro f _ hf; exact hf
      | cons t ts ih =>
        intro f h1 hf
        rw [revertOuts, List.foldl_cons, List.foldl_cons]
        refine ih _ (fun x hx => h1 x (List.mem_cons_of_mem _ hx)) ?_
        intro v x hx
        simp only [settle] at hx
        split at hx
        · cases hx; exact h1 _ List.mem_cons_self
        · exact hf v x hx
    exact go ts _ tsub s.poolSub w t hw
  · intro a p w x hp' hx
    cases hq : m.peers.get a with
    | none =>
      rw [A.peers_none a hq] at hp'
      cases hp'
    | some q =>
      obtain ⟨p1, h1, _, _, _, _, _, _, h2⟩ := A.peers_some a q hq
      rw [h1] at hp'
      cases hp'
      rcases h2 w x hx with h3 | ⟨t, h3, h4⟩
      · exact s.outSub a q w x hq h3
      · exact ⟨t, tsub t h3, h4⟩
  · intro n t
    rw [hc, ConfirmedAt, ← s.conf]
    split
    · rename_i hn
      simp [hn]
    · rename_i hn
      simp [hn]
  · intro n t hx
    rw [ConfirmedAt] at hx
    exact s.confSub n t hx.2
  · intro a
    simp only [connected]
    rw [s.conn]
    cases hq : m.peers.get a with
    | none => rw [A.peers_none a hq]
    | some q =>
      obtain ⟨p1, h1, h2, h3, h4, _⟩ := A.peers_some a q hq
      rw [h1]
      simp [Peer.features, h2, h3, h4]
  · intro a w
    rw [Queued, s.queued, s.conn, ho]
    simp only [reverted_mem_revertOuts]
    cases hq : m.peers.get a with
    | none =>
      rw [A.peers_none a hq]
      simp
    | some q =>
      obtain ⟨p1, h1, h2, h3, h4, _, _, h5, _⟩ := A.peers_some a q hq
      rw [h1]
      simp only [Option.some.injEq, exists_eq_left', h5, Option.map_some, Peer.features]
  · intro a p hp'
    cases hq : m.peers.get a with
    | none =>
      rw [A.peers_none a hq] at hp'
      cases hp'
    | some q =>
      obtain ⟨p1, h1, _, _, _, h2, h3, _⟩ := A.peers_some a q hq
      rw [h1] at hp'
      cases hp'
      rw [h2, h3]
      exact s.sent a q hq
  · rw [A.remaining]; exact s.rnone
  · rw [A.remaining]; exact s.rsome
  · intro k b
    rw [A.received]
    exact (s.received k b).trans (by simp [Waiting, hp])
  · rw [feeOps]
    exact he _ s.est

theorem sync_getdata {c : Bool} {h : Hist} {m : Mgr} (s : Sync c h m) (a : Nat) (is : List Item) :
    let m' := { m with out := [] }.getdata a is
    Sync c ((.getdata a is, m'.out) :: h) m' := by
  intro m'
  obtain ⟨l, G⟩ := getdata_ok a is (s.good.congr rfl rfl rfl rfl rfl : Good { m with out := [] })
  change Got _ m' a is l at G
  have ho : m'.out = l := by rw [G.rest]; rfl
  have e2 : m'.pool = m.pool := by rw [G.rest]
  have e3 : m'.received = m.received := by rw [G.rest]
  have e4 : m'.confirmed = m.confirmed := by rw [G.rest]
  have e5 : m'.est = m.est := by rw [G.rest]
  have e6 : m'.remaining = m.remaining := by rw [G.rest]
  have n1 : ∀ o ∈ m'.out, ∀ b n f, o ≠ .processed b n f := by
    rw [ho]
    intro o h1 b n f h2
    rcases G.only o h1 with ⟨_, h3⟩ | ⟨_, h3⟩ <;> rw [h3] at h2 <;> cases h2
  have n2 : ∀ o ∈ m'.out, ∀ t, o ≠ .reverted t := by
    rw [ho]
    intro o h1 t h2
    rcases G.only o h1 with ⟨_, h3⟩ | ⟨_, h3⟩ <;> rw [h3] at h2 <;> cases h2
  have hp := processed_nil n1
  have ack : ∀ b, l.any (Out.isAckBy b) = true ↔ b = a ∧ ∃ id, Out.acknowledged id a ∈ l := by
    intro b
    rw [List.any_eq_true]
    constructor
    · rintro ⟨o, h1, h2⟩
      rcases G.only o h1 with ⟨_, rfl⟩ | ⟨id, rfl⟩
      · cases h2
      · exact ⟨by simpa [Out.isAckBy, eq_comm] using h2, id, h1⟩
    · rintro ⟨rfl, id, h1⟩
      exact ⟨_, h1, by simp [Out.isAckBy]⟩
  have psome := G.psome
  refine ⟨G.good, ?_, ?_, ?_, ?_, s.confSub, ?_, ?_, ?_, ?_, ?_, ?_, s.aspaced, ?_, ?_⟩
  · rw [e2, s.pool]
    exact (settle_keep n1 n2 _).symm
  · rw [e2]; exact s.poolSub
  · intro b p w x hb hx
    by_cases hba : b = a
    · subst hba
      cases hq : m.peers.get b with
      | none => rw [(G.pnone hq).1] at hb; cases hb
      | some q =>
        obtain ⟨p1, h1, _, _, _, _, h2, _⟩ := psome q hq
        rw [h1] at hb
        cases hb
        exact s.outSub b q w x hq (h2 w x hx)
    · rw [G.other b hba] at hb
      exact s.outSub b p w x hb hx
  · rw [e4]; exact s.conf
  · intro b
    simp only [connected]
    rw [s.conn]
    by_cases hba : b = a
    · subst hba
      cases hq : m.peers.get b with
      | none => rw [(G.pnone hq).1]
      | some q =>
        obtain ⟨p1, h1, h2, h3, h4, _⟩ := psome q hq
        rw [h1]
        simp [Peer.features, h2, h3, h4]
    · rw [G.other b hba]
  · intro b w
    rw [Queued, s.queued, ← s.pool]
    by_cases hba : b = a
    · subst hba
      cases hq : m.peers.get b with
      | none => rw [(G.pnone hq).1]; simp
      | some q =>
        obtain ⟨p1, h1, _, _, _, h2, _⟩ := psome q hq
        rw [h1]
        simp only [Option.some.injEq, exists_eq_left', outbox_contains, true_and, Ne, h2, not_or]
    · rw [G.other b hba]
      simp [Ne.symm hba]
  · intro b p hb
    simp only [Inv.sent]
    rw [ho]
    by_cases hba : b = a
    · subst hba
      cases hq : m.peers.get b with
      | none => rw [(G.pnone hq).1] at hb; cases hb
      | some q =>
        obtain ⟨p1, h1, _, _, _, _, _, h2, h3, _⟩ := psome q hq
        rw [h1] at hb
        cases hb
        by_cases hk : ∃ id, Out.acknowledged id b ∈ l
        · rw [if_pos ((ack b).2 ⟨rfl, hk⟩)]
          exact h2 hk
        · rw [if_neg (fun k => hk ((ack b).1 k).2)]
          rw [(h3 hk).1, (h3 hk).2]
          exact s.sent b q hq
    · rw [G.other b hba] at hb
      rw [if_neg (fun k => hba ((ack b).1 k).1)]
      exact s.sent b p hb
  · intro b
    simp only [Inv.sent]
    split
    · exact ⟨by simp, trivial⟩
    · exact s.spaced b
  · rw [e6]; exact s.rnone
  · rw [e6]; exact s.rsome
  · intro k b
    rw [e3]
    exact (s.received k b).trans (by simp [Waiting, hp])
  · simp only [feeOps, hp]; rw [e5]; exact s.est

theorem spaced_cons {d now : Nat} {l : List Nat} (h : Spaced d l) (hd : l.head?.getD 0 + d ≤ now) : Spaced d (now :: l) := by
  cases l with
  | nil => trivial
  | cons t l => exact ⟨hd, h⟩

theorem sync_timer {c : Bool} {h : Hist} {m m' : Mgr} (s : Sync c h m) {env : Env} (le : env.Legal) {now height : Nat}
    (e : { m with out := [] }.timerExpired c env now height = .ok m') :
    Sync c ((.timer env now height, m'.out) :: h) m' ∧ Timed env now height { m with out := [] } m' := by
  have g0 : Good { m with out := [] } := s.good.congr rfl rfl rfl rfl rfl
  have hpr : (c && m.confirmed.any (fun p => height < p.1)) = false := by
    by_contra hc
    rw [Bool.not_eq_false] at hc
    unfold Mgr.timerExpired at e
    simp only at e
    have : prune c height m.confirmed = .panic := by
      rw [prune, if_pos hc]
    split at e <;> simp only [this, Res.panic_bind] at e <;> cases e
  obtain ⟨m1, e1, T⟩ := timerExpired_ok le (now := now) g0 hpr
  rw [e] at e1
  cases e1
  refine ⟨?_, T⟩
  have n1 : ∀ o ∈ m'.out, ∀ b n f, o ≠ .processed b n f := by
    intro o h1 b n f h2
    rcases T.only o h1 with h3 | ⟨_, _, _, h3⟩ | ⟨_, h3⟩ | ⟨_, h3⟩ | ⟨_, _, h3⟩
    · cases h3
    all_goals rw [h3] at h2; cases h2
  have n2 : ∀ o ∈ m'.out, ∀ t, o ≠ .reverted t := by
    intro o h1 t h2
    rcases T.only o h1 with h3 | ⟨_, _, _, h3⟩ | ⟨_, h3⟩ | ⟨_, h3⟩ | ⟨_, _, h3⟩
    · cases h3
    all_goals rw [h3] at h2; cases h2
  have hp := processed_nil n1
  have drop := fun a => T.drop a (by simp)
  have inv := fun a bw ids => T.inv a bw ids (by simp)
  have isInv : ∀ a, m'.out.any (Out.isInvTo a) = true ↔ ∃ p, m.peers.get a = some p ∧ p.Due now ∧ p.attempts < 3 := by
    intro a
    rw [List.any_eq_true]
    constructor
    · rintro ⟨o, h1, h2⟩
      cases o with
      | inv b bw ids =>
        have hb : b = a := by simpa [Out.isInvTo] using h2
        subst hb
        obtain ⟨p, h3, h4, h5, _⟩ := (inv b bw ids).1 h1
        exact ⟨p, h3, h4, h5⟩
      | _ => cases h2
    · rintro ⟨p, h1, h2, h3⟩
      have hw : ∀ w ∈ env.queue a p.outbox.keys, m.pool.contains w = true := fun w hw =>
        s.good.sub a p w h1 ((AMap.contains_iff _ _).2 ((le.queue a _).mem_iff.1 hw))
      obtain ⟨ids, _, i⟩ := lookupAll_total (bw := p.wtxidrelay) hw
      exact ⟨_, (inv a p.wtxidrelay ids).2 ⟨p, h1, h2, h3, rfl, i⟩, by simp [Out.isInvTo]⟩
  have isReq : ∀ x, m'.out.any (Out.isRequestOf x) = true ↔ ∃ t, m.remaining.get x = some t ∧ dueRequest now t ∧
      ∃ a p, m'.peers.get a = some p ∧ p.network = true := by
    intro x
    rw [List.any_eq_true]
    constructor
    · rintro ⟨o, h1, h2⟩
      cases o with
      | getBlock b y =>
        have hb : y = x := by simpa [Out.isRequestOf] using h2
        subst hb
        obtain ⟨h3, t, h4, h5⟩ := T.get b y (by simp) h1
        exact ⟨t, h4, h5, b, h3⟩
      | _ => cases h2
    · rintro ⟨t, h1, h2, h3⟩
      obtain ⟨a, h4⟩ := T.got x t h1 h2 h3
      exact ⟨_, h4, by simp [Out.isRequestOf]⟩
  refine ⟨T.good, ?_, ?_, ?_, ?_, ?_, ?_, ?_, ?_, ?_, ?_, ?_, ?_, ?_, ?_⟩
  · rw [T.pool, show ({ m with out := [] } : Mgr).pool = m.pool from rfl, s.pool]
    exact (settle_keep n1 n2 _).symm
  · rw [T.pool]; exact s.poolSub
  · intro a p w x hb hx
    cases hq : m.peers.get a with
    | none => rw [T.pnone a hq] at hb; cases hb
    | some q =>
      obtain ⟨h1, h2, h3⟩ := T.psome a q hq
      by_cases hd : q.Due now
      · by_cases hl : q.attempts < 3
        · rw [h2 hd hl] at hb
          cases hb
          exact s.outSub a q w x hq hx
        · rw [h1 hd (by omega)] at hb
          cases hb
      · rw [h3 hd] at hb
        cases hb
        exact s.outSub a _ w x hq hx
  · intro n t
    rw [T.confirmed, ConfirmedAt, ← s.conf]
    have : ∀ (l : AMap Nat (List Transaction)), AMap.get (l.filter (fun p => p.1 ≤ height && height - p.1 ≤ pruneDepth)) n =
        if n ≤ height ∧ height ≤ n + 12 then AMap.get l n else none := by
      intro l
      induction l with
      | nil => simp
      | cons p l ih =>
        rw [List.filter_cons]
        by_cases hk : p.1 = n
        · subst hk
          by_cases hc : p.1 ≤ height ∧ height ≤ p.1 + 12
          · have : (decide (p.1 ≤ height) && decide (height - p.1 ≤ pruneDepth)) = true := by
              rw [Bool.and_eq_true, decide_eq_true_eq, decide_eq_true_eq, pruneDepth]
              constructor <;> omega
            rw [if_pos this, if_pos hc, AMap.get_cons, AMap.get_cons, if_pos rfl, if_pos rfl]
          · have : ¬ (decide (p.1 ≤ height) && decide (height - p.1 ≤ pruneDepth)) = true := by
              rw [Bool.and_eq_true, decide_eq_true_eq, decide_eq_true_eq, pruneDepth]
              intro hk
              apply hc
              constructor <;> omega
            rw [if_neg this, ih, if_neg hc, if_neg hc]
        · split
          · rw [AMap.get_cons, if_neg hk, ih, AMap.get_cons, if_neg hk]
          · rw [ih, AMap.get_cons, if_neg hk]
    rw [this]
    split
    · rename_i hc; simp [hc]
    · rename_i hc
      simp only [Option.getD_none, List.not_mem_nil, false_iff]
      intro k; exact hc ⟨k.1, k.2.1⟩
  · intro n t hx
    rw [ConfirmedAt] at hx
    exact s.confSub n t hx.2.2
  · intro a
    simp only [connected]
    rw [s.conn]
    cases hq : m.peers.get a with
    | none => rw [T.pnone a hq]; simp
    | some q =>
      obtain ⟨h1, h2, h3⟩ := T.psome a q hq
      have hd' : Out.timedOut a ∈ m'.out ↔ q.Due now ∧ 3 ≤ q.attempts := by
        rw [drop]
        simp only [hq, Option.some.injEq, exists_eq_left']
      by_cases hd : q.Due now
      · by_cases hl : q.attempts < 3
        · rw [h2 hd hl, if_neg (fun k => by have := (hd'.1 k).2; omega)]; rfl
        · rw [h1 hd (by omega), if_pos (hd'.2 ⟨hd, by omega⟩)]; rfl
      · rw [h3 hd, if_neg (fun k => hd (hd'.1 k).1)]
  · intro a w
    rw [Queued, s.queued, drop]
    cases hq : m.peers.get a with
    | none => rw [T.pnone a hq]; simp
    | some q =>
      obtain ⟨h1, h2, h3⟩ := T.psome a q hq
      simp only [Option.some.injEq, exists_eq_left']
      by_cases hd : q.Due now
      · by_cases hl : q.attempts < 3
        · rw [h2 hd hl]
          simp only [hd, true_and, Option.some.injEq, exists_eq_left', Peer.attempted]
          constructor
          · exact fun k => k.2
          · exact fun k => ⟨by omega, k⟩
        · rw [h1 hd (by omega)]
          simp [hd]
          intro k; omega
      · rw [h3 hd]
        simp [hd]
  · intro a p hb
    simp only [Inv.sent]
    cases hq : m.peers.get a with
    | none => rw [T.pnone a hq] at hb; cases hb
    | some q =>
      obtain ⟨h1, h2, h3⟩ := T.psome a q hq
      have hs := s.sent a q hq
      by_cases hd : q.Due now
      · by_cases hl : q.attempts < 3
        · rw [h2 hd hl] at hb
          cases hb
          rw [if_pos ((isInv a).2 ⟨q, hq, hd, hl⟩)]
          exact ⟨by simp [Peer.attempted, hs.1], by simp [Peer.attempted]⟩
        · rw [h1 hd (by omega)] at hb
          cases hb
      · rw [h3 hd] at hb
        cases hb
        rw [if_neg]
        · exact hs
        · rw [isInv]
          rintro ⟨p', k1, k2, _⟩
          rw [hq] at k1
          cases k1
          exact hd k2
  · intro a
    simp only [Inv.sent]
    split
    · rename_i hi
      obtain ⟨p, k1, k2, k3⟩ := (isInv a).1 hi
      have hs := s.sent a p k1
      refine ⟨by rw [List.length_cons, ← hs.1]; omega, spaced_cons (s.spaced a).2 ?_⟩
      rw [← hs.2]
      exact k2.2
    · exact s.spaced a
  · intro x hx
    cases hq : m.remaining.get x with
    | none =>
      have := s.rnone x hq
      refine ⟨this.1, ?_⟩
      rw [asked, if_neg]
      · exact this.2
      · rw [isReq, hq]
        rintro ⟨t, k, _⟩; cases k
    | some t =>
      obtain ⟨h1, h2⟩ := T.rsome x t hq
      by_cases hd : dueRequest now t ∧ ∃ a p, m'.peers.get a = some p ∧ p.network = true
      · rw [h1 hd.1 hd.2] at hx; cases hx
      · rw [h2 hd] at hx; cases hx
  · intro x t' hx
    cases hq : m.remaining.get x with
    | none => rw [T.rnone x hq] at hx; cases hx
    | some t =>
      have := s.rsome x t hq
      refine ⟨this.1, ?_⟩
      obtain ⟨h1, h2⟩ := T.rsome x t hq
      rw [asked]
      by_cases hd : dueRequest now t ∧ ∃ a p, m'.peers.get a = some p ∧ p.network = true
      · rw [h1 hd.1 hd.2] at hx
        cases hx
        rw [if_pos ((isReq x).2 ⟨t, hq, hd⟩)]
        rfl
      · rw [h2 hd] at hx
        cases hx
        rw [if_neg]
        · exact this.2
        · rw [isReq, hq]
          rintro ⟨t2, k, k2⟩
          cases k
          exact hd k2
  · intro x
    rw [asked]
    split
    · rename_i hi
      obtain ⟨t, k1, k2, _⟩ := (isReq x).1 hi
      refine spaced_cons (s.aspaced x) ?_
      rw [← (s.rsome x t k1).2]
      exact k2
    · exact s.aspaced x
  · intro k b
    rw [T.received]
    exact (s.received k b).trans (by simp [Waiting, hp])
  · simp only [feeOps, hp]; rw [T.est]; exact s.est

/-- A block that only changes what is requested and what is waiting. -/
theorem sync_quiet {c : Bool} {h : Hist} {m m' : Mgr} (s : Sync c h m) {b : Block} {k : Option Nat} (rem : AMap Nat (Option Nat))
    (rec : AMap Nat Block) (he : m' = { m with remaining := rem, received := rec, out := [] }) (hrem : rem.keys.Nodup)
    (hrec : rec.keys.Nodup) (h1 : ∀ x, rem.get x = if b.hash = x then none else m.remaining.get x)
    (h2 : ∀ n d, rec.get n = some d ↔ Waiting n d ((Op.block b k, []) :: h)) :
    Sync c ((.block b k, m'.out) :: h) m' := by
  subst he
  have fw : ∀ w, firstWith w [] = none := fun w => rfl
  refine ⟨⟨s.good.peers, s.good.outbox, s.good.sub, s.good.pool, s.good.keys, hrem, hrec, s.good.confirmed⟩, s.pool, s.poolSub, s.outSub, ?_, ?_,
    s.conn, ?_, s.sent, s.spaced, ?_, ?_, ?_, h2, s.est⟩
  · intro n t
    rw [ConfirmedAt]
    simp only [fw]
    simpa using s.conf n t
  · intro n t hx
    rw [ConfirmedAt] at hx
    simp only [fw] at hx
    rcases hx with hx | ⟨⟨_, hx⟩, _⟩
    · exact s.confSub n t hx
    · cases hx
  · intro a w
    rw [Queued]
    simp only [fw, and_true]
    exact s.queued a w
  · intro x hx
    rw [h1] at hx
    rw [Outstanding, asked]
    split at hx
    · rename_i hb
      exact ⟨fun k => k.1 hb, if_pos hb⟩
    · rename_i hb
      rw [if_neg hb]
      exact ⟨fun k => (s.rnone x hx).1 k.2, (s.rnone x hx).2⟩
  · intro x t hx
    rw [h1] at hx
    rw [Outstanding, asked]
    split at hx
    · cases hx
    · rename_i hb
      rw [if_neg hb]
      exact ⟨⟨hb, (s.rsome x t hx).1⟩, (s.rsome x t hx).2⟩
  · intro x
    rw [asked]
    split
    · trivial
    · exact s.aspaced x

/-- A block does nothing, or is put aside, or makes all waiting blocks be processed. -/
theorem block_cases {c : Bool} {h : Hist} {m m' : Mgr} (s : Sync c h m) {b : Block} {k : Option Nat}
    (e : { m with out := [] }.block c b k = .ok m') :
    (m'.out = [] ∧ Sync c ((.block b k, m'.out) :: h) m' ∧
      ¬ (Outstanding b.hash h ∧ (∃ n, k = some n) ∧ ∀ x, Outstanding x h → x = b.hash)) ∨
    (Outstanding b.hash h ∧ (∀ x, Outstanding x h → x = b.hash) ∧ ∃ n, k = some n ∧ ∃ hs : List Nat, hs.Pairwise (· < ·) ∧
      (∀ j, j ∈ hs ↔ j ∈ (m.received.insert n b).keys) ∧
      let m1 : Mgr := { m with remaining := [], received := m.received.insert n b, out := [] }
      Proc c m1 m' m'.out ∧ processed m'.out = hs.filterMap (fun j => (m1.received.get j).map (j, ·)) ∧
      ∀ j, m'.received.get j = none) := by
  unfold Mgr.block at e
  simp only at e
  by_cases hr : m.remaining.contains b.hash = true
  · have hout : Outstanding b.hash h := (s.outstanding _).1 hr
    rw [if_pos hr] at e
    cases hk : k with
    | none =>
      simp only [hk] at e
      cases e
      refine .inl ⟨rfl, ?_, ?_⟩
      · refine sync_quiet s (m.remaining.erase b.hash) m.received rfl (AMap.nodup_erase s.good.remaining _) s.good.received
          (fun x => AMap.get_erase _ _ _) ?_
        intro n d
        rw [s.received]
        simp [Waiting, processed]
      · rintro ⟨_, ⟨n, hn⟩, _⟩; cases hn
    | some n =>
      simp only [hk] at e
      have hrec : (m.received.insert n b).keys.Nodup := AMap.nodup_insert s.good.received _ _
      by_cases hem : (m.remaining.erase b.hash).isEmpty = true
      · have hall : ∀ x, Outstanding x h → x = b.hash := by
          intro x hx
          by_contra hc
          have h1 := (AMap.contains_iff _ _).1 ((s.outstanding x).2 hx)
          have h2 := (AMap.mem_keys_erase m.remaining b.hash x).2 ⟨h1, hc⟩
          rw [List.isEmpty_iff.1 hem] at h2
          simp [AMap.keys] at h2
        rw [if_pos hem] at e
        rw [List.isEmpty_iff.1 hem] at e
        refine .inr ⟨hout, hall, n, rfl, (m.received.insert n b).keys.insertionSort (· ≤ ·), ?_, ?_, ?_⟩
        · have hs := List.pairwise_insertionSort (· ≤ ·) (m.received.insert n b).keys
          have hn : ((m.received.insert n b).keys.insertionSort (· ≤ ·)).Nodup := (List.perm_insertionSort _ _).nodup_iff.2 hrec
          exact (hs.and hn).imp (fun ⟨h1, h2⟩ => lt_of_le_of_ne h1 h2)
        · intro j
          exact (List.perm_insertionSort (· ≤ ·) _).mem_iff
        · have g1 : Good { m with remaining := [], received := m.received.insert n b, out := [] } :=
            ⟨s.good.peers, s.good.outbox, s.good.sub, s.good.pool, s.good.keys, by simp [AMap.keys], hrec, s.good.confirmed⟩
          obtain ⟨l, P, hp, hq⟩ := processAll_ok ((List.perm_insertionSort (· ≤ ·) _).nodup_iff.2 hrec) g1 e
          have ho : m'.out = l := by rw [P.out]; rfl
          rw [ho]
          refine ⟨P, hp, ?_⟩
          intro j
          rw [hq]
          split
          · rfl
          · rename_i hj
            rw [(List.perm_insertionSort (· ≤ ·) _).mem_iff] at hj
            exact (AMap.get_eq_none_iff _ _).2 hj
      · rw [if_neg hem] at e
        cases e
        refine .inl ⟨rfl, ?_, ?_⟩
        · refine sync_quiet s (m.remaining.erase b.hash) (m.received.insert n b) rfl (AMap.nodup_erase s.good.remaining _) hrec
            (fun x => AMap.get_erase _ _ _) ?_
          intro j d
          rw [Waiting]
          simp only [AMap.get_insert, ← s.received]
          by_cases hj : n = j
          · simp [hj, hout, processed, eq_comm]
          · simp [hj, processed]
        · rintro ⟨_, _, hall⟩
          apply hem
          rw [List.isEmpty_iff, List.eq_nil_iff_forall_not_mem]
          rintro ⟨x, t⟩ hx
          have h1 : x ∈ (m.remaining.erase b.hash).keys := List.mem_map.2 ⟨_, hx, rfl⟩
          obtain ⟨h2, h3⟩ := (AMap.mem_keys_erase _ _ _).1 h1
          exact h3 (hall x ((s.outstanding x).1 ((AMap.contains_iff _ _).2 h2)))
  · rw [if_neg hr] at e
    cases e
    have hout : ¬ Outstanding b.hash h := fun k => hr ((s.outstanding _).2 k)
    have hg : m.remaining.get b.hash = none := by simpa [AMap.contains] using hr
    refine .inl ⟨rfl, ?_, fun k => hout k.1⟩
    refine sync_quiet s m.remaining m.received rfl s.good.remaining s.good.received ?_ ?_
    · intro x
      split
      · rename_i hx; rw [← hx, hg]
      · rfl
    · intro n d
      rw [s.received]
      cases k <;> simp [Waiting, hout, processed]

theorem sync_block {c : Bool} {h : Hist} {m m' : Mgr} (s : Sync c h m) {b : Block} {k : Option Nat}
    (e : { m with out := [] }.block c b k = .ok m') : Sync c ((.block b k, m'.out) :: h) m' := by
  rcases block_cases s e with ⟨_, h1, _⟩ | ⟨hout, hall, n, rfl, hs, hsort, hmem, P, hp, hrec⟩
  · exact h1
  · have hne : processed m'.out ≠ [] := by
      rw [hp]
      intro hc
      rw [List.filterMap_eq_nil_iff] at hc
      have := hc n ((hmem n).2 ((AMap.mem_keys_insert _ _ _ _).2 (.inl rfl)))
      simp at this
    refine ⟨P.good, ?_, ?_, ?_, ?_, ?_, ?_, ?_, ?_, s.spaced, ?_, ?_, ?_, ?_, ?_⟩
    · rw [P.pool]
      show m'.out.foldl settle m.pool.get = m'.out.foldl settle (pending h)
      rw [s.pool]
    · intro w t hw
      rw [P.poolGet] at hw
      split at hw
      · cases hw
      · exact s.poolSub w t hw
    · intro a p w x hb hx
      cases hq : m.peers.get a with
      | none => rw [P.peers_none a hq] at hb; cases hb
      | some q =>
        obtain ⟨p1, h1, _, _, _, _, _, h2⟩ := P.peers_some a q hq
        rw [h1] at hb
        cases hb
        rw [h2] at hx
        split at hx
        · cases hx
        · exact s.outSub a q w x hq hx
    · intro j t
      rw [P.confirmed, ConfirmedAt, ← s.pool]
      exact or_congr (s.conf j t) Iff.rfl
    · intro j t hx
      rw [ConfirmedAt] at hx
      rcases hx with hx | ⟨_, hx⟩
      · exact s.confSub j t hx
      · rw [← s.pool] at hx
        exact s.poolSub _ t hx
    · intro a
      simp only [connected]
      rw [s.conn]
      cases hq : m.peers.get a with
      | none => rw [P.peers_none a hq]
      | some q =>
        obtain ⟨p1, h1, h2, h3, h4, _⟩ := P.peers_some a q hq
        rw [h1]
        simp [Peer.features, h2, h3, h4]
    · intro a w
      rw [Queued, s.queued]
      cases hq : m.peers.get a with
      | none => rw [P.peers_none a hq]; simp
      | some q =>
        obtain ⟨p1, h1, _, _, _, _, _, h2⟩ := P.peers_some a q hq
        rw [h1]
        simp only [Option.some.injEq, exists_eq_left', AMap.contains, h2]
        cases firstWith w m'.out <;> simp
    · intro a p hb
      cases hq : m.peers.get a with
      | none => rw [P.peers_none a hq] at hb; cases hb
      | some q =>
        obtain ⟨p1, h1, _, _, _, h2, h3, _⟩ := P.peers_some a q hq
        rw [h1] at hb
        cases hb
        rw [h2, h3]
        exact s.sent a q hq
    · intro x _
      rw [Outstanding, asked]
      refine ⟨fun k => k.1 (hall x k.2).symm, ?_⟩
      split
      · rfl
      · rename_i hx
        cases hq : m.remaining.get x with
        | none => exact (s.rnone x hq).2
        | some t => exact absurd (hall x (s.rsome x t hq).1).symm hx
    · intro x t hx
      rw [P.remaining] at hx
      cases hx
    · intro x
      rw [asked]
      split
      · trivial
      · exact s.aspaced x
    · intro j d
      rw [hrec, Waiting]
      simp [hne]
    · simp only [feeOps]
      exact P.est _ s.est

theorem run_sync {c : Bool} {h : Hist} {m : Mgr} (r : Run c h m) : Sync c h m := by
  induction r with
  | start => exact sync_new c
  | step r l e ih =>
    rename_i h m m' op
    cases op with
    | negotiated a n r w => cases e; exact sync_negotiated ih a n r w
    | disconnected a => cases e; exact sync_disconnected ih a
    | reverted hs => exact sync_reverted ih e
    | block b k => exact sync_block ih e
    | getdata a is => cases e; exact sync_getdata ih a is
    | timer env now height => exact (sync_timer ih l e).1
    | announce t => cases e; exact sync_announce ih t
    | getBlock x => cases e; exact sync_getBlock ih x

end Verif.Inv
