import Verif.Inv.Lemmas

/-!
# Lemmas about the inventory manager: timers and `getdata`
-/

set_option autoImplicit false

namespace Verif.Inv
open Verif.Tx
open Verif.Fees (Estimator Estimate)

/-! ## Timer -/

/-- The announcements due for a peer. -/
def Peer.Due (p : Peer) (now : Nat) : Prop := p.outbox ≠ [] ∧ p.lastAttempt.getD 0 + 60000 ≤ now

/-- What is announced for a queue. -/
def Ids (pool : AMap Nat Transaction) (byWtxid : Bool) (ws ids : List Nat) : Prop :=
  List.Forall₂ (fun w id => ∃ t, pool.get w = some t ∧ id = if byWtxid then t.wtxid else t.txid) ws ids

theorem lookupAll_total {pool : AMap Nat Transaction} {bw : Bool} : ∀ {ws : List Nat}, (∀ w ∈ ws, pool.contains w = true) →
    ∃ ids, lookupAll pool bw ws = .ok ids ∧ Ids pool bw ws ids := by
  intro ws
  induction ws with
  | nil => intro _; exact ⟨[], rfl, .nil⟩
  | cons w ws ih =>
    intro h
    obtain ⟨t, ht⟩ := Option.isSome_iff_exists.1 (h w List.mem_cons_self)
    obtain ⟨ids, e, i⟩ := ih (fun w hw => h w (List.mem_cons_of_mem _ hw))
    refine ⟨_ :: ids, ?_, .cons ⟨t, ht, rfl⟩ i⟩
    rw [lookupAll, ht, Res.unwrap_some, Res.ok_bind, e, Res.ok_bind]

theorem Ids.unique {pool : AMap Nat Transaction} {bw : Bool} {ws ids ids' : List Nat} (a : Ids pool bw ws ids) (b : Ids pool bw ws ids') :
    ids = ids' := by
  induction a generalizing ids' with
  | nil => cases b; rfl
  | cons h _ ih =>
    cases b with
    | cons h' b' =>
      obtain ⟨t, ht, rfl⟩ := h
      obtain ⟨t', ht', rfl⟩ := h'
      rw [ht] at ht'
      cases ht'
      rw [ih b']

/-- What the loop over the peers does. -/
structure Attempt (env : Env) (now : Nat) (as : List Nat) (m m' : Mgr) (dis dis' : List Nat) (l : List Out) : Prop where
  rest : m' = { m with peers := m'.peers, out := m.out ++ l }
  only : ∀ o ∈ l, (∃ a bw ids, o = .inv a bw ids) ∨ ∃ d, o = .timer d
  drop : ∀ a, a ∈ dis' ↔ a ∈ dis ∨ (a ∈ as ∧ ∃ p, m.peers.get a = some p ∧ p.Due now ∧ 3 ≤ p.attempts)
  pnone : ∀ a, m.peers.get a = none → m'.peers.get a = none
  hit : ∀ a p, m.peers.get a = some p → a ∈ as → p.Due now → p.attempts < 3 → m'.peers.get a = some (p.attempted now)
  miss : ∀ a p, m.peers.get a = some p → ¬ (a ∈ as ∧ p.Due now ∧ p.attempts < 3) → m'.peers.get a = some p
  inv : ∀ a bw ids, Out.inv a bw ids ∈ l ↔ a ∈ as ∧ ∃ p, m.peers.get a = some p ∧ p.Due now ∧ p.attempts < 3 ∧ bw = p.wtxidrelay ∧
    Ids m.pool bw (env.queue a p.outbox.keys) ids
  good : Good m'

theorem attemptAll_ok {env : Env} (le : env.Legal) {now : Nat} : ∀ {as : List Nat} {m : Mgr} {dis : List Nat}, as.Nodup → Good m →
    ∃ m' dis' l, Mgr.attemptAll env now as m dis = .ok (m', dis') ∧ Attempt env now as m m' dis dis' l := by
  intro as
  induction as with
  | nil =>
    intro m dis _ g
    refine ⟨m, dis, [], rfl, ?_⟩
    constructor <;> simp [g]
  | cons a as ih =>
    intro m dis hn g
    obtain ⟨hn1, hn2⟩ := List.nodup_cons.1 hn
    -- nothing to do for `a`
    have skip : (∀ p, m.peers.get a = some p → ¬ p.Due now) → Mgr.attemptAll env now (a :: as) m dis = Mgr.attemptAll env now as m dis →
        ∃ m' dis' l, Mgr.attemptAll env now (a :: as) m dis = .ok (m', dis') ∧ Attempt env now (a :: as) m m' dis dis' l := by
      intro hd e
      obtain ⟨m', dis', l, e', A⟩ := ih (dis := dis) hn2 g
      refine ⟨m', dis', l, e.trans e', A.rest, A.only, ?_, A.pnone, ?_, ?_, ?_, A.good⟩
      · intro x
        rw [A.drop]
        constructor
        · rintro (h | ⟨h, r⟩)
          · exact .inl h
          · exact .inr ⟨List.mem_cons_of_mem _ h, r⟩
        · rintro (h | ⟨h, p, h1, h2, h3⟩)
          · exact .inl h
          · rcases List.mem_cons.1 h with rfl | h
            · exact absurd h2 (hd p h1)
            · exact .inr ⟨h, p, h1, h2, h3⟩
      · intro x p h1 h2 h3 h4
        rcases List.mem_cons.1 h2 with rfl | h2
        · exact absurd h3 (hd p h1)
        · exact A.hit x p h1 h2 h3 h4
      · intro x p h1 h2
        exact A.miss x p h1 (fun ⟨k1, k⟩ => h2 ⟨List.mem_cons_of_mem _ k1, k⟩)
      · intro x bw ids
        rw [A.inv]
        constructor
        · rintro ⟨h, r⟩; exact ⟨List.mem_cons_of_mem _ h, r⟩
        · rintro ⟨h, p, h1, h2, r⟩
          rcases List.mem_cons.1 h with rfl | h
          · exact absurd h2 (hd p h1)
          · exact ⟨h, p, h1, h2, r⟩
    cases hg : m.peers.get a with
    | none =>
      refine skip (by intro p h; rw [hg] at h; cases h) ?_
      rw [Mgr.attemptAll, hg]
    | some p =>
      by_cases he : p.outbox.isEmpty = true
      · refine skip ?_ ?_
        · intro q h hd
          rw [hg] at h
          cases h
          exact hd.1 (List.isEmpty_iff.1 he)
        · rw [Mgr.attemptAll, hg]
          simp only [he, if_true]
      · by_cases ht : now - p.lastAttempt.getD 0 < rebroadcastTimeout
        · refine skip ?_ ?_
          · intro q h hd
            rw [hg] at h
            cases h
            have := hd.2
            simp only [rebroadcastTimeout] at ht
            omega
          · rw [Mgr.attemptAll, hg]
            simp only [he, ht, if_true]
            rfl
        · have due : p.Due now := by
            refine ⟨fun h => he (List.isEmpty_iff.2 h), ?_⟩
            simp only [rebroadcastTimeout] at ht
            omega
          by_cases hm : maxAttempts ≤ p.attempts
          · obtain ⟨m', dis', l, e', A⟩ := ih (dis := dis ++ [a]) hn2 g
            simp only [maxAttempts] at hm
            refine ⟨m', dis', l, ?_, A.rest, A.only, ?_, A.pnone, ?_, ?_, ?_, A.good⟩
            · rw [Mgr.attemptAll, hg]
              simp only [he, ht, maxAttempts, hm, if_true]
              exact e'
            · intro x
              rw [A.drop]
              simp only [List.mem_append, List.mem_cons, List.not_mem_nil, or_false]
              constructor
              · rintro ((h | rfl) | ⟨h, r⟩)
                · exact .inl h
                · exact .inr ⟨.inl rfl, p, hg, due, hm⟩
                · exact .inr ⟨.inr h, r⟩
              · rintro (h | ⟨rfl | h, r⟩)
                · exact .inl (.inl h)
                · exact .inl (.inr rfl)
                · exact .inr ⟨h, r⟩
            · intro x q h1 h2 h3 h4
              rcases List.mem_cons.1 h2 with rfl | h2
              · rw [hg] at h1; cases h1; omega
              · exact A.hit x q h1 h2 h3 h4
            · intro x q h1 h2
              exact A.miss x q h1 (fun ⟨k1, k⟩ => h2 ⟨List.mem_cons_of_mem _ k1, k⟩)
            · intro x bw ids
              rw [A.inv]
              constructor
              · rintro ⟨h, r⟩; exact ⟨List.mem_cons_of_mem _ h, r⟩
              · rintro ⟨h, q, h1, h2, h3, r⟩
                rcases List.mem_cons.1 h with rfl | h
                · rw [hg] at h1; cases h1; omega
                · exact ⟨h, q, h1, h2, h3, r⟩
          · have hw : ∀ w ∈ env.queue a p.outbox.keys, m.pool.contains w = true := by
              intro w hw
              exact g.sub a p w hg ((AMap.contains_iff _ _).2 ((le.queue a _).mem_iff.1 hw))
            obtain ⟨ids, e1, i1⟩ := lookupAll_total (bw := p.wtxidrelay) hw
            let m1 : Mgr := { m with peers := m.peers.insert a (p.attempted now) }.emit [.inv a p.wtxidrelay ids, .timer rebroadcastTimeout]
            have g1 : Good m1 := by
              refine ⟨AMap.nodup_insert g.peers _ _, ?_, ?_, g.pool, g.keys, g.remaining, g.received, g.confirmed⟩
              · intro x q h
                simp only [m1, Mgr.emit, AMap.get_insert] at h
                split at h
                · cases h; exact g.outbox a p hg
                · exact g.outbox x q h
              · intro x q w h hc
                simp only [m1, Mgr.emit, AMap.get_insert] at h
                split at h
                · cases h; exact g.sub a p w hg hc
                · exact g.sub x q w h hc
            obtain ⟨m', dis', l, e', A⟩ := ih (dis := dis) hn2 g1
            have get1 : ∀ x, x ≠ a → m1.peers.get x = m.peers.get x := fun x hx => by
              simp only [m1, Mgr.emit]; exact AMap.get_insert_ne _ _ (Ne.symm hx)
            have geta : m1.peers.get a = some (p.attempted now) := by simp [m1, Mgr.emit]
            simp only [maxAttempts, not_le] at hm
            refine ⟨m', dis', [.inv a p.wtxidrelay ids, .timer rebroadcastTimeout] ++ l, ?_, ?_, ?_, ?_, ?_, ?_, ?_, ?_, A.good⟩
            · rw [Mgr.attemptAll, hg]
              simp only [he, ht, maxAttempts, not_le.2 hm, if_false, e1, Res.ok_bind]
              exact e'
            · have := A.rest
              rw [this]
              simp [m1, Mgr.emit]
            · intro o ho
              rcases List.mem_append.1 ho with ho | ho
              · simp only [List.mem_cons, List.not_mem_nil, or_false] at ho
                rcases ho with rfl | rfl
                · exact .inl ⟨_, _, _, rfl⟩
                · exact .inr ⟨_, rfl⟩
              · exact A.only o ho
            · intro x
              rw [A.drop]
              constructor
              · rintro (h | ⟨h, q, h1, r⟩)
                · exact .inl h
                · rw [get1 x (by rintro rfl; exact hn1 h)] at h1
                  exact .inr ⟨List.mem_cons_of_mem _ h, q, h1, r⟩
              · rintro (h | ⟨h, q, h1, h2, h3⟩)
                · exact .inl h
                · rcases List.mem_cons.1 h with rfl | h'
                  · rw [hg] at h1; cases h1; omega
                  · exact .inr ⟨h', q, by rw [get1 x (by rintro rfl; exact hn1 h')]; exact h1, h2, h3⟩
            · intro x h
              have hx : x ≠ a := by rintro rfl; rw [hg] at h; cases h
              exact A.pnone x (by rw [get1 x hx]; exact h)
            · intro x q h1 h2 h3 h4
              rcases List.mem_cons.1 h2 with rfl | h2'
              · rw [hg] at h1
                cases h1
                exact A.miss x _ geta (fun ⟨k, _⟩ => hn1 k)
              · have hx : x ≠ a := by rintro rfl; exact hn1 h2'
                exact A.hit x q (by rw [get1 x hx]; exact h1) h2' h3 h4
            · intro x q h1 h2
              have hx : x ≠ a := by
                rintro rfl
                rw [hg] at h1
                cases h1
                exact h2 ⟨List.mem_cons_self, due, hm⟩
              exact A.miss x q (by rw [get1 x hx]; exact h1) (fun ⟨k1, k⟩ => h2 ⟨List.mem_cons_of_mem _ k1, k⟩)
            · intro x bw js
              rw [List.mem_append, A.inv]
              simp only [List.mem_cons, List.not_mem_nil, or_false, Out.inv.injEq, reduceCtorEq]
              constructor
              · rintro (⟨rfl, rfl, rfl⟩ | ⟨h, q, h1, r⟩)
                · exact ⟨.inl rfl, p, hg, due, hm, rfl, i1⟩
                · rw [get1 x (by rintro rfl; exact hn1 h)] at h1
                  exact ⟨.inr h, q, h1, r⟩
              · rintro ⟨rfl | h, q, h1, h2, h3, h4, h5⟩
                · rw [hg] at h1
                  cases h1
                  subst h4
                  exact .inl ⟨rfl, rfl, h5.unique i1⟩
                · exact .inr ⟨h, q, by rw [get1 x (by rintro rfl; exact hn1 h)]; exact h1, h2, h3, h4, h5⟩

theorem dropAll_ok : ∀ (dis : List Nat) (m : Mgr), Good m → let m' := Mgr.dropAll dis m
    m' = { m with peers := m'.peers, out := m.out ++ dis.map Out.timedOut } ∧
    (∀ a, m'.peers.get a = if a ∈ dis then none else m.peers.get a) ∧ Good m' := by
  intro dis
  induction dis with
  | nil => intro m g; exact ⟨by simp [Mgr.dropAll], by simp [Mgr.dropAll], g⟩
  | cons a dis ih =>
    intro m g
    have g1 : Good ({ m with peers := m.peers.erase a }.emit [.timedOut a]) := by
      refine ⟨AMap.nodup_erase g.peers _, ?_, ?_, g.pool, g.keys, g.remaining, g.received, g.confirmed⟩
      · intro x q h
        simp only [Mgr.emit, AMap.get_erase] at h
        split at h
        · cases h
        · exact g.outbox x q h
      · intro x q w h hc
        simp only [Mgr.emit, AMap.get_erase] at h
        split at h
        · cases h
        · exact g.sub x q w h hc
    obtain ⟨h1, h2, h3⟩ := ih _ g1
    refine ⟨?_, ?_, h3⟩
    · rw [Mgr.dropAll, h1]
      simp [Mgr.emit]
    · intro x
      rw [Mgr.dropAll, h2]
      simp only [Mgr.emit, AMap.get_erase, List.mem_cons]
      by_cases hx : x ∈ dis
      · simp [hx]
      · by_cases ha : a = x
        · simp [ha]
        · rw [if_neg hx, if_neg ha, if_neg (by simp [hx]; exact Ne.symm ha)]

/-- The peers that serve blocks. -/
def Mgr.servers (m : Mgr) : List Nat := (m.peers.filter (fun p => p.2.network)).map (·.1)

theorem mem_servers {m : Mgr} (g : Good m) (a : Nat) : a ∈ m.servers ↔ ∃ p, m.peers.get a = some p ∧ p.network = true := by
  unfold Mgr.servers
  simp only [List.mem_map, List.mem_filter]
  constructor
  · rintro ⟨⟨b, p⟩, ⟨h1, h2⟩, rfl⟩
    exact ⟨p, AMap.get_of_mem g.peers h1, h2⟩
  · rintro ⟨p, h1, h2⟩
    exact ⟨(a, p), ⟨AMap.mem_of_get h1, h2⟩, rfl⟩

/-- The request for a block is due. -/
def dueRequest (now : Nat) (t : Option Nat) : Prop := t.getD 0 + 15000 ≤ now

/-- What the loop over the requested blocks does. -/
structure Request (env : Env) (now : Nat) (hs : List Nat) (m m' : Mgr) (l : List Out) : Prop where
  rest : m' = { m with remaining := m'.remaining, out := m.out ++ l }
  only : ∀ o ∈ l, (∃ a h, o = .getBlock a h) ∨ ∃ d, o = .timer d
  rnone : ∀ h, m.remaining.get h = none → m'.remaining.get h = none
  hit : ∀ h t a, m.remaining.get h = some t → h ∈ hs → dueRequest now t → env.pick h m.servers = some a → m'.remaining.get h = some (some now)
  miss : ∀ h t, m.remaining.get h = some t → ¬ (h ∈ hs ∧ dueRequest now t ∧ ∃ a, env.pick h m.servers = some a) → m'.remaining.get h = some t
  get : ∀ a h, Out.getBlock a h ∈ l ↔ h ∈ hs ∧ ∃ t, m.remaining.get h = some t ∧ dueRequest now t ∧ env.pick h m.servers = some a
  good : Good m'

theorem requestAll_ok {env : Env} {now : Nat} : ∀ {hs : List Nat} {m : Mgr}, hs.Nodup → Good m →
    ∃ l, Request env now hs m (Mgr.requestAll env now hs m) l := by
  intro hs
  induction hs with
  | nil =>
    intro m _ g
    refine ⟨[], ?_⟩
    constructor <;> simp [Mgr.requestAll, g]
  | cons h hs ih =>
    intro m hn g
    obtain ⟨hn1, hn2⟩ := List.nodup_cons.1 hn
    have skip : (∀ t a, m.remaining.get h = some t → dueRequest now t → env.pick h m.servers = some a → False) →
        Mgr.requestAll env now (h :: hs) m = Mgr.requestAll env now hs m →
        ∃ l, Request env now (h :: hs) m (Mgr.requestAll env now (h :: hs) m) l := by
      intro hd e
      rw [e]
      obtain ⟨l, R⟩ := ih hn2 g
      refine ⟨l, R.rest, R.only, R.rnone, ?_, ?_, ?_, R.good⟩
      · intro x t a h1 h2 h3 h4
        rcases List.mem_cons.1 h2 with rfl | h2
        · exact (hd t a h1 h3 h4).elim
        · exact R.hit x t a h1 h2 h3 h4
      · intro x t h1 h2
        exact R.miss x t h1 (fun ⟨k1, k⟩ => h2 ⟨List.mem_cons_of_mem _ k1, k⟩)
      · intro a x
        rw [R.get]
        constructor
        · rintro ⟨h, r⟩; exact ⟨List.mem_cons_of_mem _ h, r⟩
        · rintro ⟨k, t, h1, h2, h3⟩
          rcases List.mem_cons.1 k with rfl | k
          · exact (hd t a h1 h2 h3).elim
          · exact ⟨k, t, h1, h2, h3⟩
    cases hg : m.remaining.get h with
    | none =>
      refine skip (by intro t a h; rw [hg] at h; cases h) ?_
      rw [Mgr.requestAll, hg]
    | some t =>
      by_cases ht : now - t.getD 0 < requestTimeout
      · refine skip ?_ ?_
        · intro s a h1 h2 _
          rw [hg] at h1
          cases h1
          simp only [dueRequest] at h2
          simp only [requestTimeout] at ht
          omega
        · rw [Mgr.requestAll, hg]
          simp only [ht, if_true]
      · cases hp : env.pick h m.servers with
        | none =>
          refine skip (by intro s a _ _ h; rw [hp] at h; cases h) ?_
          rw [Mgr.requestAll, hg]
          simp only [ht, if_false]
          rw [Mgr.servers] at hp
          rw [hp]
        | some a =>
          have due : dueRequest now t := by
            simp only [requestTimeout] at ht
            simp only [dueRequest]
            omega
          let m1 : Mgr := { m with remaining := m.remaining.insert h (some now) }.emit [.getBlock a h, .timer requestTimeout]
          have g1 : Good m1 := ⟨g.peers, g.outbox, g.sub, g.pool, g.keys, AMap.nodup_insert g.remaining _ _, g.received, g.confirmed⟩
          obtain ⟨l, R⟩ := ih (m := m1) hn2 g1
          have e : Mgr.requestAll env now (h :: hs) m = Mgr.requestAll env now hs m1 := by
            rw [Mgr.requestAll, hg]
            simp only [ht, if_false]
            rw [Mgr.servers] at hp
            rw [hp]
          have get1 : ∀ x, x ≠ h → m1.remaining.get x = m.remaining.get x := fun x hx => by
            simp only [m1, Mgr.emit]; exact AMap.get_insert_ne _ _ (Ne.symm hx)
          have geth : m1.remaining.get h = some (some now) := by simp [m1, Mgr.emit]
          have es : m1.servers = m.servers := rfl
          rw [e]
          refine ⟨[.getBlock a h, .timer requestTimeout] ++ l, ?_, ?_, ?_, ?_, ?_, ?_, R.good⟩
          · have := R.rest
            rw [this]
            simp [m1, Mgr.emit]
          · intro o ho
            rcases List.mem_append.1 ho with ho | ho
            · simp only [List.mem_cons, List.not_mem_nil, or_false] at ho
              rcases ho with rfl | rfl
              · exact .inl ⟨_, _, rfl⟩
              · exact .inr ⟨_, rfl⟩
            · exact R.only o ho
          · intro x k
            have hx : x ≠ h := by rintro rfl; rw [hg] at k; cases k
            exact R.rnone x (by rw [get1 x hx]; exact k)
          · intro x s b h1 h2 h3 h4
            rcases List.mem_cons.1 h2 with rfl | h2'
            · exact R.miss x _ geth (fun ⟨k, _⟩ => hn1 k)
            · have hx : x ≠ h := by rintro rfl; exact hn1 h2'
              exact R.hit x s b (by rw [get1 x hx]; exact h1) h2' h3 h4
          · intro x s h1 h2
            have hx : x ≠ h := by
              rintro rfl
              rw [hg] at h1
              cases h1
              exact h2 ⟨List.mem_cons_self, due, a, hp⟩
            exact R.miss x s (by rw [get1 x hx]; exact h1) (fun ⟨k1, k⟩ => h2 ⟨List.mem_cons_of_mem _ k1, k⟩)
          · intro b x
            rw [List.mem_append, R.get, es]
            simp only [List.mem_cons, List.not_mem_nil, or_false, Out.getBlock.injEq, reduceCtorEq]
            constructor
            · rintro (⟨rfl, rfl⟩ | ⟨k, s, h1, r⟩)
              · exact ⟨.inl rfl, t, hg, due, hp⟩
              · rw [get1 x (by rintro rfl; exact hn1 k)] at h1
                exact ⟨.inr k, s, h1, r⟩
            · rintro ⟨rfl | k, s, h1, h2, h3⟩
              · rw [hp] at h3
                cases h3
                exact .inl ⟨rfl, rfl⟩
              · exact .inr ⟨k, s, by rw [get1 x (by rintro rfl; exact hn1 k)]; exact h1, h2, h3⟩

/-- What a timer does. -/
structure Timed (env : Env) (now height : Nat) (m m' : Mgr) : Prop where
  pool : m'.pool = m.pool
  received : m'.received = m.received
  est : m'.est = m.est
  confirmed : m'.confirmed = m.confirmed.filter (fun p => p.1 ≤ height && height - p.1 ≤ pruneDepth)
  only : ∀ o ∈ m'.out, o ∈ m.out ∨ (∃ a bw ids, o = .inv a bw ids) ∨ (∃ d, o = .timer d) ∨ (∃ a, o = .timedOut a) ∨ ∃ a h, o = .getBlock a h
  drop : ∀ a, Out.timedOut a ∉ m.out → (Out.timedOut a ∈ m'.out ↔ ∃ p, m.peers.get a = some p ∧ p.Due now ∧ 3 ≤ p.attempts)
  inv : ∀ a bw ids, Out.inv a bw ids ∉ m.out → (Out.inv a bw ids ∈ m'.out ↔ ∃ p, m.peers.get a = some p ∧ p.Due now ∧ p.attempts < 3 ∧
    bw = p.wtxidrelay ∧ Ids m.pool bw (env.queue a p.outbox.keys) ids)
  pnone : ∀ a, m.peers.get a = none → m'.peers.get a = none
  psome : ∀ a p, m.peers.get a = some p → (p.Due now → 3 ≤ p.attempts → m'.peers.get a = none) ∧
    (p.Due now → p.attempts < 3 → m'.peers.get a = some (p.attempted now)) ∧ (¬ p.Due now → m'.peers.get a = some p)
  rnone : ∀ h, m.remaining.get h = none → m'.remaining.get h = none
  rsome : ∀ h t, m.remaining.get h = some t →
    (dueRequest now t → (∃ a p, m'.peers.get a = some p ∧ p.network = true) → m'.remaining.get h = some (some now)) ∧
    (¬ (dueRequest now t ∧ ∃ a p, m'.peers.get a = some p ∧ p.network = true) → m'.remaining.get h = some t)
  get : ∀ a h, Out.getBlock a h ∉ m.out → Out.getBlock a h ∈ m'.out → (∃ p, m'.peers.get a = some p ∧ p.network = true) ∧
    ∃ t, m.remaining.get h = some t ∧ dueRequest now t
  got : ∀ h t, m.remaining.get h = some t → dueRequest now t → (∃ a p, m'.peers.get a = some p ∧ p.network = true) →
    ∃ a, Out.getBlock a h ∈ m'.out
  good : Good m'

theorem timerExpired_ok {c : Bool} {env : Env} (le : env.Legal) {now height : Nat} {m : Mgr} (g : Good m)
    (hp : (c && m.confirmed.any (fun p => height < p.1)) = false) :
    ∃ m', m.timerExpired c env now height = .ok m' ∧ Timed env now height m m' := by
  let m0 : Mgr := if idleTimeout ≤ now - m.lastTick.getD 0 then { m with lastTick := some now, out := m.out ++ [.timer idleTimeout] } else m
  have e0 : ∃ lt l, m0 = { m with lastTick := lt, out := m.out ++ l } ∧ ∀ o ∈ l, ∃ d, o = .timer d := by
    simp only [m0]
    split
    · exact ⟨_, _, rfl, by simp⟩
    · exact ⟨m.lastTick, [], by simp, by simp⟩
  obtain ⟨lt, l0, e0, o0⟩ := e0
  let m1 : Mgr := { m0 with confirmed := m.confirmed.filter (fun p => p.1 ≤ height && height - p.1 ≤ pruneDepth) }
  have g1 : Good m1 := by
    simp only [m1, e0]
    exact ⟨g.peers, g.outbox, g.sub, g.pool, g.keys, g.remaining, g.received, List.Pairwise.sublist (List.Sublist.map _ List.filter_sublist) g.confirmed⟩
  obtain ⟨m2, dis, l2, e2, A⟩ := attemptAll_ok le (now := now) (as := env.peers m1.peers.keys) (dis := [])
    ((le.peers _).nodup_iff.2 g1.peers) g1
  obtain ⟨d1, d2, g3⟩ := dropAll_ok dis m2 A.good
  generalize hm3 : Mgr.dropAll dis m2 = m3 at d1 d2 g3
  obtain ⟨l4, R⟩ := requestAll_ok (env := env) (now := now) (hs := env.blocks m3.remaining.keys) ((le.blocks _).nodup_iff.2 g3.remaining) g3
  generalize hm4 : Mgr.requestAll env now (env.blocks m3.remaining.keys) m3 = m4 at R
  have hpr : prune c height m0.confirmed = .ok (m.confirmed.filter (fun p => p.1 ≤ height && height - p.1 ≤ pruneDepth)) := by
    rw [e0, prune, if_neg (by simp [hp])]
  refine ⟨m4, ?_, ?_⟩
  · unfold Mgr.timerExpired
    show (prune c height m0.confirmed >>= _) = _
    rw [hpr, Res.ok_bind]
    show (Mgr.attemptAll env now (env.peers m1.peers.keys) m1 [] >>= _) = _
    rw [e2, Res.ok_bind]
    show Res.ok (Mgr.requestAll env now (env.blocks (Mgr.dropAll dis m2).remaining.keys) (Mgr.dropAll dis m2)) = _
    rw [hm3, hm4]
  · have P1 : m1.peers = m.peers := by simp only [m1, e0]
    have Q1 : m1.pool = m.pool := by simp only [m1, e0]
    have R1 : m1.remaining = m.remaining := by simp only [m1, e0]
    have O1 : m1.out = m.out ++ l0 := by simp only [m1, e0]
    have r2 : m2.remaining = m.remaining := by rw [A.rest]; exact R1
    have r3 : m3.remaining = m.remaining := by rw [d1]; exact r2
    have p4 : m4.peers = m3.peers := by rw [R.rest]
    have o2 : m2.out = m.out ++ l0 ++ l2 := by rw [A.rest]; simp only [O1]
    have o3 : m3.out = m.out ++ l0 ++ l2 ++ dis.map Out.timedOut := by rw [d1]; simp only [o2]
    have o4 : m4.out = m.out ++ l0 ++ l2 ++ dis.map Out.timedOut ++ l4 := by rw [R.rest]; simp only [o3]
    have memk : ∀ a p, m.peers.get a = some p → a ∈ env.peers m1.peers.keys := by
      intro a p h
      rw [(le.peers _).mem_iff, P1, ← AMap.get_isSome_iff, h]
      rfl
    have memr : ∀ h t, m.remaining.get h = some t → h ∈ env.blocks m3.remaining.keys := by
      intro h t k
      rw [(le.blocks _).mem_iff, r3, ← AMap.get_isSome_iff, k]
      rfl
    have pick : ∀ h, (∃ a, env.pick h m3.servers = some a) ↔ ∃ a p, m3.peers.get a = some p ∧ p.network = true := by
      intro h
      constructor
      · rintro ⟨a, k⟩
        exact ⟨a, (mem_servers g3 a).1 (le.pick_mem h _ a k)⟩
      · rintro ⟨a, k⟩
        exact le.pick_some h _ (List.ne_nil_of_mem ((mem_servers g3 a).2 k))
    have nl2 : ∀ a, Out.timedOut a ∉ l2 := by
      intro a h
      rcases A.only _ h with ⟨_, _, _, e⟩ | ⟨_, e⟩ <;> cases e
    have nl4 : ∀ a, Out.timedOut a ∉ l4 := by
      intro a h
      rcases R.only _ h with ⟨_, _, e⟩ | ⟨_, e⟩ <;> cases e
    have nl0 : ∀ o, (∀ d, o ≠ .timer d) → o ∉ l0 := by
      intro o h h'
      obtain ⟨d, e⟩ := o0 o h'
      exact h d e
    have drop : ∀ a, a ∈ dis ↔ ∃ p, m.peers.get a = some p ∧ p.Due now ∧ 3 ≤ p.attempts := by
      intro a
      rw [A.drop]
      simp only [List.not_mem_nil, false_or, P1]
      constructor
      · exact fun h => h.2
      · rintro ⟨p, h⟩
        exact ⟨P1 ▸ memk a p h.1, p, h⟩
    refine ⟨?_, ?_, ?_, ?_, ?_, ?_, ?_, ?_, ?_, ?_, ?_, ?_, ?_, R.good⟩
    · rw [R.rest]; simp only; rw [d1]; simp only; rw [A.rest]; exact Q1
    · rw [R.rest]; simp only; rw [d1]; simp only; rw [A.rest]; simp only [m1, e0]
    · rw [R.rest]; simp only; rw [d1]; simp only; rw [A.rest]; simp only [m1, e0]
    · rw [R.rest]; simp only; rw [d1]; simp only; rw [A.rest]
    · intro o ho
      rw [o4] at ho
      simp only [List.mem_append, List.mem_map] at ho
      rcases ho with (((h | h) | h) | ⟨a, _, rfl⟩) | h
      · exact .inl h
      · exact .inr (.inr (.inl (o0 o h)))
      · rcases A.only o h with h | h
        · exact .inr (.inl h)
        · exact .inr (.inr (.inl h))
      · exact .inr (.inr (.inr (.inl ⟨a, rfl⟩)))
      · rcases R.only o h with h | h
        · exact .inr (.inr (.inr (.inr h)))
        · exact .inr (.inr (.inl h))
    · intro a hno
      rw [← drop, o4]
      simp only [List.mem_append, List.mem_map, hno, nl0 (.timedOut a) (by simp), nl2 a, nl4 a, Out.timedOut.injEq, false_or, or_false,
        exists_eq_right]
    · intro a bw ids hno
      rw [o4]
      have n4 : Out.inv a bw ids ∉ l4 := by
        intro h
        rcases R.only _ h with ⟨_, _, e⟩ | ⟨_, e⟩ <;> cases e
      simp only [List.mem_append, List.mem_map, hno, nl0 (.inv a bw ids) (by simp), n4, reduceCtorEq, and_false, exists_false, false_or,
        or_false, A.inv, P1, Q1]
      constructor
      · exact fun h => h.2
      · rintro ⟨p, h⟩
        exact ⟨P1 ▸ memk a p h.1, p, h⟩
    · intro a h
      rw [p4, d2, A.pnone a (by rw [P1]; exact h)]
      simp
    · intro a p h
      rw [p4, d2]
      refine ⟨?_, ?_, ?_⟩
      · intro h1 h2
        rw [if_pos ((drop a).2 ⟨p, h, h1, h2⟩)]
      · intro h1 h2
        rw [if_neg, A.hit a p (by rw [P1]; exact h) (memk a p h) h1 h2]
        rw [drop]
        rintro ⟨q, h3, _, h4⟩
        rw [h] at h3
        cases h3
        omega
      · intro h1
        rw [if_neg, A.miss a p (by rw [P1]; exact h) (fun k => h1 k.2.1)]
        rw [drop]
        rintro ⟨q, h3, h4, _⟩
        rw [h] at h3
        cases h3
        exact h1 h4
    · intro h k
      exact R.rnone h (by rw [r3]; exact k)
    · intro h t k
      rw [p4, ← pick h]
      refine ⟨?_, ?_⟩
      · rintro h1 ⟨a, h2⟩
        exact R.hit h t a (by rw [r3]; exact k) (memr h t k) h1 h2
      · intro h1
        exact R.miss h t (by rw [r3]; exact k) (fun k => h1 k.2)
    · intro a h hno k
      rw [o4] at k
      have n2 : Out.getBlock a h ∉ l2 := by
        intro h
        rcases A.only _ h with ⟨_, _, _, e⟩ | ⟨_, e⟩ <;> cases e
      simp only [List.mem_append, List.mem_map, hno, nl0 (.getBlock a h) (by simp), n2, reduceCtorEq, and_false, exists_false, false_or,
        R.get, r3] at k
      obtain ⟨_, t, k1, k2, k3⟩ := k
      rw [p4]
      exact ⟨(mem_servers g3 a).1 (le.pick_mem h _ a k3), t, k1, k2⟩
    · intro h t k1 k2 k3
      rw [p4, ← pick h] at k3
      obtain ⟨a, k3⟩ := k3
      refine ⟨a, ?_⟩
      rw [o4]
      refine List.mem_append_right _ ((R.get a h).2 ⟨memr h t k1, t, by rw [r3]; exact k1, k2, k3⟩)

/-! ## `getdata` -/

/-- What a `getdata` message does: `l` are the outputs. -/
structure Got (m m' : Mgr) (a : Nat) (items : List Item) (l : List Out) : Prop where
  rest : m' = { m with peers := m'.peers, out := m.out ++ l }
  only : ∀ o ∈ l, (∃ t, o = .tx a t) ∨ ∃ id, o = .acknowledged id a
  tx : ∀ t, Out.tx a t ∈ l ↔ ∃ i ∈ items, ∃ w, i.Names m.pool.get w ∧ m.pool.get w = some t
  other : ∀ b, b ≠ a → m'.peers.get b = m.peers.get b
  pnone : m.peers.get a = none → m'.peers.get a = none ∧ ∀ id, Out.acknowledged id a ∉ l
  psome : ∀ p, m.peers.get a = some p → ∃ p', m'.peers.get a = some p' ∧ p'.relay = p.relay ∧ p'.network = p.network ∧
    p'.wtxidrelay = p.wtxidrelay ∧
    (∀ w, p'.outbox.get w = none ↔ p.outbox.get w = none ∨ ∃ i ∈ items, i.Names m.pool.get w) ∧
    (∀ w x, p'.outbox.get w = some x → p.outbox.get w = some x) ∧
    ((∃ id, Out.acknowledged id a ∈ l) → p'.attempts = 0 ∧ p'.lastAttempt = none) ∧
    ((¬ ∃ id, Out.acknowledged id a ∈ l) → p'.attempts = p.attempts ∧ p'.lastAttempt = p.lastAttempt) ∧
    ((∃ id, Out.acknowledged id a ∈ l) ↔ ∃ w x, p.outbox.get w = some x ∧ ∃ i ∈ items, i.Names m.pool.get w) ∧
    ∀ id, Out.acknowledged id a ∈ l → ∃ w x, p.outbox.get w = some x ∧ (∃ i ∈ items, i.Names m.pool.get w) ∧
      (id = x ∨ ∃ t, m.pool.get w = some t ∧ t.txid = id)
  good : Good m'

theorem got_nil {m : Mgr} (g : Good m) (a : Nat) : Got m m a [] [] := by
  refine ⟨by simp, by simp, by simp, fun _ _ => rfl, fun h => ⟨h, by simp⟩, ?_, g⟩
  intro p h
  exact ⟨p, h, rfl, rfl, rfl, by simp, by simp, by simp, by simp, by simp, by simp⟩

/-- Asking for the transaction `w`, which is sent if it is known. -/
theorem got_ack {m : Mgr} (g : Good m) (a : Nat) (i : Item) (w : Nat) (id : Option Nat) (hw : ∀ w', i.Names m.pool.get w' ↔ w' = w)
    (hid : ∀ x, id = some x → ∃ t, m.pool.get w = some t ∧ t.txid = x) (l0 : List Out)
    (h0 : ∀ o, o ∈ l0 ↔ ∃ t, m.pool.get w = some t ∧ o = .tx a t) :
    ∃ l, Got m ((m.emit l0).acknowledge a w id) a [i] l := by
  have nack : ∀ y, Out.acknowledged y a ∉ l0 := by
    intro y h
    obtain ⟨_, _, e⟩ := (h0 _).1 h
    cases e
  have names : ∀ v, (∃ j ∈ [i], j.Names m.pool.get v) ↔ v = w := by
    intro v
    simp [hw]
  have htx : ∀ t, (∃ j ∈ [i], ∃ v, j.Names m.pool.get v ∧ m.pool.get v = some t) ↔ m.pool.get w = some t := by
    intro t
    simp [hw]
  -- nothing queued
  have skip : (m.emit l0).acknowledge a w id = m.emit l0 → (∀ p, m.peers.get a = some p → p.outbox.get w = none) →
      ∃ l, Got m ((m.emit l0).acknowledge a w id) a [i] l := by
    intro e hn
    rw [e]
    refine ⟨l0, rfl, ?_, ?_, fun _ _ => rfl, fun h => ⟨h, nack⟩, ?_, g.congr rfl rfl rfl rfl rfl⟩
    · intro o ho
      obtain ⟨t, _, e⟩ := (h0 o).1 ho
      exact .inl ⟨t, e⟩
    · intro t
      rw [htx, h0]
      simp
    · intro p hp
      have hpw := hn p hp
      refine ⟨p, hp, rfl, rfl, rfl, ?_, fun _ _ h => h, ?_, fun _ => ⟨rfl, rfl⟩, ?_, ?_⟩
      · intro v
        rw [names]
        constructor
        · exact .inl
        · rintro (h | rfl)
          · exact h
          · exact hpw
      · rintro ⟨y, h⟩; exact absurd h (nack y)
      · constructor
        · rintro ⟨y, h⟩; exact absurd h (nack y)
        · rintro ⟨v, x, h1, h2⟩
          rw [names] at h2
          subst h2
          rw [hpw] at h1
          cases h1
      · intro y h; exact absurd h (nack y)
  cases hg : m.peers.get a with
  | none =>
    refine skip ?_ (by intro p h; rw [hg] at h; cases h)
    simp [Mgr.acknowledge, Mgr.emit, hg]
  | some p =>
    cases ho : p.outbox.get w with
    | none =>
      refine skip ?_ (by intro q h; rw [hg] at h; cases h; exact ho)
      simp [Mgr.acknowledge, Mgr.emit, hg, ho]
    | some x =>
      have e : (m.emit l0).acknowledge a w id = { m with
          peers := m.peers.insert a { p with outbox := p.outbox.erase w }.reset
          out := m.out ++ (l0 ++ [.acknowledged (id.getD x) a]) } := by
        simp [Mgr.acknowledge, Mgr.emit, hg, ho]
      rw [e]
      have isack : ∃ y, Out.acknowledged y a ∈ l0 ++ [.acknowledged (id.getD x) a] := ⟨id.getD x, by simp⟩
      refine ⟨l0 ++ [.acknowledged (id.getD x) a], rfl, ?_, ?_, ?_, ?_, ?_, ?_⟩
      · intro o hm
        rcases List.mem_append.1 hm with hm | hm
        · obtain ⟨t, _, e⟩ := (h0 o).1 hm
          exact .inl ⟨t, e⟩
        · rw [List.mem_singleton] at hm
          exact .inr ⟨_, hm⟩
      · intro t
        rw [htx]
        simp [h0]
      · intro b hb
        exact AMap.get_insert_ne _ _ (Ne.symm hb)
      · intro h; rw [hg] at h; cases h
      · intro q hq
        rw [hg] at hq
        cases hq
        refine ⟨{ p with outbox := p.outbox.erase w }.reset, AMap.get_insert_self _ _ _, rfl, rfl, rfl, ?_, ?_, fun _ => ⟨rfl, rfl⟩,
          fun h => absurd isack h, ?_, ?_⟩
        · intro v
          rw [names]
          simp only [Peer.reset, AMap.get_erase]
          by_cases hv : w = v
          · simp [hv]
          · rw [if_neg hv]
            constructor
            · exact .inl
            · rintro (h | h)
              · exact h
              · exact absurd h.symm hv
        · intro v y h
          simp only [Peer.reset, AMap.get_erase] at h
          split at h
          · cases h
          · exact h
        · constructor
          · intro _
            exact ⟨w, x, ho, (names w).2 rfl⟩
          · intro _
            exact isack
        · intro y hy
          rcases List.mem_append.1 hy with hy | hy
          · exact absurd hy (nack y)
          · simp only [List.mem_singleton, Out.acknowledged.injEq, and_true] at hy
            refine ⟨w, x, ho, (names w).2 rfl, ?_⟩
            cases hi : id with
            | none => left; rw [hy, hi]; rfl
            | some z => right; rw [hy, hi]; exact hid z hi
      · refine ⟨AMap.nodup_insert g.peers _ _, ?_, ?_, g.pool, g.keys, g.remaining, g.received, g.confirmed⟩
        · intro b q h
          simp only [AMap.get_insert] at h
          split at h
          · cases h
            exact AMap.nodup_erase (g.outbox a p hg) _
          · exact g.outbox b q h
        · intro b q v h hc
          simp only [AMap.get_insert] at h
          split at h
          · cases h
            simp only [Peer.reset, AMap.contains, AMap.get_erase] at hc
            split at hc
            · cases hc
            · exact g.sub a p v hg hc
          · exact g.sub b q v h hc

theorem got_none {m : Mgr} (g : Good m) (a : Nat) (i : Item) (hn : ∀ w, ¬ i.Names m.pool.get w) : Got m m a [i] [] := by
  refine ⟨by simp, by simp, by simp [hn], fun _ _ => rfl, fun h => ⟨h, by simp⟩, ?_, g⟩
  intro p h
  exact ⟨p, h, rfl, rfl, rfl, by simp [hn], by simp, by simp, by simp, by simp [hn], by simp⟩

theorem got_one {m : Mgr} (g : Good m) (a : Nat) (i : Item) : ∃ l, Got m (m.getdataOne a i) a [i] l := by
  have byId : ∀ x, (∀ w, i.Names m.pool.get w ↔ ((∃ t, m.pool.get w = some t ∧ t.txid = x) ∧ ∀ w' t', m.pool.get w' = some t' → t'.txid = x → w ≤ w')) →
      m.getdataOne a i = (match m.pool.find? (fun p => p.2.txid = x) with
        | none => m
        | some (_, t) => (m.emit [.tx a t]).acknowledge a t.wtxid (some x)) →
      ∃ l, Got m (m.getdataOne a i) a [i] l := by
    intro x hx e
    rw [e]
    cases hf : m.pool.find? (fun p => p.2.txid = x) with
    | none =>
      refine ⟨[], got_none g a i ?_⟩
      intro w hw
      obtain ⟨⟨t, h1, h2⟩, _⟩ := (hx w).1 hw
      have := (find_none (q := fun t => decide (t.txid = x)) (sorted_keys g.pool)).1 hf w t h1
      simp [h2] at this
    | some r =>
      obtain ⟨w, t⟩ := r
      obtain ⟨⟨h1, h2⟩, h3⟩ := (find_sorted (q := fun t => decide (t.txid = x)) g.pool w t).1 hf
      have h2' : t.txid = x := by simpa using h2
      have hk := g.keys w t h1
      simp only
      rw [hk]
      refine got_ack g a i w (some x) ?_ ?_ [.tx a t] ?_
      · intro w'
        rw [hx]
        constructor
        · rintro ⟨⟨t', k1, k2⟩, k3⟩
          have a1 := h3 w' t' k1 (by simpa using k2)
          have a2 := k3 w t h1 h2'
          omega
        · rintro rfl
          exact ⟨⟨t, h1, h2'⟩, fun w'' t'' k1 k2 => h3 w'' t'' k1 (by simpa using k2)⟩
      · intro y hy
        cases hy
        exact ⟨t, h1, h2'⟩
      · intro o
        simp [h1]
  cases i with
  | tx x => exact byId x (fun w => Iff.rfl) rfl
  | witnessTx x => exact byId x (fun w => Iff.rfl) rfl
  | wtx w =>
    cases hg : m.pool.get w with
    | none =>
      have e : m.getdataOne a (.wtx w) = (m.emit []).acknowledge a w none := by
        simp [Mgr.getdataOne, hg, Mgr.emit]
      rw [e]
      exact got_ack g a _ w none (fun w' => by simp [Item.Names, eq_comm]) (by simp) [] (by simp [hg])
    | some t =>
      have e : m.getdataOne a (.wtx w) = (m.emit [.tx a t]).acknowledge a w none := by
        simp [Mgr.getdataOne, hg]
      rw [e]
      exact got_ack g a _ w none (fun w' => by simp [Item.Names, eq_comm]) (by simp) [.tx a t] (by simp [hg])
  | other => exact ⟨[], got_none g a _ (fun w h => h)⟩

theorem Got.trans {m1 m2 m3 : Mgr} {a : Nat} {is js : List Item} {l l' : List Out} (A : Got m1 m2 a is l) (B : Got m2 m3 a js l') :
    Got m1 m3 a (is ++ js) (l ++ l') := by
  have ep : m2.pool = m1.pool := by rw [A.rest]
  have B3 := B.tx
  have B6 := B.psome
  rw [ep] at B3 B6
  have ex : ∀ w, (∃ i ∈ is ++ js, i.Names m1.pool.get w) ↔ (∃ i ∈ is, i.Names m1.pool.get w) ∨ ∃ i ∈ js, i.Names m1.pool.get w := by
    intro w
    simp only [List.mem_append, or_and_right, exists_or]
  refine ⟨?_, ?_, ?_, fun b hb => (B.other b hb).trans (A.other b hb), ?_, ?_, B.good⟩
  · have h1 := A.rest
    have h2 := B.rest
    rw [h2, h1]
    simp
  · intro o ho
    rcases List.mem_append.1 ho with ho | ho
    · exact A.only o ho
    · exact B.only o ho
  · intro t
    rw [List.mem_append, A.tx, B3]
    simp only [List.mem_append, or_and_right, exists_or]
  · intro h
    obtain ⟨h1, h2⟩ := A.pnone h
    obtain ⟨h3, h4⟩ := B.pnone h1
    refine ⟨h3, fun id hm => ?_⟩
    rcases List.mem_append.1 hm with hm | hm
    · exact h2 id hm
    · exact h4 id hm
  · intro p hp
    obtain ⟨q, a1, a2, a3, a4, a5, a6, a7, a8, a9, a10⟩ := A.psome p hp
    obtain ⟨r, b1, b2, b3, b4, b5, b6, b7, b8, b9, b10⟩ := B6 q a1
    refine ⟨r, b1, b2.trans a2, b3.trans a3, b4.trans a4, ?_, fun w x h => a6 w x (b6 w x h), ?_, ?_, ?_, ?_⟩
    · intro w
      rw [b5, a5, ex, or_assoc]
    · rintro ⟨id, h⟩
      by_cases hb : ∃ id, Out.acknowledged id a ∈ l'
      · exact b7 hb
      · rcases List.mem_append.1 h with h | h
        · have h1 := a7 ⟨id, h⟩
          have h2 := b8 hb
          exact ⟨h2.1.trans h1.1, h2.2.trans h1.2⟩
        · exact absurd ⟨id, h⟩ hb
    · intro h
      have h1 : ¬ ∃ id, Out.acknowledged id a ∈ l := fun ⟨id, k⟩ => h ⟨id, List.mem_append_left _ k⟩
      have h2 : ¬ ∃ id, Out.acknowledged id a ∈ l' := fun ⟨id, k⟩ => h ⟨id, List.mem_append_right _ k⟩
      exact ⟨(b8 h2).1.trans (a8 h1).1, (b8 h2).2.trans (a8 h1).2⟩
    · constructor
      · rintro ⟨id, h⟩
        rcases List.mem_append.1 h with h | h
        · obtain ⟨w, x, h1, h2⟩ := a9.1 ⟨id, h⟩
          exact ⟨w, x, h1, (ex w).2 (.inl h2)⟩
        · obtain ⟨w, x, h1, h2⟩ := b9.1 ⟨id, h⟩
          exact ⟨w, x, a6 w x h1, (ex w).2 (.inr h2)⟩
      · rintro ⟨w, x, h1, h2⟩
        by_cases hi : ∃ i ∈ is, i.Names m1.pool.get w
        · obtain ⟨id, h⟩ := a9.2 ⟨w, x, h1, hi⟩
          exact ⟨id, List.mem_append_left _ h⟩
        · have hj := ((ex w).1 h2).resolve_left hi
          have : q.outbox.get w ≠ none := by
            rw [Ne, a5]
            rintro (h | h)
            · rw [h1] at h; cases h
            · exact hi h
          obtain ⟨y, hy⟩ := Option.ne_none_iff_exists'.1 this
          obtain ⟨id, h⟩ := b9.2 ⟨w, y, hy, hj⟩
          exact ⟨id, List.mem_append_right _ h⟩
    · intro id h
      rcases List.mem_append.1 h with h | h
      · obtain ⟨w, x, h1, h2, h3⟩ := a10 id h
        exact ⟨w, x, h1, (ex w).2 (.inl h2), h3⟩
      · obtain ⟨w, x, h1, h2, h3⟩ := b10 id h
        exact ⟨w, x, a6 w x h1, (ex w).2 (.inr h2), h3⟩

theorem getdata_ok (a : Nat) : ∀ (is : List Item) {m : Mgr}, Good m → ∃ l, Got m (m.getdata a is) a is l := by
  intro is
  induction is with
  | nil => intro m g; exact ⟨[], got_nil g a⟩
  | cons i is ih =>
    intro m g
    obtain ⟨l1, A⟩ := got_one g a i
    obtain ⟨l2, B⟩ := ih A.good
    exact ⟨l1 ++ l2, A.trans B⟩

end Verif.Inv
