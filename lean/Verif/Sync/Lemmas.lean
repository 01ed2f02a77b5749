import Verif.Sync.Spec

/-!
# What the functions of the header synchronization do
-/

set_option autoImplicit false

namespace Verif.Sync
open Verif.Chain (Header State Err ImportResult)

variable {cfg : Cfg} {env : Env} {m m' m'' : Mgr} {t : State} {now : Nat} {K : OnTimeout → Prop}

@[simp] theorem requests_nil (a : Nat) : requests a [] = [] := rfl

@[simp] theorem requests_append (a : Nat) (o o' : List Out) : requests a (o ++ o') = requests a o ++ requests a o' := by
  simp [requests]

/-- An output that is not a request for headers. -/
def Out.plain : Out → Bool
  | .getHeaders _ _ => false
  | _ => true

theorem requests_plain (a : Nat) {o : List Out} (h : ∀ x ∈ o, x.plain = true) : requests a o = [] := by
  unfold requests
  rw [List.filterMap_eq_nil_iff]
  intro x hx
  have := h x hx
  cases x <;> simp [Out.plain] at this ⊢

theorem mem_requests {a : Nat} {l : Locators} {o : List Out} : l ∈ requests a o ↔ Out.getHeaders a l ∈ o := by
  unfold requests
  rw [List.mem_filterMap]
  constructor
  · rintro ⟨x, hx, h⟩
    cases x <;> simp at h
    obtain ⟨rfl, rfl⟩ := h
    exact hx
  · intro h
    exact ⟨_, h, by simp⟩

/-- `m'` follows from `m` by requests for headers (with what to do when they time out as in `K`) and other outputs; `o` are the outputs. -/
structure Asks (now : Nat) (K : OnTimeout → Prop) (m m' : Mgr) (o : List Out) : Prop where
  out : m'.out = m.out ++ o
  each : ∀ a, (requests a o = [] ∧ m'.peers.get a = m.peers.get a ∧ m'.inflight.get a = m.inflight.get a) ∨
    ∃ l p k, requests a o = [l] ∧ m.peers.get a = some p ∧ m.inflight.get a = none ∧
      m'.peers.get a = some { p with lastAsked := some l } ∧ m'.inflight.get a = some ⟨l, now, k⟩ ∧ K k
  nodup : m.peers.keys.Nodup → m'.peers.keys.Nodup
  nodup' : m.inflight.keys.Nodup → m'.inflight.keys.Nodup
  upd : m'.lastTipUpdate = m.lastTipUpdate

theorem Asks.refl : Asks now K m m [] := ⟨by simp, fun _ => .inl ⟨rfl, rfl, rfl⟩, id, id, rfl⟩

theorem Asks.trans {o o' : List Out} (h : Asks now K m m' o) (h' : Asks now K m' m'' o') : Asks now K m m'' (o ++ o') := by
  refine ⟨by rw [h'.out, h.out, List.append_assoc], fun a => ?_, fun x => h'.nodup (h.nodup x), fun x => h'.nodup' (h.nodup' x),
    by rw [h'.upd, h.upd]⟩
  rw [requests_append]
  rcases h.each a with ⟨h1, h2, h3⟩ | ⟨l, p, k, h1, h2, h3, h4, h5, h6⟩
  · rcases h'.each a with ⟨g1, g2, g3⟩ | ⟨l, p, k, g1, g2, g3, g4, g5, g6⟩
    · exact .inl ⟨by rw [h1, g1]; rfl, by rw [g2, h2], by rw [g3, h3]⟩
    · exact .inr ⟨l, p, k, by rw [h1, g1]; rfl, by rw [← h2]; exact g2, by rw [← h3]; exact g3, g4, g5, g6⟩
  · rcases h'.each a with ⟨g1, g2, g3⟩ | ⟨l', p', k', g1, g2, g3, g4, g5, g6⟩
    · exact .inr ⟨l, p, k, by rw [h1, g1]; rfl, h2, h3, by rw [g2]; exact h4, by rw [g3]; exact h5, h6⟩
    · rw [h5] at g3
      simp at g3

theorem Asks.mono {K' : OnTimeout → Prop} {o : List Out} (h : Asks now K m m' o) (hk : ∀ k, K k → K' k) : Asks now K' m m' o := by
  refine ⟨h.out, fun a => ?_, h.nodup, h.nodup', h.upd⟩
  rcases h.each a with h1 | ⟨l, p, k, h1, h2, h3, h4, h5, h6⟩
  · exact .inl h1
  · exact .inr ⟨l, p, k, h1, h2, h3, h4, h5, hk _ h6⟩

theorem asks_plain (o : List Out) (h : ∀ x ∈ o, x.plain = true) : Asks now K m { m with out := m.out ++ o } o :=
  ⟨rfl, fun a => .inl ⟨requests_plain a h, rfl, rfl⟩, id, id, rfl⟩

theorem asks_push {x : Out} (h : x.plain = true) : Asks now K m (m.push x) [x] := asks_plain [x] (by simpa using h)

/-- Fields that play no role for requests. -/
theorem Asks.sample {o : List Out} (h : Asks now K m m' o) (v : Option Nat) : Asks now K { m with lastPeerSample := v } m' o :=
  ⟨h.out, h.each, h.nodup, h.nodup', h.upd⟩

theorem Asks.idle {o : List Out} (h : Asks now K m m' o) (v : Option Nat) : Asks now K m { m' with lastIdle := v } o :=
  ⟨h.out, h.each, h.nodup, h.nodup', h.upd⟩

/-- The outputs of a request. -/
theorem request_ok {a : Nat} {l : Locators} {k : OnTimeout} (e : m.request cfg now a l k = .ok m') (hk : K k) :
    ∃ o, Asks now K m m' o ∧
      ((o = [] ∧ m' = m ∧ (m.inflight.contains a = true ∨ m.peers.get a = none)) ∨
        (o = [.getHeaders a l, .setTimer cfg.timeout] ∧ m.inflight.get a = none ∧ m.peers.get a ≠ none)) := by
  unfold Mgr.request at e
  by_cases hc : m.inflight.contains a = true
  · rw [if_pos hc] at e
    cases e
    exact ⟨[], .refl, .inl ⟨rfl, rfl, .inl hc⟩⟩
  · rw [if_neg hc] at e
    have hn : m.inflight.get a = none := (AMap.contains_eq_false_iff _ _).1 (by simpa using hc)
    cases hp : m.peers.get a with
    | none =>
      simp only [hp] at e
      cases e
      exact ⟨[], .refl, .inl ⟨rfl, rfl, .inr rfl⟩⟩
    | some p =>
      simp only [hp] at e
      split at e
      · simp at e
      · cases e
        refine ⟨_, ⟨rfl, fun b => ?_, fun h => AMap.nodup_insert h _ _, fun h => AMap.nodup_insert h _ _, rfl⟩, .inr ⟨rfl, hn, by simp⟩⟩
        by_cases hb : b = a
        · subst hb
          exact .inr ⟨l, p, k, by simp [requests], hp, hn, by rw [AMap.get_insert_self], by rw [AMap.get_insert_self], hk⟩
        · refine .inl ⟨by simp [requests, Ne.symm hb], ?_, ?_⟩
          · simp only; rw [AMap.get_insert_ne _ _ (Ne.symm hb)]
          · simp only; rw [AMap.get_insert_ne _ _ (Ne.symm hb)]


/-! ### Heights -/

theorem foldl_best (l : AMap Nat Peer) : ∀ (b : Option Nat),
    (∀ n, l.foldl (fun b p => match b with | none => some p.2.height | some n => some (max n p.2.height)) b = some n →
      (∀ x, b = some x → x ≤ n) ∧ (∀ p ∈ l, p.2.height ≤ n) ∧ (b = some n ∨ ∃ p ∈ l, p.2.height = n)) ∧
    (l.foldl (fun b p => match b with | none => some p.2.height | some n => some (max n p.2.height)) b = none → b = none ∧ l = []) := by
  induction l with
  | nil =>
    intro b
    refine ⟨fun n h => ?_, fun h => ⟨h, rfl⟩⟩
    simp only [List.foldl_nil] at h
    subst h
    exact ⟨fun x hx => by simp at hx; omega, by simp, .inl rfl⟩
  | cons p l ih =>
    intro b
    simp only [List.foldl_cons]
    cases b with
    | none =>
      obtain ⟨h1, h2⟩ := ih (some p.2.height)
      refine ⟨fun n h => ?_, fun h => by simpa using (h2 h).1⟩
      obtain ⟨g1, g2, g3⟩ := h1 n h
      refine ⟨by simp, ?_, ?_⟩
      · intro q hq
        rcases List.mem_cons.1 hq with rfl | hq
        · exact g1 _ rfl
        · exact g2 q hq
      · rcases g3 with g3 | ⟨q, hq, g3⟩
        · exact .inr ⟨p, by simp, by simpa using g3⟩
        · exact .inr ⟨q, by simp [hq], g3⟩
    | some x =>
      obtain ⟨h1, h2⟩ := ih (some (max x p.2.height))
      refine ⟨fun n h => ?_, fun h => by simpa using (h2 h).1⟩
      obtain ⟨g1, g2, g3⟩ := h1 n h
      have g1 := g1 _ rfl
      refine ⟨fun y hy => ?_, ?_, ?_⟩
      · simp at hy; omega
      · intro q hq
        rcases List.mem_cons.1 hq with rfl | hq
        · omega
        · exact g2 q hq
      · rcases g3 with g3 | ⟨q, hq, g3⟩
        · simp only [Option.some.injEq] at g3
          by_cases hx : x ≤ p.2.height
          · exact .inr ⟨p, by simp, by omega⟩
          · exact .inl (by simp; omega)
        · exact .inr ⟨q, by simp [hq], g3⟩

theorem bestHeight_le {n : Nat} (h : m.bestHeight = some n) {a : Nat} {p : Peer} (hp : m.peers.get a = some p) : p.height ≤ n :=
  ((foldl_best m.peers none).1 n h).2.1 (a, p) (AMap.mem_of_get hp)

theorem bestHeight_attained (hn : m.peers.keys.Nodup) {n : Nat} (h : m.bestHeight = some n) :
    ∃ a p, m.peers.get a = some p ∧ p.height = n := by
  rcases ((foldl_best m.peers none).1 n h).2.2 with h | ⟨p, hp, h⟩
  · simp at h
  · exact ⟨p.1, p.2, AMap.get_of_mem hn hp, h⟩

theorem bestHeight_none (h : m.bestHeight = none) : m.peers = [] := ((foldl_best m.peers none).2 h).2

/-! ### Requests -/

/-- The tip is not stale and no peer is known to have a longer chain. -/
structure InSync (cfg : Cfg) (m : Mgr) (t : State) (now : Nat) : Prop where
  stale : m.staleTip cfg t now = .ok false
  best : ∀ a p, m.peers.get a = some p → p.height ≤ t.height
  some : m.peers ≠ []

/-- A peer is known to have a longer chain, or the tip is stale. -/
def OutOfSync (cfg : Cfg) (m : Mgr) (t : State) (now : Nat) : Prop :=
  m.peers.keys.Nodup → (∃ a p, m.peers.get a = some p ∧ t.height < p.height) ∨ m.staleTip cfg t now = .ok true

/-- The outputs of `sync`. -/
def SyncOut (cfg : Cfg) (m : Mgr) (t : State) (now : Nat) : Out → Prop
  | .getHeaders _ l => (∃ hashes, Chain.locatorHashes cfg.chain t t.height = .ok hashes ∧ l = (hashes, zeros)) ∧ OutOfSync cfg m t now
  | .setTimer d => d = cfg.timeout
  | .synced hash n => hash = (t.tip cfg.chain).1 ∧ n = t.height ∧ InSync cfg m t now
  | _ => False

theorem isSynced_ok {b : Bool} (e : m.isSynced cfg t now = .ok b) : b = true → InSync cfg m t now := by
  rintro rfl
  unfold Mgr.isSynced at e
  rw [Res.bind_eq_ok] at e
  obtain ⟨st, e1, e2⟩ := e
  cases st with
  | true => simp at e2
  | false =>
    simp only [Bool.false_eq_true, ite_false] at e2
    cases hb : m.bestHeight with
    | none => simp [hb] at e2
    | some n =>
      simp only [hb, Res.ok.injEq, decide_eq_true_eq] at e2
      refine ⟨e1, fun a p hp => ?_, ?_⟩
      · have := bestHeight_le hb hp; omega
      · intro h
        rw [Mgr.bestHeight, h] at hb
        simp at hb

theorem startSync_ok {r : Mgr × Bool} (e : m.startSync cfg env t now = .ok r) :
    ∃ o, Asks now (· = .ignore) m r.1 o ∧ ∀ x ∈ o, SyncOut cfg m t now x := by
  unfold Mgr.startSync at e
  rw [Res.bind_eq_ok] at e
  obtain ⟨hashes, e1, e2⟩ := e
  split at e2
  · cases e2; exact ⟨[], .refl, by simp⟩
  · split at e2
    · cases e2; exact ⟨[], .refl, by simp⟩
    · split at e2
      · rename_i hbest
        rw [Res.bind_eq_ok] at e2
        obtain ⟨m1, e3, e4⟩ := e2
        cases e4
        obtain ⟨o, h1, h2⟩ := request_ok (K := (· = .ignore)) e3 rfl
        refine ⟨o, h1, fun x hx => ?_⟩
        rcases h2 with ⟨rfl, -⟩ | ⟨rfl, -⟩
        · simp at hx
        · simp only [List.mem_cons, List.not_mem_nil, or_false] at hx
          rcases hx with rfl | rfl
          · refine ⟨⟨hashes, e1, rfl⟩, fun hn => .inl ?_⟩
            cases hb : m.bestHeight with
            | none => rw [hb] at hbest; simp at hbest
            | some n =>
              obtain ⟨a, p, h3, h4⟩ := bestHeight_attained hn hb
              rw [hb] at hbest
              exact ⟨a, p, h3, by simpa [h4] using hbest⟩
          · rfl
      · cases e2; exact ⟨[], .refl, by simp⟩

theorem sync_ok {r : Mgr × Bool} (e : m.sync cfg env t now = .ok r) :
    ∃ o, Asks now (· = .ignore) m r.1 o ∧ ∀ x ∈ o, SyncOut cfg m t now x := by
  unfold Mgr.sync at e
  split at e
  · cases e; exact ⟨[], .refl, by simp⟩
  · rw [Res.bind_eq_ok] at e
    obtain ⟨b, e1, e2⟩ := e
    cases b with
    | true =>
      simp only [if_true] at e2
      cases e2
      refine ⟨_, asks_push rfl, fun x hx => ?_⟩
      rw [List.mem_singleton] at hx
      subst hx
      exact ⟨rfl, rfl, isSynced_ok e1 rfl⟩
    | false =>
      simp only [Bool.false_eq_true, if_false] at e2
      exact startSync_ok e2

theorem requestAll_ok {l : Locators} : ∀ (as : List Nat) {m m' : Mgr}, Mgr.requestAll cfg now l as m = .ok m' →
    ∃ o, Asks now (· = .ignore) m m' o ∧ ∀ x ∈ o, (∃ a ∈ as, x = .getHeaders a l) ∨ x = .setTimer cfg.timeout
  | [], m, m', e => by
    simp only [Mgr.requestAll, Res.ok.injEq] at e
    subst e
    exact ⟨[], .refl, by simp⟩
  | a :: as, m, m', e => by
    simp only [Mgr.requestAll] at e
    rw [Res.bind_eq_ok] at e
    obtain ⟨m1, e1, e2⟩ := e
    obtain ⟨o, h1, h2⟩ := request_ok (K := (· = .ignore)) e1 rfl
    obtain ⟨o', h3, h4⟩ := requestAll_ok as e2
    refine ⟨o ++ o', h1.trans h3, fun x hx => ?_⟩
    rcases List.mem_append.1 hx with hx | hx
    · rcases h2 with ⟨rfl, -⟩ | ⟨rfl, -⟩
      · simp at hx
      · simp only [List.mem_cons, List.not_mem_nil, or_false] at hx
        rcases hx with rfl | rfl
        · exact .inl ⟨a, by simp, rfl⟩
        · exact .inr rfl
    · rcases h4 x hx with ⟨b, hb, h⟩ | h
      · exact .inl ⟨b, by simp [hb], h⟩
      · exact .inr h

theorem samplePeers_ok (e : m.samplePeers cfg env t now = .ok m') :
    ∃ o, Asks now (· = .ignore) m m' o ∧ ∀ x ∈ o, SyncOut cfg m t now x := by
  unfold Mgr.samplePeers at e
  split at e
  · cases e; exact ⟨[], .refl, by simp⟩
  · rw [Res.bind_eq_ok] at e
    obtain ⟨b, e1, e2⟩ := e
    split at e2
    · cases e2; exact ⟨[], .refl, by simp⟩
    · rename_i hb
      rw [Res.bind_eq_ok] at e2
      obtain ⟨hashes, e3, e4⟩ := e2
      obtain ⟨o, h1, h2⟩ := requestAll_ok _ e4
      refine ⟨o, h1.sample m.lastPeerSample, fun x hx => ?_⟩
      rcases h2 x hx with ⟨a, -, rfl⟩ | rfl
      · refine ⟨⟨hashes, e3, rfl⟩, fun _ => .inr ?_⟩
        cases b with
        | false => simp at hb
        | true => exact e1
      · rfl

/-- Nothing that matters for being in sync changes by requests. -/
theorem Asks.inSync {o : List Out} (h : Asks now K m m' o) (hs : InSync cfg m' t now) : InSync cfg m t now := by
  refine ⟨?_, fun a p hp => ?_, ?_⟩
  · have := hs.stale
    unfold Mgr.staleTip Mgr.updatedLongAgo at this ⊢
    rw [h.upd] at this
    exact this
  · rcases h.each a with ⟨-, h2, -⟩ | ⟨l, q, k, -, h2, -, h4, -⟩
    · exact hs.best a p (by rw [h2]; exact hp)
    · have := hs.best a _ h4
      rw [h2] at hp
      cases hp
      exact this
  · intro hn
    cases hp : m'.peers with
    | nil => exact hs.some hp
    | cons q l =>
      have h1 : m'.peers.get q.1 ≠ none := by
        rw [Ne, AMap.get_eq_none_iff, hp]; simp [AMap.keys]
      rcases h.each q.1 with ⟨-, h2, -⟩ | ⟨l, q', k, -, h2, -⟩
      · rw [h2, hn] at h1; simp at h1
      · rw [hn] at h2; simp at h2

theorem Asks.outOfSync {o : List Out} (h : Asks now K m m' o) (hs : OutOfSync cfg m' t now) : OutOfSync cfg m t now := by
  intro hn
  rcases hs (h.nodup hn) with ⟨a, p, h1, h2⟩ | h1
  · left
    rcases h.each a with ⟨-, g2, -⟩ | ⟨l, q, k, -, g2, -, g4, -⟩
    · exact ⟨a, p, by rw [← g2]; exact h1, h2⟩
    · rw [g4] at h1
      cases h1
      exact ⟨a, q, g2, h2⟩
  · right
    unfold Mgr.staleTip Mgr.updatedLongAgo at h1 ⊢
    rw [h.upd] at h1
    exact h1

theorem syncOut_mono {o : List Out} (h : Asks now K m m' o) {x : Out} (hx : SyncOut cfg m' t now x) : SyncOut cfg m t now x := by
  cases x <;> simp only [SyncOut] at hx ⊢ <;> try exact hx
  · exact ⟨hx.1, h.outOfSync hx.2⟩
  · exact ⟨hx.1, hx.2.1, h.inSync hx.2.2⟩

theorem syncOrSample_ok (e : m.syncOrSample cfg env t now = .ok m') :
    ∃ o, Asks now (· = .ignore) m m' o ∧ ∀ x ∈ o, SyncOut cfg m t now x := by
  unfold Mgr.syncOrSample at e
  rw [Res.bind_eq_ok] at e
  obtain ⟨r, e1, e2⟩ := e
  obtain ⟨o, h1, h2⟩ := sync_ok e1
  split at e2
  · cases e2; exact ⟨o, h1, h2⟩
  · obtain ⟨o', h3, h4⟩ := samplePeers_ok e2
    refine ⟨o ++ o', h1.trans h3, fun x hx => ?_⟩
    rcases List.mem_append.1 hx with hx | hx
    · exact h2 x hx
    · exact syncOut_mono h1 (h4 x hx)

/-- The outputs of `idle`: as those of `sync`, and a timer. -/
def IdleOut (cfg : Cfg) (m : Mgr) (t : State) (now : Nat) (x : Out) : Prop := SyncOut cfg m t now x ∨ x = .setTimer idleTimeout

theorem idle_ok (e : m.idle cfg env t now = .ok m') :
    ∃ o, Asks now (· = .ignore) m m' o ∧ ∀ x ∈ o, IdleOut cfg m t now x := by
  unfold Mgr.idle at e
  split at e
  · rw [Res.bind_eq_ok] at e
    obtain ⟨m1, e1, e2⟩ := e
    cases e2
    obtain ⟨o, h1, h2⟩ := syncOrSample_ok e1
    refine ⟨o ++ _, (h1.idle (Option.some now)).trans (asks_push (x := .setTimer idleTimeout) rfl), fun x hx => ?_⟩
    rcases List.mem_append.1 hx with hx | hx
    · exact .inl (h2 x hx)
    · exact .inr (by simpa using hx)
  · cases e; exact ⟨[], .refl, by simp⟩

end Verif.Sync
