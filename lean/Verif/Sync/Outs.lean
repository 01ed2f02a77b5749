import Verif.Sync.Invariant

/-!
# Where outputs come from
-/

set_option autoImplicit false

namespace Verif.Sync
open Verif.Chain (Header State Err ImportResult)

variable {cfg : Cfg} {U : Header → Prop} {fail : Bool} {P : State → Op → Prop} {t0 : State}
variable {env : Env} {m m' m'' : Mgr} {t t' : State} {now : Nat} {h : Hist} {K : OnTimeout → Prop}

/-- Where an output comes from: `h` is the history before the operation, `outs` the outputs, `t` and `t'` the trees before and after. -/
def Out.From (cfg : Cfg) (h : Hist) (op : Op) (outs : List Out) (t t' : State) : Out → Prop
  | .getHeaders b l => Requested cfg h op outs t t' b l
  | .headers a hs =>
    (∃ l, op = .getheaders a l ∧ Chain.locateHeaders t l.1 l.2 cfg.maxHeaders = .ok hs ∧ hs ≠ [] ∧ 0 < cfg.maxHeaders ∧
      (∀ b, awaiting cfg b h = none)) ∨
    (∃ hash n rv cn best k i, Changed cfg t op t' hash n rv cn ∧ t'.getBlock hash = some (k, best) ∧ hs = [best] ∧
      Sync.connected a h = some i ∧ i.outbound = false ∧ i.height < k)
  | .setTimer _ => True
  | .disconnect a => ∃ env now s, op = .timer env now ∧ awaiting cfg a h = some s ∧ cfg.timeout ≤ now - s.time ∧
      (s.cause = .continued ∨ s.cause = .timer)
  | .peerHeight n => ∃ env now a network filters outbound, op = .negotiated env now a n network filters outbound ∧
      ((∀ b, Sync.connected b h = none) → t.height < n) ∧ ∀ b i, Sync.connected b h = some i → i.height < n
  | .connected n x => ∃ hash k rv cn, Changed cfg t op t' hash k rv cn ∧ (n, x) ∈ cn
  | .disconnected n x => ∃ hash k rv cn, Changed cfg t op t' hash k rv cn ∧ (n, x) ∈ rv
  | .imported reorg hash n cn rv => Changed cfg t op t' hash n rv cn ∧ reorg = !rv.isEmpty
  | .synced hash n => hash = (t'.tip cfg.chain).1 ∧ n = t'.height ∧ Recent cfg ((op, outs) :: h) t' op.time ∧
      (∀ a i, Sync.connected a ((op, outs) :: h) = some i → i.height ≤ n) ∧ ∃ a i, Sync.connected a ((op, outs) :: h) = some i
  | .misbehaved a => ∃ env now hs, op = .headers env now a hs ∧ 2000 < hs.length
  | .error => False

theorem Asks.inSync' {o : List Out} (ha : Asks now K m m' o) (hs : InSync cfg m t now) : InSync cfg m' t now := by
  refine ⟨?_, fun a p hp => ?_, ?_⟩
  · have := hs.stale
    unfold Mgr.staleTip Mgr.updatedLongAgo at this ⊢
    rw [ha.upd]
    exact this
  · rcases ha.each a with ⟨-, h2, -⟩ | ⟨l, q, k, -, h2, -, h4, -⟩
    · exact hs.best a p (by rw [← h2]; exact hp)
    · rw [h4] at hp
      cases hp
      exact hs.best a q h2
  · intro hn
    cases hp : m.peers with
    | nil => exact hs.some hp
    | cons q l =>
      have h1 : m.peers.get q.1 ≠ none := by
        rw [Ne, AMap.get_eq_none_iff, hp]; simp [AMap.keys]
      rcases ha.each q.1 with ⟨-, h2, -⟩ | ⟨l, q', k, -, -, -, h2, -⟩
      · rw [← h2, hn] at h1; simp at h1
      · rw [hn] at h2; simp at h2

theorem subTime_le {checked : Bool} {t d n : Nat} (h : subTime checked t d = .ok n) : t ≤ n + d := by
  unfold subTime at h
  split at h
  · cases h; omega
  · split at h
    · simp at h
    · cases h
      have : t + 2 ^ 128 - d + d ≥ t := by omega
      exact this

theorem staleTip_false (e : m.staleTip cfg t now = .ok false) :
    now < (t.tip cfg.chain).2.time * 1000 + tipStaleDuration ∧ ∀ u, m.lastTipUpdate = some u → now ≤ u + cfg.chain.spacing * 3 * 1000 := by
  unfold Mgr.staleTip at e
  rw [Res.bind_eq_ok] at e
  obtain ⟨b, e1, e2⟩ := e
  cases b with
  | true => simp at e2
  | false =>
    simp only [Bool.false_eq_true, if_false] at e2
    rw [Res.bind_eq_ok] at e2
    obtain ⟨limit, e3, e4⟩ := e2
    simp only [Res.ok.injEq, decide_eq_false_iff_not, Nat.not_le] at e4
    have := subTime_le e3
    refine ⟨by omega, fun u hu => ?_⟩
    unfold Mgr.updatedLongAgo at e1
    simp only [hu] at e1
    rw [Res.bind_eq_ok] at e1
    obtain ⟨l', e5, e6⟩ := e1
    simp only [Res.ok.injEq, decide_eq_false_iff_not, Nat.not_lt] at e6
    have := subTime_le e5
    omega

theorem inv_peer (i : Inv cfg h m) {a : Nat} {x : Info} (hc : connected a h = some x) : ∃ p, m.peers.get a = some p ∧ p.info = x := by
  have := i.conn a
  rw [hc, Option.map_eq_some_iff] at this
  exact this

theorem inv_connected (i : Inv cfg h m) {a : Nat} {p : Peer} (hp : m.peers.get a = some p) : connected a h = some p.info := by
  rw [← i.conn a, hp]; rfl

theorem inSync_spec (i : Inv cfg h m) (hs : InSync cfg m t now) : Recent cfg h t now ∧ (∀ a x, connected a h = some x → x.height ≤ t.height) ∧
    ∃ a x, connected a h = some x := by
  obtain ⟨h1, h2⟩ := staleTip_false hs.stale
  refine ⟨⟨h1, fun u hu => h2 u (by rw [i.upd]; exact hu)⟩, fun a x hx => ?_, ?_⟩
  · obtain ⟨p, hp, rfl⟩ := inv_peer i hx
    exact hs.best a p hp
  · cases hp : m.peers with
    | nil => exact absurd hp hs.some
    | cons q l =>
      have h1 : m.peers.get q.1 ≠ none := by
        rw [Ne, AMap.get_eq_none_iff, hp]; simp [AMap.keys]
      cases hq : m.peers.get q.1 with
      | none => exact absurd hq h1
      | some p => exact ⟨q.1, p.info, inv_connected i hq⟩

theorem outOfSync_spec (i : Inv cfg h m) (hs : OutOfSync cfg m t now) : Behind h t ∨ Stale cfg h t now := by
  rcases hs i.nodup with ⟨a, p, h1, h2⟩ | h1
  · exact .inl ⟨a, p.info, inv_connected i h1, h2⟩
  · right
    by_cases k1 : now < 7200000
    · exact .inr (.inl k1)
    by_cases k2 : now < cfg.chain.spacing * 3 * 1000
    · exact .inr (.inr k2)
    refine .inl fun hr => ?_
    unfold Mgr.staleTip at h1
    rw [Res.bind_eq_ok] at h1
    obtain ⟨b, e1, e2⟩ := h1
    have hu : b = false := by
      unfold Mgr.updatedLongAgo at e1
      cases hq : m.lastTipUpdate with
      | none => simp only [hq] at e1; cases e1; rfl
      | some u =>
        simp only [hq, subTime] at e1
        rw [if_pos (by omega), Res.ok_bind] at e1
        have := hr.update u (by rw [← i.upd]; exact hq)
        simp only [Res.ok.injEq] at e1
        rw [← e1, decide_eq_false_iff_not]
        omega
    subst hu
    simp only [Bool.false_eq_true, if_false, subTime] at e2
    have hd : tipStaleDuration = 7200000 := rfl
    rw [hd, if_pos (by omega), Res.ok_bind] at e2
    simp only [Res.ok.injEq, decide_eq_true_eq] at e2
    have := hr.tip
    omega

theorem Asks.outOfSync' {o : List Out} (ha : Asks now K m m' o) (hn : m.peers.keys.Nodup) (hs : OutOfSync cfg m t now) : OutOfSync cfg m' t now := by
  intro _
  rcases hs hn with ⟨a, p, h1, h2⟩ | h1
  · left
    rcases ha.each a with ⟨-, g2, -⟩ | ⟨l, q, k, -, g2, -, g4, -⟩
    · exact ⟨a, p, by rw [g2]; exact h1, h2⟩
    · rw [g2] at h1
      cases h1
      exact ⟨a, _, g4, h2⟩
  · right
    unfold Mgr.staleTip Mgr.updatedLongAgo at h1 ⊢
    rw [ha.upd]
    exact h1

/-- Outputs of `sync` on a state that differs from the one after the operation by requests only. -/
theorem from_sync {op : Op} {o outs : List Out} (i : Inv cfg ((op, outs) :: h) m') (hn : m.peers.keys.Nodup)
    (ha : Asks now K m m' o) (ht : op.time = now) (ho : cause op [] = .other ∨ cause op [] = .timer) {x : Out} (hx : SyncOut cfg m t' now x) : x.From cfg h op outs t t' := by
  cases x with
  | getHeaders b l =>
    obtain ⟨⟨hashes, h1, rfl⟩, h2⟩ := hx
    exact .sync (by rw [ht]; exact outOfSync_spec i (ha.outOfSync' hn h2)) h1 ho
  | setTimer d => trivial
  | synced hash n =>
    obtain ⟨h1, h2, h3⟩ := hx
    obtain ⟨k1, k2, k3⟩ := inSync_spec i (ha.inSync' h3)
    refine ⟨h1, h2, by rw [ht]; exact k1, fun a i hi => by rw [h2]; exact k2 a i hi, k3⟩
  | _ => exact hx.elim

theorem from_idle {op : Op} {o outs : List Out} (i : Inv cfg ((op, outs) :: h) m') (hn : m.peers.keys.Nodup)
    (ha : Asks now K m m' o) (ht : op.time = now) (ho : cause op [] = .other ∨ cause op [] = .timer) {x : Out} (hx : IdleOut cfg m t' now x) : x.From cfg h op outs t t' := by
  rcases hx with hx | rfl
  · exact from_sync i hn ha ht ho hx
  · trivial

/-- The report about a new tip. -/
theorem from_report (hl : env.Legal) {op : Op} {outs : List Out} {hash height : Nat} {rv cn : List (Nat × Header)}
    (hc : Changed cfg t op t' hash height rv cn)
    (hm : ∀ a p, m.peers.get a = some p → ∃ i, connected a h = some i ∧ i.outbound = p.outbound ∧ i.height ≤ p.height) {x : Out}
    (hx : x ∈ announcements env m t' hash) : x.From cfg h op outs t t' := by
  obtain ⟨n, best, a, p, h1, h2, h3, h4, rfl⟩ := (mem_announcements hl).1 hx
  obtain ⟨i, g1, g2, g3⟩ := hm a p h2
  exact .inr ⟨hash, height, rv, cn, best, n, i, hc, h1, rfl, g1, by rw [g2, h3], by omega⟩

theorem from_events {op : Op} {outs : List Out} {hash height : Nat} {rv cn : List (Nat × Header)}
    (hc : Changed cfg t op t' hash height rv cn) {x : Out} (hx : x ∈ tipEvents hash height rv cn) : x.From cfg h op outs t t' := by
  unfold tipEvents at hx
  simp only [List.mem_append, List.mem_map, List.mem_singleton] at hx
  rcases hx with (⟨p, hp, rfl⟩ | ⟨p, hp, rfl⟩) | rfl
  · exact ⟨hash, height, rv, cn, hc, hp⟩
  · exact ⟨hash, height, rv, cn, hc, hp⟩
  · exact ⟨hc, rfl⟩

theorem from_tipReport (hl : env.Legal) (i : Inv cfg h m) {op : Op} {outs : List Out} {hash height : Nat} {rv cn : List (Nat × Header)}
    (hc : Changed cfg t op t' hash height rv cn) {M : Mgr} (hM : ∀ b, (M.peers.get b).map Peer.info = (m.peers.get b).map Peer.info) {x : Out}
    (hx : x ∈ tipReport env M t' hash height rv cn) : x.From cfg h op outs t t' := by
  rcases List.mem_append.1 hx with hx | hx
  · exact from_events hc hx
  · refine from_report hl hc ?_ hx
    intro a p hp
    have h1 := hM a
    rw [hp, Option.map_some] at h1
    obtain ⟨q, hq, h2⟩ := Option.map_eq_some_iff.1 h1.symm
    refine ⟨q.info, inv_connected i hq, ?_, ?_⟩
    · rw [h2]; rfl
    · rw [h2]; exact Nat.le_refl _

/-- Every output has an origin. -/
theorem step_from {op : Op} (i0 : Inv cfg h m) (l : op.Legal U fail) (e : { m with out := [] }.step cfg t op = .ok (m', t')) :
    ∀ x ∈ m'.out, x.From cfg h op m'.out t t' := by
  have i1 := (step_stepped i0 l e).inv
  have i := i0.clear
  cases op with
  | init env now =>
    simp only [Mgr.step, Res.bind_eq_ok] at e
    obtain ⟨m1, e1, e2⟩ := e
    cases e2
    obtain ⟨o, h1, h2⟩ := idle_ok e1
    intro x hx
    rw [h1.out, List.nil_append] at hx
    exact from_idle i1 i.nodup h1 rfl (.inl rfl) (h2 x hx)
  | negotiated env now a n network filters outbound =>
    simp only [Mgr.step, Res.bind_eq_ok] at e
    obtain ⟨m1, e1, e2⟩ := e
    cases e2
    unfold Mgr.negotiated at e1
    split at e1
    · cases e1; simp
    · rw [Res.bind_eq_ok] at e1
      obtain ⟨r, e3, e4⟩ := e1
      cases e4
      obtain ⟨o, h1, h2⟩ := sync_ok e3
      intro x hx
      rw [h1.out] at hx
      rcases List.mem_append.1 hx with hx | hx
      · unfold Mgr.reportHeight at hx
        split at hx
        · rename_i hgt
          simp only [Mgr.register, Mgr.push, List.nil_append, List.mem_singleton] at hx
          subst hx
          refine ⟨env, now, a, network, filters, outbound, rfl, fun hn => ?_, fun b j hj => ?_⟩
          · cases hb : ({ m with out := [] } : Mgr).bestHeight with
            | none => rw [hb] at hgt; simpa using hgt
            | some k =>
              obtain ⟨b, p, hp, -⟩ := bestHeight_attained i.nodup hb
              have := hn b
              rw [inv_connected i hp] at this
              simp at this
          · obtain ⟨p, hp, rfl⟩ := inv_peer i hj
            cases hb : ({ m with out := [] } : Mgr).bestHeight with
            | none =>
              have := bestHeight_none hb
              rw [this] at hp; simp at hp
            | some k =>
              rw [hb] at hgt
              have := bestHeight_le hb hp
              simp only [Option.getD_some] at hgt
              show p.height < n
              omega
        · simp [Mgr.register] at hx
      · refine from_sync i1 ?_ h1 rfl (.inl rfl) (h2 x hx)
        unfold Mgr.reportHeight
        split <;> exact AMap.nodup_insert i.nodup _ _
  | gone a =>
    simp only [Mgr.step, Res.ok.injEq, Prod.mk.injEq] at e
    obtain ⟨rfl, rfl⟩ := e
    simp [Mgr.unregister]
  | headers env now a hs =>
    have hlegal : env.Legal := l.1
    cases headers_ok e with
    | misbehaved hlen =>
      intro x hx
      simp only [Mgr.push, List.nil_append, List.mem_singleton] at hx
      subst hx
      exact ⟨env, now, hs, rfl, hlen⟩
    | ignored => simp
    | known => simp [Mgr.heard]
    | aborted => simp [Mgr.heard]
    | unchanged hlen hi hp hr hf hl e1 =>
      obtain ⟨o, h1, h2⟩ := request_ok (K := (· = .ignore)) e1 rfl
      intro x hx
      rw [h1.out] at hx
      simp only [Mgr.heard, List.nil_append] at hx
      rcases h2 with ⟨rfl, -⟩ | ⟨rfl, -⟩
      · simp at hx
      · simp only [List.mem_cons, List.not_mem_nil, or_false] at hx
        rcases hx with rfl | rfl
        · exact .fork rfl hf (by rw [← hr]) hl
        · trivial
    | @changed p r header hash height rv cn hlen hi hp hr e1 =>
      obtain ⟨o, h1, h2⟩ := sync_ok e1
      have hc : Changed cfg t (.headers env now a hs) (Chain.importBlocks cfg.chain t hs).1 hash height rv cn := ⟨header, by rw [← hr]; rfl⟩
      intro x hx
      rw [h1.out, broadcastTip_eq] at hx
      simp only [(updated_fields (env := env)).2.1] at hx
      simp only [Mgr.heard, List.nil_append, List.mem_append] at hx
      rcases hx with (hx | hx) | hx
      · exact from_tipReport hlegal i hc (M := Mgr.heard { m with out := [] } now a p) (fun b => (heard_info hp b).1) hx
      · refine from_report hlegal hc ?_ hx
        intro b q hq
        obtain ⟨q', k1, k2, k3⟩ := updated_get (m := Mgr.heard { m with out := [] } now a p) (env := env) (t := (Chain.importBlocks cfg.chain t hs).1)
          (now := now) (a := a) (hash := hash) (height := height) (r := rv) (c := cn) (p := { p with lastActive := some now }) (by rw [heard_get]; simp) b
        rw [Mgr.heard] at k1
        rw [k1] at hq
        by_cases hb : a = b
        · subst hb
          simp only [if_true, Option.some.injEq] at hq
          subst hq
          refine ⟨p.info, inv_connected i hp, ?_, ?_⟩
          · have := congrArg Info.outbound k2
            exact this.symm
          · have : q'.height = max p.height height := congrArg Info.height k2
            show p.height ≤ q'.height
            omega
        · simp only [hb, if_false] at hq
          rw [AMap.get_insert, if_neg hb] at hq
          exact ⟨q.info, inv_connected i hq, rfl, Nat.le_refl _⟩
      · refine from_sync i1 ?_ h1 rfl (.inl (by simp [cause])) (h2 x hx)
        rw [broadcastTip_eq]
        exact (updated_fields (env := env) (now := now)).2.2.2 (AMap.nodup_insert i.nodup _ _)
    | @full p m' header hash height rv cn hlen hi hp hr e1 =>
      obtain ⟨o, h1, h2⟩ := request_ok (K := (· = .disconnect)) e1 rfl
      have hc : Changed cfg t (.headers env now a hs) (Chain.importBlocks cfg.chain t hs).1 hash height rv cn := ⟨header, by rw [← hr]; rfl⟩
      intro x hx
      rw [h1.out] at hx
      simp only [(updated_fields (env := env)).2.1] at hx
      simp only [Mgr.heard, List.nil_append, List.mem_append] at hx
      rcases hx with hx | hx
      · exact from_tipReport hlegal i hc (M := Mgr.heard { m with out := [] } now a p) (fun b => (heard_info hp b).1) hx
      · rcases h2 with ⟨rfl, -⟩ | ⟨rfl, -⟩
        · simp at hx
        · simp only [List.mem_cons, List.not_mem_nil, or_false] at hx
          rcases hx with rfl | rfl
          · exact .more rfl hlen hc
          · trivial
  | getheaders a lc =>
    simp only [Mgr.step, Res.bind_eq_ok] at e
    obtain ⟨m1, e1, e2⟩ := e
    cases e2
    unfold Mgr.getheaders at e1
    split at e1
    · cases e1; simp
    · rename_i hs0
      rw [Res.bind_eq_ok] at e1
      obtain ⟨hs, e3, e4⟩ := e1
      split at e4
      · cases e4; simp
      · rename_i hne
        cases e4
        intro x hx
        simp only [Mgr.push, List.nil_append, List.mem_singleton] at hx
        subst hx
        simp only [Bool.or_eq_true, not_or, decide_eq_true_eq, Mgr.isSyncing] at hs0
        refine .inl ⟨lc, rfl, e3, by simpa using hne, Nat.pos_of_ne_zero hs0.2, fun b => ?_⟩
        rw [← (i.wait b).none_iff]
        have : m.inflight = [] := by simpa using hs0.1
        simp [this]
  | inv now a items =>
    simp only [Mgr.step, Res.bind_eq_ok] at e
    obtain ⟨m1, e1, e2⟩ := e
    cases e2
    unfold Mgr.inv at e1
    split at e1
    · cases e1; simp
    · split at e1
      · cases e1; simp
      · split at e1
        · cases e1; simp
        · simp only at e1
          split at e1
          · cases e1; simp
          · rename_i stop hstop
            rw [Res.bind_eq_ok] at e1
            obtain ⟨hashes, e3, e4⟩ := e1
            obtain ⟨o, h1, h2⟩ := request_ok (K := (· = .retry 3)) e4 rfl
            intro x hx
            rw [h1.out, List.nil_append] at hx
            rcases h2 with ⟨rfl, -⟩ | ⟨rfl, -⟩
            · simp at hx
            · simp only [List.mem_cons, List.not_mem_nil, or_false] at hx
              rcases hx with rfl | rfl
              · exact .announced rfl hstop rfl e3
              · trivial
  | timer env now =>
    simp only [Mgr.step, Res.bind_eq_ok] at e
    obtain ⟨m1, e1, e2⟩ := e
    cases e2
    obtain ⟨o, h1, m2, b, o1, o2, -, rfl, g1, -, g2, -, -, -, g6, g7, -⟩ := timer_ok l.1 i e1
    intro x hx
    rw [h1.out] at hx
    simp only [Mgr.without, List.nil_append, List.mem_append] at hx
    have waited : ∀ a r, (a, r) ∈ Mgr.timedOut cfg env { m with out := [] } now → ∃ s, awaiting cfg a h = some s ∧ cfg.timeout ≤ now - s.time ∧
        s.locators = r.locators ∧ KindOk s.cause r.onTimeout := by
      intro a r hr
      obtain ⟨k1, k2⟩ := (mem_timedOut l.1).1 hr
      have := i.wait a
      rw [k1] at this
      cases hw : awaiting cfg a h with
      | none => rw [hw] at this; exact this.elim
      | some s =>
        rw [hw] at this
        exact ⟨s, rfl, by rw [← this.1]; exact k2, this.2.1.symm, this.2.2⟩
    rcases hx with hx | hx
    · rcases g2 x hx with ⟨a, r, hr, rfl, hk⟩ | ⟨a, r, n, b, hr, hk, hb, rfl⟩ | rfl
      · obtain ⟨s, k1, k2, k3, k4⟩ := waited a r hr
        refine ⟨env, now, s, rfl, k1, k2, ?_⟩
        cases hc : s.cause with
        | continued => exact .inl rfl
        | timer => exact .inr rfl
        | announced =>
          rw [hc] at k4
          simp only [KindOk] at k4
          rw [k4] at hk; simp at hk
        | other =>
          rw [hc] at k4
          simp only [KindOk] at k4
          rw [k4] at hk; simp at hk
      · obtain ⟨s, k1, k2, k3, k4⟩ := waited a r hr
        rw [← k3]
        refine .retry rfl k1 k2 ?_ hb
        rw [hk] at k4
        cases hc : s.cause with
        | continued => rw [hc] at k4; simp [KindOk] at k4
        | timer => exact .inr rfl
        | announced => exact .inl rfl
        | other => rw [hc] at k4; simp [KindOk] at k4
      · trivial
    · exact from_idle i1 (g1.nodup i.nodup) g6 rfl (.inr rfl) (g7 x hx)
  | userImport env hs =>
    simp only [Mgr.step, Mgr.userImport] at e
    split at e
    · simp at e
    · rename_i hne
      simp only [Res.ok.injEq, Prod.mk.injEq] at e
      obtain ⟨rfl, rfl⟩ := e
      cases hr : (Chain.importBlocks cfg.chain t hs).2 with
      | panic => exact absurd hr hne
      | err er => simp [Mgr.report]
      | ok ir =>
        cases ir with
        | tipUnchanged => simp [Mgr.report]
        | tipChanged header hash height rv cn =>
          rw [report_changed]
          intro x hx
          simp only [List.nil_append] at hx
          exact from_tipReport l.1 i (hash := hash) (height := height) (rv := rv) (cn := cn) ⟨header, by show Chain.importBlocks cfg.chain t hs = _; rw [← hr]⟩ (M := { m with out := [] })
            (fun b => rfl) hx

end Verif.Sync
