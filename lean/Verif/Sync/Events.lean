import Verif.Sync.Outs

/-!
# Block events, progress, and the absence of panics
-/

set_option autoImplicit false

namespace Verif.Sync
open Verif.Chain (Header State Err ImportResult)

variable {cfg : Cfg} {U : Header → Prop} {fail : Bool} {P : State → Op → Prop} {t0 : State}
variable {env : Env} {m m' m'' : Mgr} {t t' : State} {now : Nat} {h : Hist} {K : OnTimeout → Prop}

/-! ### Block events -/

theorem replay_append : ∀ (o o' : List Out) (c : List (Nat × Header)), replay c (o ++ o') = (replay c o).bind (fun d => replay d o')
  | [], _, c => by simp [replay]
  | x :: o, o', c => by
    cases x <;> simp only [List.cons_append, replay, replay_append o o']
    · split <;> simp
    · split <;> simp

theorem replay_filter : ∀ (o : List Out) (c : List (Nat × Header)), replay c o = replay c (o.filter Out.isBlock)
  | [], _ => rfl
  | x :: o, c => by
    cases x <;> simp only [replay, Out.isBlock, List.filter_cons, Bool.false_eq_true, if_false, if_true] <;> rw [replay_filter o]

theorem replay_disconnect : ∀ (l c : List (Nat × Header)),
    replay (c ++ l) (l.reverse.map fun p => Out.disconnected p.1 p.2) = some c := by
  intro l
  induction l using List.reverseRecOn with
  | nil => intro c; simp [replay]
  | append_singleton l x ih =>
    intro c
    rw [List.reverse_append, List.reverse_singleton, List.singleton_append, List.map_cons, replay, ← List.append_assoc,
      List.getLast?_concat, if_pos rfl, List.dropLast_concat]
    exact ih c

theorem replay_connect : ∀ (l c : List (Nat × Header)), (∀ i x, l[i]? = some x → x.1 = c.length + i) →
    replay c (l.map fun p => Out.connected p.1 p.2) = some (c ++ l)
  | [], c, _ => by simp [replay]
  | x :: l, c, hx => by
    rw [List.map_cons, replay, if_pos (by simpa using hx 0 x rfl), replay_connect l, List.append_assoc]
    · rfl
    · intro i y hy
      have := hx (i + 1) y (by simpa using hy)
      rw [this]
      simp only [List.length_append, List.length_cons, List.length_nil]
      omega

/-- The events about a change of the active chain replay to the new chain. -/
theorem replay_tip {g : Header} {s s' : State} {n : Nat} (v' : Chain.ConsistentView cfg.chain g s') (hn : n < s'.height)
    (ht : s'.iter.take (n + 1) = s.iter.take (n + 1)) :
    replay s.iter ((s.iter.drop (n + 1)).reverse.map (fun p => Out.disconnected p.1 p.2) ++
      (s'.iter.drop (n + 1)).map (fun p => Out.connected p.1 p.2)) = some s'.iter := by
  rw [replay_append]
  have h1 := replay_disconnect (s.iter.drop (n + 1)) (s.iter.take (n + 1))
  rw [List.take_append_drop] at h1
  rw [h1, Option.bind_some, replay_connect, ← ht, List.take_append_drop]
  intro i x hx
  rw [List.getElem?_drop, v'.iter, Option.map_eq_some_iff] at hx
  obtain ⟨y, -, rfl⟩ := hx
  have hlen : n < s'.iter.length := by
    by_contra hc
    have h2 := v'.iter n
    rw [List.getElem?_eq_none (by omega)] at h2
    have := (v'.defined n).2 (by omega)
    cases hg : s'.getByHeight n with
    | none => rw [hg] at this; simp at this
    | some z => rw [hg] at h2; simp at h2
  rw [← ht, List.length_take]
  simp only
  omega

/-- The block events of the result of an import. -/
def eventsOf : Res Err ImportResult → List Out
  | .ok (.tipChanged _ _ _ rv cn) => rv.map (fun p => .disconnected p.1 p.2) ++ cn.map (fun p => .connected p.1 p.2)
  | _ => []

theorem filter_none {o : List Out} (hq : ∀ x ∈ o, x.isBlock = false) : o.filter Out.isBlock = [] := by
  rw [List.filter_eq_nil_iff]
  intro x hx; rw [hq x hx]; simp

theorem filter_tipEvents (hash height : Nat) (rv cn : List (Nat × Header)) : (tipEvents hash height rv cn).filter Out.isBlock =
    rv.map (fun p => .disconnected p.1 p.2) ++ cn.map (fun p => .connected p.1 p.2) := by
  unfold tipEvents
  rw [List.filter_append, List.filter_eq_self.2]
  · simp [Out.isBlock]
  · intro x hx
    simp only [List.mem_append, List.mem_map] at hx
    rcases hx with ⟨p, -, rfl⟩ | ⟨p, -, rfl⟩ <;> rfl

theorem announcements_noBlock (hash : Nat) : ∀ x ∈ announcements env m t hash, x.isBlock = false := by
  intro x hx
  unfold announcements at hx
  split at hx
  · simp at hx
  · rw [List.mem_filterMap] at hx
    obtain ⟨a, -, h⟩ := hx
    split at h
    · split at h
      · cases h; rfl
      · simp at h
    · simp at h

theorem syncOut_noBlock {x : Out} (hx : SyncOut cfg m t now x) : x.isBlock = false := by
  cases x <;> first | rfl | exact hx.elim

theorem step_events {op : Op} (i0 : Inv cfg h m) (l : op.Legal U fail) (e : { m with out := [] }.step cfg t op = .ok (m', t')) :
    (t' = t ∧ m'.out.filter Out.isBlock = [] ∧ ∀ x ∈ m'.out, x.isImported = false) ∨
    ∃ r, Chain.importBlocks cfg.chain t op.batch = (t', r) ∧ r ≠ .panic ∧ m'.out.filter Out.isBlock = eventsOf r := by
  have hf := step_from i0 l e
  have quiet : op.batch = [] → t' = t → (t' = t ∧ m'.out.filter Out.isBlock = [] ∧ ∀ x ∈ m'.out, x.isImported = false) := by
    intro hb ht
    have no : ∀ hash n rv cn, ¬ Changed cfg t op t' hash n rv cn := by
      rintro hash n rv cn ⟨header, hc⟩
      rw [hb] at hc
      simp [Chain.importBlocks, Chain.importLoop] at hc
    refine ⟨ht, filter_none fun x hx => ?_, fun x hx => ?_⟩
    · have h1 := hf x hx
      cases x with
      | connected n y => obtain ⟨_, _, _, _, hc, -⟩ := h1; exact (no _ _ _ _ hc).elim
      | disconnected n y => obtain ⟨_, _, _, _, hc, -⟩ := h1; exact (no _ _ _ _ hc).elim
      | _ => rfl
    · have h1 := hf x hx
      cases x with
      | imported => exact (no _ _ _ _ h1.1).elim
      | _ => rfl
  cases op with
  | gone a =>
    simp only [Mgr.step, Res.ok.injEq, Prod.mk.injEq] at e
    exact .inl (quiet rfl e.2.symm)
  | headers env now a hs =>
    have i := i0.clear
    cases headers_ok e with
    | misbehaved => exact .inl ⟨rfl, rfl, by simp [Mgr.push, Out.isImported]⟩
    | ignored => exact .inl ⟨rfl, rfl, by simp⟩
    | known => exact .inl ⟨rfl, rfl, by simp [Mgr.heard]⟩
    | aborted hlen hi hp hr => exact .inr ⟨_, rfl, by show (Chain.importBlocks cfg.chain t hs).2 ≠ _; rw [hr]; simp, by show _ = eventsOf (Chain.importBlocks cfg.chain t hs).2; rw [hr]; rfl⟩
    | unchanged hlen hi hp hr hf' hl e1 =>
      refine .inr ⟨_, rfl, by show (Chain.importBlocks cfg.chain t hs).2 ≠ _; rw [hr]; simp, ?_⟩
      show _ = eventsOf (Chain.importBlocks cfg.chain t hs).2
      rw [hr]
      obtain ⟨o, h1, h2⟩ := request_ok (K := (· = .ignore)) e1 rfl
      rw [h1.out]
      rcases h2 with ⟨rfl, -⟩ | ⟨rfl, -⟩ <;> simp [Mgr.heard, Out.isBlock, eventsOf]
    | @changed p r header hash height rv cn hlen hi hp hr e1 =>
      refine .inr ⟨_, rfl, by show (Chain.importBlocks cfg.chain t hs).2 ≠ _; rw [hr]; simp, ?_⟩
      show _ = eventsOf (Chain.importBlocks cfg.chain t hs).2
      rw [hr]
      obtain ⟨o, h1, h2⟩ := sync_ok e1
      rw [h1.out, broadcastTip_eq]
      simp only [(updated_fields (env := env)).2.1]
      simp only [Mgr.heard, List.nil_append, List.filter_append, tipReport, filter_tipEvents, filter_none (announcements_noBlock _), eventsOf,
        List.append_nil, filter_none (fun x hx => syncOut_noBlock (h2 x hx))]
    | @full p m' header hash height rv cn hlen hi hp hr e1 =>
      refine .inr ⟨_, rfl, by show (Chain.importBlocks cfg.chain t hs).2 ≠ _; rw [hr]; simp, ?_⟩
      show _ = eventsOf (Chain.importBlocks cfg.chain t hs).2
      rw [hr]
      obtain ⟨o, h1, h2⟩ := request_ok (K := (· = .disconnect)) e1 rfl
      rw [h1.out]
      simp only [(updated_fields (env := env)).2.1]
      have ho : o.filter Out.isBlock = [] := by
        rcases h2 with ⟨rfl, -⟩ | ⟨rfl, -⟩ <;> simp [Out.isBlock]
      simp only [Mgr.heard, List.nil_append, List.filter_append, tipReport, filter_tipEvents, filter_none (announcements_noBlock _), eventsOf,
        List.append_nil, ho]
  | userImport env hs =>
    simp only [Mgr.step, Mgr.userImport] at e
    split at e
    · simp at e
    · rename_i hne
      simp only [Res.ok.injEq, Prod.mk.injEq] at e
      obtain ⟨rfl, rfl⟩ := e
      refine .inr ⟨_, rfl, hne, ?_⟩
      show _ = eventsOf (Chain.importBlocks cfg.chain t hs).2
      cases hr : (Chain.importBlocks cfg.chain t hs).2 with
      | panic => rfl
      | err er => rfl
      | ok ir =>
        cases ir with
        | tipUnchanged => rfl
        | tipChanged header hash height rv cn =>
          rw [report_changed]
          simp only [List.nil_append, List.filter_append, tipReport, filter_tipEvents, filter_none (announcements_noBlock _), eventsOf, List.append_nil]
  | _ =>
    simp only [Mgr.step, Res.bind_eq_ok, Res.ok.injEq, Prod.mk.injEq] at e
    obtain ⟨m1, -, -, e2⟩ := e
    exact .inl (quiet rfl e2.symm)

/-! ### Progress -/

theorem Asks.inflight {o : List Out} (ha : Asks now K m m' o) {a : Nat} (hi : m.inflight.get a ≠ none) : m'.inflight.get a ≠ none := by
  rcases ha.each a with ⟨-, -, h3⟩ | ⟨l, p, k, -, -, h3, -⟩
  · rw [h3]; exact hi
  · exact absurd h3 hi

theorem Asks.peer {o : List Out} (ha : Asks now K m m' o) {a : Nat} {p : Peer} (hp : m.peers.get a = some p) :
    ∃ q, m'.peers.get a = some q ∧ q.info = p.info := by
  rcases ha.each a with ⟨-, h2, -⟩ | ⟨l, q, k, -, h2, -, h4, -⟩
  · exact ⟨p, by rw [h2, hp], rfl⟩
  · rw [hp] at h2
    cases h2
    exact ⟨_, h4, rfl⟩

theorem Asks.peer' {o : List Out} (ha : Asks now K m m' o) {a : Nat} {p : Peer} (hp : m'.peers.get a = some p) :
    ∃ q, m.peers.get a = some q ∧ p.info = q.info := by
  rcases ha.each a with ⟨-, h2, -⟩ | ⟨l, q, k, -, h2, -, h4, -⟩
  · exact ⟨p, by rw [← h2, hp], rfl⟩
  · rw [hp] at h4
    cases h4
    exact ⟨_, h2, rfl⟩

/-- The tip is announced when headers are imported. -/
theorem step_announces {op : Op} (i0 : Inv cfg h m) (l : op.Legal U fail) (e : { m with out := [] }.step cfg t op = .ok (m', t')) {reorg : Bool}
    {hash n : Nat} {cn rv : List (Nat × Header)} (hx : Out.imported reorg hash n cn rv ∈ m'.out) :
    ∃ (env : Env) (M : Mgr), env.Legal ∧ (∀ a, (M.peers.get a).map Peer.info = connected a h) ∧ ∀ x ∈ announcements env M t' hash, x ∈ m'.out := by
  have i := i0.clear
  obtain ⟨⟨header, hch⟩, -⟩ := step_from i0 l e _ hx
  have no : op.batch = [] → False := by
    intro hb
    rw [hb] at hch
    simp [Chain.importBlocks, Chain.importLoop] at hch
  cases op with
  | headers env now a hs =>
    have hch : Chain.importBlocks cfg.chain t hs = (t', .ok (.tipChanged header hash n rv cn)) := hch
    cases headers_ok e with
    | misbehaved => simp [Mgr.push] at hx
    | ignored => simp at hx
    | known => simp [Mgr.heard] at hx
    | aborted => simp [Mgr.heard] at hx
    | unchanged hlen hi hp hr => rw [hch] at hr; simp at hr
    | @changed p r header' hash' height' rv' cn' hlen hi hp hr e1 =>
      rw [hch] at hr
      cases hr
      obtain ⟨o, h1, h2⟩ := sync_ok e1
      refine ⟨env, Mgr.heard { m with out := [] } now a p, l.1, fun b => ?_, fun x hx => ?_⟩
      · rw [(heard_info hp b).1]; exact i.conn b
      · rw [h1.out, broadcastTip_eq]
        simp only [(updated_fields (env := env)).2.1, List.mem_append, tipReport]
        exact .inl (.inl (.inr (.inr hx)))
    | @full p m' header' hash' height' rv' cn' hlen hi hp hr e1 =>
      rw [hch] at hr
      cases hr
      obtain ⟨o, h1, h2⟩ := request_ok (K := (· = .disconnect)) e1 rfl
      refine ⟨env, Mgr.heard { m with out := [] } now a p, l.1, fun b => ?_, fun x hx => ?_⟩
      · rw [(heard_info hp b).1]; exact i.conn b
      · rw [h1.out]
        simp only [(updated_fields (env := env)).2.1, List.mem_append, tipReport]
        exact .inl (.inr (.inr hx))
  | userImport env hs =>
    have hch : Chain.importBlocks cfg.chain t hs = (t', .ok (.tipChanged header hash n rv cn)) := hch
    simp only [Mgr.step, Mgr.userImport, hch, Res.ok.injEq, Prod.mk.injEq, and_true] at e
    subst e
    refine ⟨env, { m with out := [] }, l.1, i.conn, fun x hx => ?_⟩
    rw [report_changed]
    simp only [tipReport, List.mem_append]
    exact .inr (.inr hx)
  | _ => exact (no rfl).elim

theorem request_inflight {a : Nat} {l : Locators} {k : OnTimeout} (hp : m.peers.get a ≠ none) (e : m.request cfg now a l k = .ok m') :
    m'.inflight.get a ≠ none := by
  unfold Mgr.request at e
  split at e
  · rename_i hc
    cases e
    rw [AMap.contains_iff, ← AMap.get_isSome_iff] at hc
    intro hn; rw [hn] at hc; simp at hc
  · split at e
    · contradiction
    · split at e
      · simp at e
      · cases e; simp

/-- If a peer is ahead and there is a preferred one, `sync` leaves a request outstanding. -/
theorem sync_progress (hl : env.Legal) {r : Mgr × Bool} {a b : Nat} {p q : Peer} (ha : m.peers.get a = some p) (hh : t.height < p.height)
    (hb : m.peers.get b = some q) (hq : q.preferred = true) (e : m.sync cfg env t now = .ok r) : ∃ c, r.1.inflight.get c ≠ none := by
  unfold Mgr.sync at e
  split at e
  · rename_i he
    have : m.peers = [] := by simpa using he
    rw [this] at ha; simp at ha
  · rw [Res.bind_eq_ok] at e
    obtain ⟨s, e1, e2⟩ := e
    cases s with
    | true =>
      have := (isSynced_ok e1 rfl).best a p ha
      omega
    | false =>
      simp only [Bool.false_eq_true, if_false] at e2
      unfold Mgr.startSync at e2
      rw [Res.bind_eq_ok] at e2
      obtain ⟨hashes, e3, e4⟩ := e2
      split at e4
      · rename_i hs
        cases e4
        unfold Mgr.syncing at hs
        rw [List.any_eq_true] at hs
        obtain ⟨x, hx, -⟩ := hs
        refine ⟨x.1, ?_⟩
        rw [Ne, AMap.get_eq_none_iff]
        intro hn
        exact hn (List.mem_map_of_mem hx)
      · split at e4
        · rename_i hn
          exfalso
          unfold Mgr.preferredPeer at hn
          simp only at hn
          split at hn
          · simp at hn
          · rw [List.find?_eq_none] at hn
            have hmem : b ∈ env.shuffle m.peers.keys := by
              rw [(hl.shuffle _).mem_iff, ← AMap.get_isSome_iff, hb]; rfl
            have := hn b hmem
            simp [hb, hq] at this
        · rename_i c hc
          have hpeer : m.peers.get c ≠ none := by
            unfold Mgr.preferredPeer at hc
            simp only at hc
            split at hc
            · rename_i d hd
              cases hc
              have := List.find?_some hd
              intro hn; simp [hn] at this
            · have := List.find?_some hc
              intro hn; simp [hn] at this
          have hbest : m.bestHeight.getD t.height > t.height := by
            cases hbh : m.bestHeight with
            | none => rw [bestHeight_none hbh] at ha; simp at ha
            | some n =>
              have := bestHeight_le hbh ha
              simp only [Option.getD_some]; omega
          rw [if_pos hbest, Res.bind_eq_ok] at e4
          obtain ⟨m1, e5, e6⟩ := e4
          cases e6
          exact ⟨c, request_inflight hpeer e5⟩

theorem looked_asks {o : List Out} (hq : ∀ x ∈ o, SyncOut cfg m t now x) (ht : cfg.timeout ≠ 600000) : Out.setTimer 600000 ∉ o := by
  intro hx
  have : 600000 = cfg.timeout := hq _ hx
  omega

/-- `idle` does nothing, or it looks whether we are in sync. -/
theorem idle_cases (e : m.idle cfg env t now = .ok m') :
    (now - m.lastIdle.getD 0 < idleTimeout ∧ m' = m) ∨
    (idleTimeout ≤ now - m.lastIdle.getD 0 ∧ m'.lastIdle = some now ∧ Out.setTimer 600000 ∈ m'.out ∧
      ∃ r o, m.sync cfg env t now = .ok r ∧ Asks now (· = .ignore) r.1 m' o) := by
  unfold Mgr.idle at e
  split at e
  · rename_i hi
    rw [Res.bind_eq_ok] at e
    obtain ⟨m1, e1, e2⟩ := e
    cases e2
    refine .inr ⟨hi, rfl, by simp [Mgr.push, idleTimeout], ?_⟩
    unfold Mgr.syncOrSample at e1
    rw [Res.bind_eq_ok] at e1
    obtain ⟨r, e3, e4⟩ := e1
    split at e4
    · cases e4
      exact ⟨r, _, e3, (Asks.refl.idle (Option.some now)).trans (asks_push (x := .setTimer idleTimeout) rfl)⟩
    · obtain ⟨o, h1, -⟩ := samplePeers_ok e4
      exact ⟨r, _, e3, (h1.idle (Option.some now)).trans (asks_push (x := .setTimer idleTimeout) rfl)⟩
  · cases e; exact .inl ⟨by omega, rfl⟩

theorem request_idle {a : Nat} {l : Locators} {k : OnTimeout} (e : m.request cfg now a l k = .ok m') : m'.lastIdle = m.lastIdle := by
  unfold Mgr.request at e
  split at e
  · cases e; rfl
  · split at e
    · cases e; rfl
    · split at e
      · simp at e
      · cases e; rfl

theorem sync_idle {r : Mgr × Bool} (e : m.sync cfg env t now = .ok r) : r.1.lastIdle = m.lastIdle := by
  unfold Mgr.sync at e
  split at e
  · cases e; rfl
  · rw [Res.bind_eq_ok] at e
    obtain ⟨s, e1, e2⟩ := e
    split at e2
    · cases e2; rfl
    · unfold Mgr.startSync at e2
      rw [Res.bind_eq_ok] at e2
      obtain ⟨hashes, e3, e4⟩ := e2
      split at e4
      · cases e4; rfl
      · split at e4
        · cases e4; rfl
        · split at e4
          · rw [Res.bind_eq_ok] at e4
            obtain ⟨m1, e5, e6⟩ := e4
            cases e6
            exact request_idle e5
          · cases e4; rfl

/-- The time we last looked is what the history says. -/
theorem run_looked (ht : cfg.timeout ≠ 600000) (r : Run cfg U fail P t0 h m t) : m.lastIdle = looked h := by
  induction r with
  | start => rfl
  | @step h m m' t t' op r l p e ih =>
    have i := (run_inv r).clear
    cases op with
    | init env now =>
      simp only [Mgr.step, Res.bind_eq_ok] at e
      obtain ⟨m1, e1, e2⟩ := e
      cases e2
      rw [looked]
      rcases idle_cases e1 with ⟨-, rfl⟩ | ⟨-, h2, h3, -⟩
      · simpa using ih
      · rw [if_pos h3, h2]
    | timer env now =>
      simp only [Mgr.step, Res.bind_eq_ok] at e
      obtain ⟨m1, e1, e2⟩ := e
      cases e2
      rw [looked]
      obtain ⟨o, h1, m2, b, o1, o2, -, rfl, g1, g0, g2, -, -, -, g6, -, g8⟩ := timer_ok l.1 i e1
      have hout : m2.out = o1 := by rw [g1.out]; simp [Mgr.without]
      have ho1 : Out.setTimer 600000 ∉ o1 := by
        intro hx
        rcases g2 _ hx with ⟨a, q, -, hq, -⟩ | ⟨a, q, n, b, -, -, -, hq⟩ | hq
        · simp at hq
        · simp at hq
        · simp only [Out.setTimer.injEq] at hq; omega
      have hsame : m' = m2 → m'.lastIdle = if Out.setTimer 600000 ∈ m'.out then some now else looked h := by
        rintro rfl
        rw [hout, if_neg ho1, g0]
        exact ih
      rcases g8 with ⟨-, c, e3⟩ | ⟨-, e3⟩
      · obtain ⟨o3, k1, k2⟩ := sync_ok e3
        rw [k1.out, hout, if_neg (by
          rw [List.mem_append]
          rintro (hx | hx)
          · exact ho1 hx
          · exact looked_asks k2 ht hx), sync_idle e3, g0]
        exact ih
      · rcases idle_cases e3 with ⟨-, h2⟩ | ⟨-, h2, h3, -⟩
        · exact hsame h2
        · rw [if_pos h3, h2]
    | negotiated env now a n network filters outbound =>
      simp only [Mgr.step, Res.bind_eq_ok] at e
      obtain ⟨m1, e1, e2⟩ := e
      cases e2
      show m'.lastIdle = looked h
      unfold Mgr.negotiated at e1
      split at e1
      · cases e1; exact ih
      · rw [Res.bind_eq_ok] at e1
        obtain ⟨q, e3, e4⟩ := e1
        cases e4
        rw [sync_idle e3, ← ih]
        unfold Mgr.register Mgr.reportHeight
        simp only
        split <;> rfl
    | gone a =>
      simp only [Mgr.step, Res.ok.injEq, Prod.mk.injEq] at e
      rw [← e.1]
      exact ih
    | getheaders a lc =>
      simp only [Mgr.step, Res.bind_eq_ok] at e
      obtain ⟨m1, e1, e2⟩ := e
      cases e2
      show m'.lastIdle = looked h
      unfold Mgr.getheaders at e1
      split at e1
      · cases e1; exact ih
      · rw [Res.bind_eq_ok] at e1
        obtain ⟨hs, e3, e4⟩ := e1
        split at e4 <;> cases e4 <;> exact ih
    | inv now a items =>
      simp only [Mgr.step, Res.bind_eq_ok] at e
      obtain ⟨m1, e1, e2⟩ := e
      cases e2
      show m'.lastIdle = looked h
      unfold Mgr.inv at e1
      split at e1
      · cases e1; exact ih
      · split at e1
        · cases e1; exact ih
        · split at e1
          · cases e1; exact ih
          · simp only at e1
            split at e1
            · cases e1; exact ih
            · rw [Res.bind_eq_ok] at e1
              obtain ⟨hashes, e3, e4⟩ := e1
              rw [request_idle e4]
              exact ih
    | userImport env hs =>
      simp only [Mgr.step, Mgr.userImport] at e
      split at e
      · simp at e
      · simp only [Res.ok.injEq, Prod.mk.injEq] at e
        obtain ⟨rfl, rfl⟩ := e
        show _ = looked h
        rw [← ih]
        cases hr : (Chain.importBlocks cfg.chain t hs).2 with
        | panic => rfl
        | err er => rfl
        | ok ir =>
          cases ir with
          | tipUnchanged => rfl
          | tipChanged header hash height rv cn => rw [report_changed]
    | headers env now a hs =>
      show m'.lastIdle = looked h
      have upd : ∀ {M : Mgr} {T : State} {hash height : Nat} {rv cn : List (Nat × Header)},
          (M.updated env T now a hash height rv cn).lastIdle = M.lastIdle := by
        intro M T hash height rv cn
        simp only [Mgr.updated, report_changed, Mgr.raise]
        split
        · split <;> rfl
        · rfl
      cases headers_ok e with
      | misbehaved => exact ih
      | ignored => exact ih
      | known => exact ih
      | aborted => exact ih
      | unchanged hlen hi hp hr hf hl e1 => rw [request_idle e1]; exact ih
      | changed hlen hi hp hr e1 => rw [sync_idle e1, broadcastTip_eq]; simp only [upd]; exact ih
      | full hlen hi hp hr e1 => rw [request_idle e1, upd]; exact ih

/-- If the tip is recent and no peer is ahead, `sync` says so. -/
theorem sync_reports {r : Mgr × Bool} (hnd : m.peers.keys.Nodup) (hne : m.peers ≠ []) (ht : now < (t.tip cfg.chain).2.time * 1000 + 7200000)
    (hu : ∀ u, m.lastTipUpdate = some u → now ≤ u + cfg.chain.spacing * 3 * 1000) (h2 : 7200000 ≤ now)
    (h3 : cfg.chain.spacing * 3 * 1000 ≤ now) (hb : ∀ a p, m.peers.get a = some p → p.height ≤ t.height)
    (e : m.sync cfg env t now = .ok r) : Out.synced (t.tip cfg.chain).1 t.height ∈ r.1.out := by
  unfold Mgr.sync at e
  rw [if_neg (by simpa using hne)] at e
  have hs : m.staleTip cfg t now = .ok false := by
    have h4 : m.updatedLongAgo cfg now = .ok false := by
      unfold Mgr.updatedLongAgo
      split
      · rename_i u hu'
        have := hu u hu'
        rw [subTime, if_pos h3, Res.ok_bind]
        simp only [Res.ok.injEq, decide_eq_false_iff_not]
        omega
      · rfl
    unfold Mgr.staleTip
    rw [h4, Res.ok_bind]
    have hd : tipStaleDuration = 7200000 := rfl
    simp only [Bool.false_eq_true, if_false]
    rw [hd, subTime, if_pos h2, Res.ok_bind, Res.ok.injEq, decide_eq_false_iff_not]
    omega
  have hsync : m.isSynced cfg t now = .ok true := by
    unfold Mgr.isSynced
    rw [hs, Res.ok_bind]
    simp only [Bool.false_eq_true, if_false]
    cases hbh : m.bestHeight with
    | none => exact absurd (bestHeight_none hbh) hne
    | some n =>
      obtain ⟨a, p, hp, hn⟩ := bestHeight_attained hnd hbh
      have : p.height ≤ t.height := hb a p hp
      simp only [Res.ok.injEq, decide_eq_true_eq]
      omega
  rw [hsync, Res.ok_bind] at e
  simp only [if_true] at e
  cases e
  simp [Mgr.push]

/-! ### No panics -/

/-- Locators can be computed on the tree. -/
def Located (cfg : Cfg) (t : State) : Prop := ∃ hashes, Chain.locatorHashes cfg.chain t t.height = .ok hashes

theorem subTime_total (hc : cfg.chain.checked = false) (x y : Nat) : ∃ z, subTime cfg.chain.checked x y = .ok z := by
  unfold subTime
  rw [hc]
  split
  · exact ⟨_, rfl⟩
  · exact ⟨_, rfl⟩

theorem staleTip_total (hc : cfg.chain.checked = false) : ∃ b, m.staleTip cfg t now = .ok b := by
  unfold Mgr.staleTip
  have h1 : ∃ b, m.updatedLongAgo cfg now = .ok b := by
    unfold Mgr.updatedLongAgo
    split
    · obtain ⟨z, hz⟩ := subTime_total hc now (cfg.chain.spacing * 3 * 1000)
      rw [hz]
      exact ⟨_, rfl⟩
    · exact ⟨_, rfl⟩
  obtain ⟨b, hb⟩ := h1
  rw [hb]
  cases b with
  | true => exact ⟨_, rfl⟩
  | false =>
    obtain ⟨z, hz⟩ := subTime_total hc now tipStaleDuration
    simp only [Res.ok_bind, Bool.false_eq_true, if_false, hz]
    exact ⟨_, rfl⟩

theorem request_total (hc : cfg.chain.checked = false) (m : Mgr) (now a : Nat) (l : Locators) (k : OnTimeout) : ∃ m', m.request cfg now a l k = .ok m' := by
  unfold Mgr.request
  split
  · exact ⟨_, rfl⟩
  · split
    · exact ⟨_, rfl⟩
    · rw [hc]; exact ⟨_, rfl⟩

theorem isSynced_total (hc : cfg.chain.checked = false) : ∃ b, m.isSynced cfg t now = .ok b := by
  unfold Mgr.isSynced
  obtain ⟨b, hb⟩ := staleTip_total (m := m) (t := t) (now := now) hc
  rw [hb, Res.ok_bind]
  split
  · exact ⟨_, rfl⟩
  · split <;> exact ⟨_, rfl⟩

theorem sync_total (hc : cfg.chain.checked = false) (hl : Located cfg t) (env : Env) (m : Mgr) (now : Nat) : ∃ r, m.sync cfg env t now = .ok r := by
  unfold Mgr.sync
  split
  · exact ⟨_, rfl⟩
  · obtain ⟨b, hb⟩ := isSynced_total (m := m) (t := t) (now := now) hc
    rw [hb, Res.ok_bind]
    split
    · exact ⟨_, rfl⟩
    · unfold Mgr.startSync
      obtain ⟨hashes, hh⟩ := hl
      rw [hh, Res.ok_bind]
      split
      · exact ⟨_, rfl⟩
      · split
        · exact ⟨_, rfl⟩
        · rename_i a _
          split
          · obtain ⟨m', hm⟩ := request_total hc m now a (hashes, zeros) .ignore
            rw [hm]
            exact ⟨_, rfl⟩
          · exact ⟨_, rfl⟩

theorem requestAll_total (hc : cfg.chain.checked = false) (l : Locators) : ∀ (as : List Nat) (m : Mgr), ∃ m', Mgr.requestAll cfg now l as m = .ok m'
  | [], m => ⟨m, rfl⟩
  | a :: as, m => by
    obtain ⟨m1, h1⟩ := request_total hc m now a l .ignore
    obtain ⟨m2, h2⟩ := requestAll_total hc l as m1
    exact ⟨m2, by rw [Mgr.requestAll, h1, Res.ok_bind, h2]⟩

theorem samplePeers_total (hc : cfg.chain.checked = false) (hl : Located cfg t) (env : Env) (m : Mgr) (now : Nat) :
    ∃ m', m.samplePeers cfg env t now = .ok m' := by
  unfold Mgr.samplePeers
  split
  · exact ⟨_, rfl⟩
  · obtain ⟨b, hb⟩ := staleTip_total (m := m) (t := t) (now := now) hc
    rw [hb, Res.ok_bind]
    split
    · exact ⟨_, rfl⟩
    · obtain ⟨hashes, hh⟩ := hl
      rw [hh, Res.ok_bind]
      exact requestAll_total hc _ _ _

theorem idle_total (hc : cfg.chain.checked = false) (hl : Located cfg t) (env : Env) (m : Mgr) (now : Nat) : ∃ m', m.idle cfg env t now = .ok m' := by
  unfold Mgr.idle
  split
  · obtain ⟨r, hr⟩ := sync_total hc hl env m now
    obtain ⟨m1, h1⟩ := samplePeers_total hc hl env r.1 now
    have : ∃ m2, m.syncOrSample cfg env t now = .ok m2 := by
      unfold Mgr.syncOrSample
      rw [hr, Res.ok_bind]
      split
      · exact ⟨_, rfl⟩
      · exact ⟨_, h1⟩
    obtain ⟨m2, h2⟩ := this
    rw [h2]
    exact ⟨_, rfl⟩
  · exact ⟨_, rfl⟩

theorem expireAll_total (hc : cfg.chain.checked = false) (env : Env) (now : Nat) : ∀ (rs : List (Nat × Request)) (m : Mgr) (f : Bool),
    ∃ r, Mgr.expireAll cfg env now rs m f = .ok r
  | [], m, f => ⟨(m, f), rfl⟩
  | (a, q) :: rs, m, f => by
    unfold Mgr.expireAll
    simp only
    split
    · exact expireAll_total hc env now rs _ _
    · exact expireAll_total hc env now rs _ _
    · exact expireAll_total hc env now rs _ _
    · rename_i n _
      have : ∃ m1, Mgr.retryWith cfg env { m with inflight := m.inflight.erase a } now a q n = .ok m1 := by
        unfold Mgr.retryWith
        split
        · exact request_total hc _ _ _ _ _
        · exact ⟨_, rfl⟩
      obtain ⟨m1, h1⟩ := this
      rw [h1, Res.ok_bind]
      exact expireAll_total hc env now rs _ _

theorem timer_total (hc : cfg.chain.checked = false) (hl : Located cfg t) (env : Env) (m : Mgr) (now : Nat) : ∃ m', m.timer cfg env t now = .ok m' := by
  unfold Mgr.timer
  obtain ⟨r, hr⟩ := expireAll_total hc env now (m.timedOut cfg env now) m false
  rw [hr, Res.ok_bind]
  split
  · obtain ⟨r', hr'⟩ := sync_total hc hl env r.1 now
    rw [hr']
    exact ⟨_, rfl⟩
  · exact idle_total hc hl env r.1 now

theorem headers_total (hc : cfg.chain.checked = false) (env : Env) (m : Mgr) (now a : Nat) (hs : List (Header × Chain.Env))
    (hr : (Chain.importBlocks cfg.chain t hs).2 ≠ .panic) (hl' : Located cfg (Chain.importBlocks cfg.chain t hs).1) :
    ∃ r, m.headers cfg env t now a hs = .ok r := by
  unfold Mgr.headers
  simp only
  split
  · split
    · exact ⟨_, rfl⟩
    · split
      · exact ⟨_, rfl⟩
      · split
        · exact ⟨_, rfl⟩
        · split
          · exact ⟨_, rfl⟩
          · rename_i p _ _
            have : ∀ (M : Mgr) (root len : Nat), ∃ m1, M.afterImport cfg env (Chain.importBlocks cfg.chain t hs).1 now a root len
                (Chain.importBlocks cfg.chain t hs).2 = .ok m1 := by
              intro M root len
              cases hq : (Chain.importBlocks cfg.chain t hs).2 with
              | panic => exact absurd hq hr
              | err er =>
                obtain ⟨x, j, n, rfl⟩ := importBlocks_err hq
                exact ⟨_, rfl⟩
              | ok ir =>
                cases ir with
                | tipUnchanged =>
                  obtain ⟨hashes, hh⟩ := hl'
                  simp only [Mgr.afterImport, hh, Res.ok_bind]
                  exact request_total hc _ _ _ _ _
                | tipChanged header hash height rv cn =>
                  simp only [Mgr.afterImport]
                  split
                  · obtain ⟨r, hr⟩ := sync_total hc hl' env (Mgr.broadcastTip env { M.raise a hash height with lastTipUpdate := some now }
                      (Chain.importBlocks cfg.chain t hs).1 hash) now
                    rw [hr]
                    exact ⟨_, rfl⟩
                  · exact request_total hc _ _ _ _ _
            obtain ⟨m1, h1⟩ := this (Mgr.report env { m with inflight := m.inflight.erase a, peers := m.peers.insert a { p with lastActive := some now } }
              (Chain.importBlocks cfg.chain t hs).1 (Chain.importBlocks cfg.chain t hs).2) _ hs.length
            rw [h1]
            exact ⟨_, rfl⟩
  · exact ⟨_, rfl⟩

end Verif.Sync
