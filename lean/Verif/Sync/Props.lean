import Verif.Sync.Events
import Verif.Chain.PropsLocator

/-!
# Properties of header synchronization
-/

set_option autoImplicit false

namespace Verif.Sync
open Verif.Chain (Header State Err ImportResult)

variable {cfg : Cfg} {U : Header → Prop} {fail : Bool} {P : State → Op → Prop} {g : Header} {t0 : State}
variable {m m' : Mgr} {t t' : State} {h : Hist} {op : Op}

/-! ## C50 — requests for headers -/

/-- **C50 (one request).** An operation asks a peer for headers at most once, only if the peer is connected, and only if no other request to it is
outstanding. -/
theorem C50_one (r : Run cfg U fail P t0 h m t) (l : op.Legal U fail) (e : { m with out := [] }.step cfg t op = .ok (m', t')) (a : Nat) :
    (requests a m'.out).length ≤ 1 ∧
    (requests a m'.out ≠ [] → release cfg a op (awaiting cfg a h) = none ∧ connected a ((op, m'.out) :: h) ≠ none) := by
  obtain ⟨M, K, pre, o, s⟩ := step_stepped (run_inv r) l e
  rw [s.requests]
  rcases s.asks.each a with ⟨h1, -⟩ | ⟨lc, p, k, h1, h2, h3, -⟩
  · rw [h1]; simp
  · rw [h1]
    refine ⟨by simp, fun _ => ⟨(s.wait a).none_iff.1 h3, ?_⟩⟩
    rw [← s.conn a, h2]; simp

/-- **C50 (connected peers only).** A request is outstanding only with a connected peer. -/
theorem C50_connected (r : Run cfg U fail P t0 h m t) (a : Nat) (hw : awaiting cfg a h ≠ none) : connected a h ≠ none := by
  have i := run_inv r
  have h1 : m.inflight.get a ≠ none := fun hn => hw ((i.wait a).none_iff.1 hn)
  rw [← i.conn a]
  cases hp : m.peers.get a with
  | none => exact absurd hp (i.sub a h1)
  | some p => simp

/-- **C50 (why).** Headers are only requested because a connected peer has a longer chain or the tip is stale, to learn the fork a peer sent headers of,
to continue after a full batch, because the peer announced an unknown block, or because another peer did not answer. -/
theorem C50_why (r : Run cfg U fail P t0 h m t) (l : op.Legal U fail) (e : { m with out := [] }.step cfg t op = .ok (m', t')) {a : Nat}
    {lc : Locators} (hx : Out.getHeaders a lc ∈ m'.out) : Requested cfg h op m'.out t t' a lc :=
  step_from (run_inv r) l e _ hx

/-- **C50 (who is dropped).** A peer is only disconnected by the timer, if it did not answer a request in time that was to continue after a full batch
or was made by the timer. -/
theorem C50_dropped (r : Run cfg U fail P t0 h m t) (l : op.Legal U fail) (e : { m with out := [] }.step cfg t op = .ok (m', t')) {a : Nat}
    (hx : Out.disconnect a ∈ m'.out) :
    ∃ env now s, op = .timer env now ∧ awaiting cfg a h = some s ∧ cfg.timeout ≤ now - s.time ∧ (s.cause = .continued ∨ s.cause = .timer) :=
  step_from (run_inv r) l e _ hx

/-- What happens to a request that is outstanding when the timer fires. -/
theorem overdue {env : Env} {now : Nat} (r : Run cfg U fail P t0 h m t) (l : (Op.timer env now).Legal U fail) {a : Nat} {s : Sent}
    (hw : awaiting cfg a h = some s) (hd : cfg.timeout ≤ now - s.time) :
    ∃ q, (a, q) ∈ Mgr.timedOut cfg env { m with out := [] } now ∧ q.locators = s.locators ∧ KindOk s.cause q.onTimeout := by
  have i := (run_inv r).clear
  have h1 := i.wait a
  rw [hw] at h1
  cases hq : m.inflight.get a with
  | none => simp only [hq] at h1; exact h1.elim
  | some q =>
    simp only [hq] at h1
    exact ⟨q, (mem_timedOut l.1).2 ⟨hq, by rw [h1.1]; exact hd⟩, h1.2.1, h1.2.2⟩

/-- **C50 (continuing).** A peer that does not answer a request to continue after a full batch in time is disconnected. -/
theorem C50_continued {env : Env} {now : Nat} (r : Run cfg U fail P t0 h m t) (l : (Op.timer env now).Legal U fail)
    (e : { m with out := [] }.step cfg t (.timer env now) = .ok (m', t')) {a : Nat} {s : Sent} (hw : awaiting cfg a h = some s)
    (hd : cfg.timeout ≤ now - s.time) (hc : s.cause = .continued) : Out.disconnect a ∈ m'.out := by
  obtain ⟨q, h1, h2, h3⟩ := overdue r l hw hd
  simp only [Mgr.step, Res.bind_eq_ok] at e
  obtain ⟨m1, e1, e2⟩ := e
  cases e2
  obtain ⟨o, k1, m2, b, o1, o2, -, rfl, -, -, -, k3, -⟩ := timer_ok l.1 (run_inv r).clear e1
  rw [hc] at h3
  rw [k1.out]
  have := k3 _ h1 (.inl h3)
  simp [this]

/-- **C50 (announced blocks).** A request made because of an announced block that is not answered in time is sent to another peer, unless every other
peer that could be asked is asked for something else at that moment.  (Missing for "every request is retried or the peer is dropped": requests made to get in
sync; see `Scenario.C50_not_retried`.) -/
theorem C50_announced_partial {env : Env} {now : Nat} (r : Run cfg U fail P t0 h m t) (l : (Op.timer env now).Legal U fail)
    (e : { m with out := [] }.step cfg t (.timer env now) = .ok (m', t')) {a : Nat} {s : Sent} (hw : awaiting cfg a h = some s)
    (hd : cfg.timeout ≤ now - s.time) (hc : s.cause = .announced) :
    (∃ b, b ≠ a ∧ Out.getHeaders b s.locators ∈ m'.out) ∨ ∀ b, b ≠ a → Candidate cfg h s.locators.1 b → requests b m'.out ≠ [] := by
  obtain ⟨q, h1, h2, h3⟩ := overdue r l hw hd
  simp only [Mgr.step, Res.bind_eq_ok] at e
  obtain ⟨m1, e1, e2⟩ := e
  cases e2
  have i := (run_inv r).clear
  obtain ⟨o, k1, m2, b, o1, o2, -, rfl, -, -, -, -, k4, -⟩ := timer_ok l.1 i e1
  rw [hc] at h3
  rw [k1.out, ← h2]
  rcases k4 _ h1 2 h3 with ⟨b, g1, g2⟩ | g
  · exact .inl ⟨b, g1, by simp only at g2; simp [g2]⟩
  · refine .inr fun b hb hcand => ?_
    have hf : Mgr.Free { m with out := [] } (Mgr.timedOut cfg env { m with out := [] } now) q.locators.1 b := by
      obtain ⟨⟨x, c1, c2⟩, c3, c4⟩ := hcand
      obtain ⟨p, hp, rfl⟩ := inv_peer i c1
      have hn := (i.wait b).none_iff.2 c3
      refine ⟨candidate_iff.2 ⟨p, hp, hn, c2, fun y hy => ?_⟩, ?_⟩
      · have := i.asked b
        rw [hp, Option.bind_some, hy] at this
        exact c4 y this.symm
      · intro hmem
        rw [List.mem_map] at hmem
        obtain ⟨⟨c, z⟩, hz, rfl⟩ := hmem
        rw [((mem_timedOut l.1).1 hz).1] at hn
        simp at hn
    have := g b hb hf
    rw [requests_append, requests_append]
    simp [this]

/-- **C50 (unwanted headers).** More than 2000 headers are misbehaviour, and change nothing.  More than 24 headers that were not asked for,
and headers of a peer that is not connected, are ignored. -/
theorem C50_unwanted {env : Env} {now a : Nat} {hs : List (Header × Chain.Env)} (r : Run cfg U fail P t0 h m t)
    (e : { m with out := [] }.step cfg t (.headers env now a hs) = .ok (m', t')) :
    (2000 < hs.length → m'.out = [.misbehaved a] ∧ t' = t) ∧
    (hs.length ≤ 2000 → (24 < hs.length ∧ awaiting cfg a h = none) ∨ connected a h = none → m'.out = [] ∧ t' = t) := by
  have i := (run_inv r).clear
  have ign : (24 < hs.length ∧ awaiting cfg a h = none) ∨ connected a h = none → Ignored { m with out := [] } t cfg a hs := by
    rintro (⟨h1, h2⟩ | h1)
    · exact .inr (.inl ⟨h1, (i.wait a).none_iff.2 h2⟩)
    · refine .inr (.inr (.inl ?_))
      have := i.conn a
      rw [h1] at this
      simpa using this
  cases headers_ok e with
  | misbehaved hlen => exact ⟨fun _ => ⟨rfl, rfl⟩, fun h => absurd hlen (by omega)⟩
  | ignored hlen => exact ⟨fun h => absurd hlen (by omega), fun _ _ => ⟨rfl, rfl⟩⟩
  | known hlen => exact ⟨fun h => absurd hlen (by omega), fun _ _ => ⟨rfl, rfl⟩⟩
  | unchanged hlen hi => exact ⟨fun h => absurd hlen (by omega), fun _ h => absurd (ign h) hi⟩
  | aborted hlen hi => exact ⟨fun h => absurd hlen (by omega), fun _ h => absurd (ign h) hi⟩
  | changed hlen hi => exact ⟨fun h => absurd hlen (by omega), fun _ h => absurd (ign h) hi⟩
  | full hlen hi => exact ⟨fun h => absurd hlen (by omega), fun _ h => absurd (ign h) hi⟩

/-- **C50 (wanted headers).** Other headers are imported, unless the last one is part of the active chain already. -/
theorem C50_wanted {env : Env} {now a : Nat} {hs : List (Header × Chain.Env)} (r : Run cfg U fail P t0 h m t)
    (e : { m with out := [] }.step cfg t (.headers env now a hs) = .ok (m', t')) (hlen : hs.length ≤ 2000) (hc : connected a h ≠ none)
    (hw : awaiting cfg a h ≠ none ∨ hs.length ≤ 24) {last : Header × Chain.Env} (hl : hs.getLast? = some last)
    (hk : t.contains (cfg.chain.hash last.1) = false) : t' = (Chain.importBlocks cfg.chain t hs).1 := by
  have i := (run_inv r).clear
  have ign : ¬ Ignored { m with out := [] } t cfg a hs := by
    rintro (rfl | ⟨h1, h2⟩ | h1 | ⟨x, h1, h2⟩)
    · simp at hl
    · rcases hw with hw | hw
      · exact hw ((i.wait a).none_iff.1 h2)
      · omega
    · apply hc
      rw [← i.conn a, h1]; rfl
    · rw [hl] at h1
      cases h1
      rw [hk] at h2; simp at h2
  cases headers_ok e with
  | misbehaved h1 => omega
  | ignored h1 hi => exact absurd hi ign
  | known h1 hi => exact absurd hi ign
  | unchanged => rfl
  | aborted => rfl
  | changed => rfl
  | full => rfl

/-! ## C51 — serving headers -/

/-- **C51.** While we are asking for headers, requests for headers are not answered.  Otherwise the answer are headers of the active chain: those
after the first locator that is active (after genesis if none is), up to the stop header if it is active, at most as many as configured;
just the stop header if there are no locators.  There is no answer if there are none. -/
theorem C51_serve (ha : Chain.Acyclic cfg.chain U) (hg : cfg.chain.genesisHash = cfg.chain.hash g) (h0 : Chain.Reach cfg.chain U g fail t0)
    (r : Run cfg U fail P t0 h m t) {a : Nat} {lc : Locators} (e : { m with out := [] }.step cfg t (.getheaders a lc) = .ok (m', t')) :
    t' = t ∧ (Asking cfg h → m'.out = []) ∧ (cfg.maxHeaders = 0 → m'.out = []) ∧
    (¬ Asking cfg h → cfg.maxHeaders ≠ 0 → ∃ hs, m'.out = (if hs = [] then [] else [.headers a hs]) ∧ hs.length ≤ cfg.maxHeaders ∧
      (lc.1 = [] → hs = ((t.getBlock lc.2).map (·.2)).toList) ∧
      (lc.1 ≠ [] → ∃ start,
        ((∃ k, lc.1.find? (fun k => t.contains k) = some k ∧ ∃ x, t.getBlock k = some (start, x)) ∨
          ((∀ k ∈ lc.1, t.contains k = false) ∧ start = 0)) ∧
        ∃ last, ((∃ x, t.getBlock lc.2 = some (last, x)) ∨ (t.contains lc.2 = false ∧ last = t.height)) ∧
          hs = Chain.segment t start (min cfg.maxHeaders (last - start)))) := by
  have i := (run_inv r).clear
  have hask : Asking cfg h ↔ m.inflight ≠ [] := by
    constructor
    · rintro ⟨b, s, hs⟩ hn
      have := i.wait b
      rw [hs] at this
      simp [hn, WaitOk] at this
    · intro hn
      cases hm : m.inflight with
      | nil => exact absurd hm hn
      | cons q l' =>
        have h1 : m.inflight.get q.1 ≠ none := by
          rw [Ne, AMap.get_eq_none_iff, hm]; simp [AMap.keys]
        cases hw : awaiting cfg q.1 h with
        | none => exact absurd ((i.wait q.1).none_iff.2 hw) h1
        | some s => exact ⟨q.1, s, hw⟩
  simp only [Mgr.step, Res.bind_eq_ok] at e
  obtain ⟨m1, e1, e2⟩ := e
  cases e2
  unfold Mgr.getheaders at e1
  obtain ⟨hs, k1, k2, k3⟩ := Chain.C13_locate_headers ha hg (run_reach h0 r) lc.1 lc.2 cfg.maxHeaders
  refine ⟨rfl, ?_⟩
  by_cases hc : ({ m with out := [] }.isSyncing || decide (cfg.maxHeaders = 0)) = true
  · rw [if_pos hc] at e1
    cases e1
    refine ⟨fun _ => rfl, fun _ => rfl, fun h1 h2 => ?_⟩
    rw [hask] at h1
    simp [Mgr.isSyncing, h2] at hc h1
    exact absurd h1 (by simpa using hc)
  · rw [if_neg hc, k1, Res.ok_bind] at e1
    simp only [Bool.or_eq_true, not_or, decide_eq_true_eq, Mgr.isSyncing, Bool.not_eq_true', List.isEmpty_eq_false_iff, not_not] at hc
    refine ⟨fun h1 => absurd hc.1 (hask.1 h1), fun h1 => absurd h1 hc.2, fun _ _ => ⟨hs, ?_, ?_, k2, k3⟩⟩
    · by_cases hn : hs = []
      · subst hn
        simp only [List.isEmpty_nil, if_true] at e1
        cases e1
        simp
      · rw [if_neg (by simpa using hn)] at e1
        cases e1
        simp [Mgr.push, hn]
    · by_cases hl : lc.1 = []
      · rw [k2 hl]
        have := hc.2
        cases t.getBlock lc.2 <;> simp
        omega
      · obtain ⟨st, -, last, -, k4⟩ := k3 hl
        rw [k4, Chain.segment]
        simp only [List.length_take]
        omega

/-! ## C52 — block events -/

/-- **C52.** As long as headers are imported without an error (or the erroneous import leaves the active chain alone) and no single batch re-activates
headers of the old chain, the events about blocks replay to the active chain.  (Missing: the other imports; see `Scenario.C52_aborted` and
`Scenario.C52_reconnected`, where the claim is false.) -/
theorem C52_replay_partial (ha : Chain.Acyclic cfg.chain U) (cf : Chain.CollisionFree cfg.chain U)
    (hg : cfg.chain.genesisHash = cfg.chain.hash g) (h0 : Chain.Reach cfg.chain U g fail t0) (r : Run cfg U fail (Clean cfg) t0 h m t) :
    replay t0.iter (outputs h) = some t.iter := by
  induction r with
  | start => simp [outputs, replay]
  | @step h m m' t t' op r l p e ih =>
    have : outputs ((op, m'.out) :: h) = outputs h ++ m'.out := by simp [outputs]
    rw [this, replay_append, ih, Option.bind_some, replay_filter]
    have hreach := run_reach h0 r
    have hreach' := run_reach h0 (.step r l p e)
    rcases step_events (run_inv r) l e with ⟨rfl, h1, -⟩ | ⟨q, h1, h2, h3⟩
    · rw [h1]; rfl
    · rw [h3]
      rcases p with ⟨⟨ir, p1⟩, p2⟩ | ⟨⟨er, p1⟩, p2⟩
      · rw [h1] at p1
        simp only at p1
        subst p1
        have := Chain.C06_batch_report ha cf hg hreach l.2 p2 h1
        cases ir with
        | tipUnchanged =>
          simp only at this
          rw [this]; rfl
        | tipChanged header hash height rv cn =>
          simp only at this
          obtain ⟨⟨n, k1, k2, k3, rfl, rfl⟩, -⟩ := this
          exact replay_tip (Chain.C01_consistent_view ha hg hreach') k2 k3
      · rw [h1] at p1 p2
        simp only at p1 p2
        subst p1
        rw [p2]; rfl

/-- **C52 (report of a new tip).** The event about imported headers names the tip of the active chain and its height, and the blocks of the other
events. -/
theorem C52_imported (ha : Chain.Acyclic cfg.chain U) (cf : Chain.CollisionFree cfg.chain U) (hg : cfg.chain.genesisHash = cfg.chain.hash g)
    (h0 : Chain.Reach cfg.chain U g fail t0) (r : Run cfg U fail P t0 h m t) (l : op.Legal U fail)
    (e : { m with out := [] }.step cfg t op = .ok (m', t')) {reorg : Bool} {hash n : Nat} {cn rv : List (Nat × Header)}
    (hx : Out.imported reorg hash n cn rv ∈ m'.out) :
    hash = (t'.tip cfg.chain).1 ∧ n = t'.height ∧ (reorg = true ↔ rv ≠ []) ∧
    m'.out.filter Out.isBlock = rv.map (fun p => .disconnected p.1 p.2) ++ cn.map (fun p => .connected p.1 p.2) ∧ cn ≠ [] := by
  obtain ⟨⟨header, hc⟩, hre⟩ := step_from (run_inv r) l e _ hx
  have h1 := Chain.C06_batch_report_partial ha cf hg (run_reach h0 r) l.2 hc
  simp only at h1
  obtain ⟨⟨k, k1, k2, k3, k4⟩, -, -, -, k5, k6⟩ := h1
  have hne : t'.iter.drop (k + 1) ≠ [] := by
    have hreach' : Chain.Reach cfg.chain U g fail t' := by
      have := Chain.Reach.importBlocks op.batch (run_reach h0 r) l.2 (by rw [hc]; simp)
      rw [hc] at this; exact this
    have v := Chain.C01_consistent_view ha hg hreach'
    intro hn
    have h2 := v.iter (k + 1)
    have hlen : t'.iter.length ≤ k + 1 := by
      have := congrArg List.length hn
      simp only [List.length_drop, List.length_nil] at this
      omega
    rw [List.getElem?_eq_none hlen] at h2
    have := (v.defined (k + 1)).2 (by omega)
    cases hgb : t'.getByHeight (k + 1) with
    | none => rw [hgb] at this; simp at this
    | some z => rw [hgb] at h2; simp at h2
  refine ⟨by rw [k5], k6.symm, ?_, ?_, by rw [k4]; exact hne⟩
  · rw [hre]; cases rv <;> simp
  · rcases step_events (run_inv r) l e with ⟨-, -, h2⟩ | ⟨q, h2, h3, h4⟩
    · have := h2 _ hx
      simp [Out.isImported] at this
    · rw [hc] at h2
      cases h2
      exact h4

/-- **C52 (new blocks).** If the import succeeds, every block that is active now and was not before is reported as connected, at its height;
and blocks reported as disconnected were active and are no longer. -/
theorem C52_new_blocks (ha : Chain.Acyclic cfg.chain U) (cf : Chain.CollisionFree cfg.chain U) (hg : cfg.chain.genesisHash = cfg.chain.hash g)
    (h0 : Chain.Reach cfg.chain U g fail t0) (r : Run cfg U fail P t0 h m t) (l : op.Legal U fail)
    (e : { m with out := [] }.step cfg t op = .ok (m', t')) (hok : ∃ q, (Chain.importBlocks cfg.chain t op.batch).2 = .ok q) :
    (∀ p ∈ t'.iter, t.contains (cfg.chain.hash p.2) = false → Out.connected p.1 p.2 ∈ m'.out) ∧
    (∀ n x, Out.disconnected n x ∈ m'.out → (n, x) ∈ t.iter ∧ t'.contains (cfg.chain.hash x) = false) := by
  obtain ⟨q, hq⟩ := hok
  have hx : ∀ {x : Out}, x.isBlock = true → (x ∈ m'.out ↔ x ∈ m'.out.filter Out.isBlock) := by
    intro x hb; simp [hb]
  have hreach := run_reach h0 r
  have old : ∀ p ∈ t.iter, t.contains (cfg.chain.hash p.2) = true := by
    intro p hp
    have v := Chain.C01_consistent_view ha hg hreach
    obtain ⟨n, hn⟩ := List.getElem?_of_mem hp
    rw [v.iter, Option.map_eq_some_iff] at hn
    obtain ⟨y, hy, rfl⟩ := hn
    exact (v.contains _).2 ⟨n, y, hy, rfl⟩
  rcases step_events (run_inv r) l e with ⟨rfl, h1, -⟩ | ⟨q', h1, h2, h3⟩
  · refine ⟨fun p hp hn => ?_, fun n x hd => ?_⟩
    · rw [old p hp] at hn; simp at hn
    · rw [hx rfl, h1] at hd; simp at hd
  · rw [h1] at hq
    simp only at hq
    subst hq
    have h4 := Chain.C06_batch_report_partial ha cf hg hreach l.2 h1
    cases q with
    | tipUnchanged =>
      simp only at h4
      refine ⟨fun p hp hn => ?_, fun n x hd => ?_⟩
      · rw [h4] at hp
        rw [old p hp] at hn; simp at hn
      · rw [hx rfl, h3] at hd; simp [eventsOf] at hd
    | tipChanged header hash height rv cn =>
      simp only at h4
      obtain ⟨-, k1, k2, -⟩ := h4
      refine ⟨fun p hp hn => ?_, fun n x hd => ?_⟩
      · rw [hx rfl, h3, eventsOf, List.mem_append]
        exact .inr (List.mem_map.2 ⟨p, k1 p hp hn, rfl⟩)
      · rw [hx rfl, h3, eventsOf, List.mem_append] at hd
        rcases hd with hd | hd
        · obtain ⟨p, hp, hpe⟩ := List.mem_map.1 hd
          cases hpe
          exact k2 p hp
        · obtain ⟨p, -, hpe⟩ := List.mem_map.1 hd
          simp at hpe

/-! ## C78 — being in sync -/

/-- **C78.** Being in sync is reported with the tip and height of the active chain, and only if the tip is recent and no connected peer is known to have
a longer chain (and there is a connected peer). -/
theorem C78_synced (r : Run cfg U fail P t0 h m t) (l : op.Legal U fail) (e : { m with out := [] }.step cfg t op = .ok (m', t')) {hash n : Nat}
    (hx : Out.synced hash n ∈ m'.out) :
    hash = (t'.tip cfg.chain).1 ∧ n = t'.height ∧ Recent cfg ((op, m'.out) :: h) t' op.time ∧
    (∀ a i, connected a ((op, m'.out) :: h) = some i → i.height ≤ n) ∧ ∃ a i, connected a ((op, m'.out) :: h) = some i :=
  step_from (run_inv r) l e _ hx

/-- **C78 (converse).** When a peer connects while the tip is recent and no connected peer is known to have a longer chain, being in sync is reported. -/
theorem C78_reported {env : Env} {now a n : Nat} {network filters outbound : Bool} (r : Run cfg U fail P t0 h m t)
    (e : { m with out := [] }.step cfg t (.negotiated env now a n network filters outbound) = .ok (m', t')) (hreg : (outbound && !network) = false)
    (hr : Recent cfg h t now) (h2 : 7200000 ≤ now) (h3 : cfg.chain.spacing * 3 * 1000 ≤ now) (hn : n ≤ t.height)
    (hb : ∀ b i, connected b h = some i → i.height ≤ t.height) : Out.synced (t.tip cfg.chain).1 t.height ∈ m'.out := by
  simp only [Mgr.step, Res.bind_eq_ok] at e
  obtain ⟨m1, e1, e2⟩ := e
  cases e2
  unfold Mgr.negotiated at e1
  rw [if_neg (by simp [hreg])] at e1
  rw [Res.bind_eq_ok] at e1
  obtain ⟨q, e3, e4⟩ := e1
  cases e4
  have i := (run_inv r).clear
  have same : ∀ M : Mgr, (M.reportHeight t n).peers = M.peers ∧ (M.reportHeight t n).lastTipUpdate = M.lastTipUpdate := by
    intro M
    unfold Mgr.reportHeight
    split <;> exact ⟨rfl, rfl⟩
  refine sync_reports ?_ ?_ hr.tip ?_ h2 h3 ?_ e3
  · unfold Mgr.register
    simp only [(same _).1]
    exact AMap.nodup_insert i.nodup _ _
  · intro hnil
    have : ((({ m with out := [] } : Mgr).reportHeight t n).register a n (!filters) outbound).peers.get a = none := by rw [hnil]; rfl
    simp [Mgr.register] at this
  · intro u hu
    simp only [Mgr.register, (same _).2] at hu
    exact hr.update u (by rw [← i.upd]; exact hu)
  · intro b p hp
    simp only [Mgr.register, (same _).1, AMap.get_insert] at hp
    split at hp
    · cases hp; exact hn
    · exact hb b p.info (inv_connected i hp)

/-! ## C79 — no panics -/

/-- **C79.** In a release build, nothing a peer or the user does makes header synchronization panic (heights fit in 64 bits).  (Missing: debug builds; see
`Scenario.C79_asked_again`, `Scenario.C79_stale_twice` and `Scenario.C79_clock`.) -/
theorem C79_no_panic_partial (hc : cfg.chain.checked = false) (ha : Chain.Acyclic cfg.chain U) (cf : Chain.CollisionFree cfg.chain U)
    (hg : cfg.chain.genesisHash = cfg.chain.hash g) (h0 : Chain.Reach cfg.chain U g fail t0) (r : Run cfg U fail P t0 h m t) (l : op.Legal U fail)
    (hh : t.height < 2 ^ 64) (hh' : (Chain.importBlocks cfg.chain t op.batch).1.height < 2 ^ 64) :
    ∃ m' t', { m with out := [] }.step cfg t op = .ok (m', t') := by
  have hreach := run_reach h0 r
  have hl : Located cfg t := by
    obtain ⟨-, hashes, h1, -⟩ := Chain.locatorHashes_from ha hg hreach (Nat.le_refl t.height) hh
    exact ⟨hashes, h1⟩
  cases op with
  | init env now =>
    obtain ⟨m1, h1⟩ := idle_total hc hl env { m with out := [] } now
    exact ⟨m1, t, by simp only [Mgr.step, h1, Res.ok_bind]⟩
  | negotiated env now a n network filters outbound =>
    have : ∃ m1, Mgr.negotiated cfg env { m with out := [] } t now a n network filters outbound = .ok m1 := by
      unfold Mgr.negotiated
      split
      · exact ⟨_, rfl⟩
      · obtain ⟨q, hq⟩ := sync_total hc hl env ((({ m with out := [] } : Mgr).reportHeight t n).register a n (!filters) outbound) now
        rw [hq]
        exact ⟨_, rfl⟩
    obtain ⟨m1, h1⟩ := this
    exact ⟨m1, t, by simp only [Mgr.step, h1, Res.ok_bind]⟩
  | gone a => exact ⟨_, _, rfl⟩
  | headers env now a hs =>
    have hnp := Chain.C01_import_no_panic hc ha cf hg hreach l.2
    have hreach' := Chain.Reach.importBlocks hs hreach l.2 hnp
    have hl' : Located cfg (Chain.importBlocks cfg.chain t hs).1 := by
      obtain ⟨-, hashes, h1, -⟩ := Chain.locatorHashes_from ha hg hreach' (Nat.le_refl _) hh'
      exact ⟨hashes, h1⟩
    obtain ⟨⟨m1, t1⟩, h1⟩ := headers_total hc env { m with out := [] } now a hs hnp hl'
    exact ⟨m1, t1, h1⟩
  | getheaders a lc =>
    have : ∃ m1, Mgr.getheaders cfg { m with out := [] } t a lc = .ok m1 := by
      unfold Mgr.getheaders
      split
      · exact ⟨_, rfl⟩
      · obtain ⟨hs, h1, -⟩ := Chain.C13_locate_headers ha hg hreach lc.1 lc.2 cfg.maxHeaders
        rw [h1, Res.ok_bind]
        split <;> exact ⟨_, rfl⟩
    obtain ⟨m1, h1⟩ := this
    exact ⟨m1, t, by simp only [Mgr.step, h1, Res.ok_bind]⟩
  | inv now a items =>
    have : ∃ m1, Mgr.inv cfg { m with out := [] } t now a items = .ok m1 := by
      unfold Mgr.inv
      split
      · exact ⟨_, rfl⟩
      · split
        · exact ⟨_, rfl⟩
        · split
          · exact ⟨_, rfl⟩
          · simp only
            split
            · exact ⟨_, rfl⟩
            · obtain ⟨hashes, hh⟩ := hl
              rw [hh, Res.ok_bind]
              exact request_total hc _ _ _ _ _
    obtain ⟨m1, h1⟩ := this
    exact ⟨m1, t, by simp only [Mgr.step, h1, Res.ok_bind]⟩
  | timer env now =>
    obtain ⟨m1, h1⟩ := timer_total hc hl env { m with out := [] } now
    exact ⟨m1, t, by simp only [Mgr.step, h1, Res.ok_bind]⟩
  | userImport env hs =>
    have hnp := Chain.C01_import_no_panic hc ha cf hg hreach l.2
    simp only [Mgr.step, Mgr.userImport]
    split
    · rename_i hp; exact absurd hp hnp
    · exact ⟨_, _, rfl⟩

/-! ## C80 — announcing the tip -/

/-- **C80.** When the tip changes, its header is sent to every peer that connected to us and is not known to be at that height. -/
theorem C80_announced (ha : Chain.Acyclic cfg.chain U) (cf : Chain.CollisionFree cfg.chain U) (hg : cfg.chain.genesisHash = cfg.chain.hash g)
    (h0 : Chain.Reach cfg.chain U g fail t0) (r : Run cfg U fail P t0 h m t) (l : op.Legal U fail)
    (e : { m with out := [] }.step cfg t op = .ok (m', t')) {reorg : Bool} {hash n : Nat} {cn rv : List (Nat × Header)}
    (hx : Out.imported reorg hash n cn rv ∈ m'.out) {a : Nat} {i : Info} (hc : connected a h = some i) (hi : i.outbound = false) (hn : i.height < n) :
    Out.headers a [(t'.tip cfg.chain).2] ∈ m'.out := by
  obtain ⟨⟨header, hch⟩, hre⟩ := step_from (run_inv r) l e _ hx
  have h1 := Chain.C06_batch_report_partial ha cf hg (run_reach h0 r) l.2 hch
  simp only at h1
  obtain ⟨-, -, -, -, k5, k6⟩ := h1
  have hreach' : Chain.Reach cfg.chain U g fail t' := by
    have := Chain.Reach.importBlocks op.batch (run_reach h0 r) l.2 (by rw [hch]; simp)
    rw [hch] at this; exact this
  have v := Chain.C01_consistent_view ha hg hreach'
  obtain ⟨y, v1, v2⟩ := v.tip
  have hb : t'.getBlock hash = some (n, (t'.tip cfg.chain).2) := by
    rw [v.byHash]
    rw [k5] at v2
    cases v2
    rw [← k6, k5]
    exact ⟨v1, rfl⟩
  obtain ⟨env, M, hl, h2, h3⟩ := step_announces (run_inv r) l e hx
  have h4 := h2 a
  rw [hc] at h4
  obtain ⟨p, hp, rfl⟩ := Option.map_eq_some_iff.1 h4
  exact h3 _ ((mem_announcements hl).2 ⟨n, _, a, p, hb, hp, hi, hn, rfl⟩)

/-- **C80 (nothing else).** Headers are sent in answer to a request for headers, or to announce a changed tip to a peer that connected to us and was not
known to be at its height. -/
theorem C80_only (ha : Chain.Acyclic cfg.chain U) (cf : Chain.CollisionFree cfg.chain U) (hg : cfg.chain.genesisHash = cfg.chain.hash g)
    (h0 : Chain.Reach cfg.chain U g fail t0) (r : Run cfg U fail P t0 h m t) (l : op.Legal U fail)
    (e : { m with out := [] }.step cfg t op = .ok (m', t')) {a : Nat} {hs : List Header} (hx : Out.headers a hs ∈ m'.out) :
    (∃ lc, op = .getheaders a lc) ∨
    (hs = [(t'.tip cfg.chain).2] ∧ (∃ rv cn, Changed cfg t op t' (t'.tip cfg.chain).1 t'.height rv cn) ∧ ∃ i, connected a h = some i ∧ i.outbound = false ∧ i.height < t'.height) := by
  rcases step_from (run_inv r) l e _ hx with ⟨lc, ho, -⟩ | ⟨hash, n, rv, cn, best, k, i, ⟨header, hch⟩, h2, h3, h4, h5, h6⟩
  · exact .inl ⟨lc, ho⟩
  · refine .inr ?_
    have h1 := Chain.C06_batch_report_partial ha cf hg (run_reach h0 r) l.2 hch
    simp only at h1
    obtain ⟨⟨j, j1, j2, j3, j4⟩, -, -, -, k5, k6⟩ := h1
    have hreach' : Chain.Reach cfg.chain U g fail t' := by
      have := Chain.Reach.importBlocks op.batch (run_reach h0 r) l.2 (by rw [hch]; simp)
      rw [hch] at this; exact this
    have v := Chain.C01_consistent_view ha hg hreach'
    obtain ⟨y, v1, v2⟩ := v.tip
    have hb : t'.getBlock hash = some (n, y) := by
      rw [v.byHash]
      rw [k5] at v2
      cases v2
      exact ⟨by rw [← k6]; exact v1, rfl⟩
    rw [hb] at h2
    cases h2
    exact ⟨by rw [h3, v2], ⟨rv, cn, header, by rw [k5, k6]; exact hch⟩, i, h4, h5, by rw [k6]; exact h6⟩

/-! ## C81 — progress -/

theorem asking_of_sync {env : Env} {now : Nat} {M : Mgr} {K : OnTimeout → Prop} {o : List Out} {q : Mgr × Bool} (hl : env.Legal) (i : Inv cfg h m)
    (e : M.sync cfg env t now = .ok q) (hq : Asks now K q.1 m o) (hb : Behind h t) (hu : Usable h) : Asking cfg h := by
  obtain ⟨o', h1, -⟩ := sync_ok e
  obtain ⟨a, x, ha, hx⟩ := hb
  obtain ⟨b, y, hb, hy⟩ := hu
  obtain ⟨p, hp, rfl⟩ := inv_peer i ha
  obtain ⟨z, hz, rfl⟩ := inv_peer i hb
  obtain ⟨p1, hp1, hp2⟩ := hq.peer' hp
  obtain ⟨p3, hp3, hp4⟩ := h1.peer' hp1
  obtain ⟨z1, hz1, hz2⟩ := hq.peer' hz
  obtain ⟨z3, hz3, hz4⟩ := h1.peer' hz1
  have e1 : p3.height = p.height := congrArg Info.height (hp4.symm.trans hp2.symm).symm |>.symm
  have e2 : z3.preferred = true := by
    have : (!z3.preferred) = (!z.preferred) := by
      have h5 := congrArg Info.filters (hz2.trans hz4)
      exact h5.symm
    have h6 : (!z.preferred) = false := hy
    rw [h6] at this
    simpa using this
  obtain ⟨c, hc⟩ := sync_progress hl hp3 (by rw [e1]; exact hx) hz3 e2 e
  have hc := hq.inflight hc
  cases hw : awaiting cfg c h with
  | none => exact absurd ((i.wait c).none_iff.2 hw) hc
  | some s => exact ⟨c, s, hw⟩

/-- **C81 (a peer connects).** Once a peer connects, headers are being requested if a connected peer has a longer chain and one that does not serve compact
filters is connected.  (Missing: the same if all connected peers serve compact filters; see `Scenario.C81_all_serve_filters`.) -/
theorem C81_connected_partial {env : Env} {now a n : Nat} {network filters outbound : Bool} (r : Run cfg U fail P t0 h m t)
    (l : (Op.negotiated env now a n network filters outbound).Legal U fail)
    (e : { m with out := [] }.step cfg t (.negotiated env now a n network filters outbound) = .ok (m', t')) (hreg : (outbound && !network) = false)
    (hb : Behind ((.negotiated env now a n network filters outbound, m'.out) :: h) t')
    (hu : Usable ((.negotiated env now a n network filters outbound, m'.out) :: h)) :
    Asking cfg ((.negotiated env now a n network filters outbound, m'.out) :: h) := by
  have i := (step_stepped (run_inv r) l e).inv
  simp only [Mgr.step, Res.bind_eq_ok] at e
  obtain ⟨m1, e1, e2⟩ := e
  cases e2
  unfold Mgr.negotiated at e1
  rw [if_neg (by simp [hreg])] at e1
  rw [Res.bind_eq_ok] at e1
  obtain ⟨q, e3, e4⟩ := e1
  cases e4
  exact asking_of_sync (K := fun _ => False) l.1 i e3 .refl hb hu

/-- **C81 (headers arrive).** Once a peer gave us a new tip, headers are being requested if a connected peer has a longer chain still and
one that does not serve compact filters is connected. -/
theorem C81_headers_partial {env : Env} {now a : Nat} {hs : List (Header × Chain.Env)} (r : Run cfg U fail P t0 h m t)
    (l : (Op.headers env now a hs).Legal U fail) (e : { m with out := [] }.step cfg t (.headers env now a hs) = .ok (m', t'))
    (hx : ∃ x ∈ m'.out, x.isImported = true) (hb : Behind ((.headers env now a hs, m'.out) :: h) t')
    (hu : Usable ((.headers env now a hs, m'.out) :: h)) : Asking cfg ((.headers env now a hs, m'.out) :: h) := by
  have i := (step_stepped (run_inv r) l e).inv
  obtain ⟨x, hx, hxi⟩ := hx
  cases headers_ok e with
  | misbehaved => simp only [Mgr.push, List.nil_append, List.mem_singleton] at hx; subst hx; simp [Out.isImported] at hxi
  | ignored => simp at hx
  | known => simp [Mgr.heard] at hx
  | aborted => simp [Mgr.heard] at hx
  | unchanged hlen hi hp hr hf hl e1 =>
    obtain ⟨o, h1, h2⟩ := request_ok (K := (· = .ignore)) e1 rfl
    rw [h1.out] at hx
    rcases h2 with ⟨rfl, -⟩ | ⟨rfl, -⟩
    · simp [Mgr.heard] at hx
    · simp only [Mgr.heard, List.nil_append, List.mem_cons, List.not_mem_nil, or_false] at hx
      rcases hx with rfl | rfl <;> simp [Out.isImported] at hxi
  | changed hlen hi hp hr e1 => exact asking_of_sync (K := fun _ => False) l.1 i e1 .refl hb hu
  | @full p m' header hash height rv cn hlen hi hp hr e1 =>
    obtain ⟨q, k1, -⟩ := updated_get (m := Mgr.heard { m with out := [] } now a p) (env := env) (t := (Chain.importBlocks cfg.chain t hs).1)
      (now := now) (a := a) (hash := hash) (height := height) (r := rv) (c := cn) (p := { p with lastActive := some now }) (by rw [heard_get]; simp) a
    have hc := request_inflight (by rw [k1]; simp) e1
    cases hw : awaiting cfg a ((.headers env now a hs, m'.out) :: h) with
    | none => exact absurd ((i.wait a).none_iff.2 hw) hc
    | some s => exact ⟨a, s, hw⟩

/-- **C81 (a full batch).** A peer that sent 2000 headers which gave us a new tip is asked for those after them. -/
theorem C81_continue {env : Env} {now a : Nat} {hs : List (Header × Chain.Env)} (r : Run cfg U fail P t0 h m t)
    (e : { m with out := [] }.step cfg t (.headers env now a hs) = .ok (m', t')) (hlen : hs.length = 2000) {reorg : Bool} {hash n : Nat}
    {cn rv : List (Nat × Header)} (l : (Op.headers env now a hs).Legal U fail)
    (hx : Out.imported reorg hash n cn rv ∈ m'.out) : Out.getHeaders a ([hash], 0) ∈ m'.out := by
  obtain ⟨⟨header, hch⟩, -⟩ := step_from (run_inv r) l e _ hx
  have hch : Chain.importBlocks cfg.chain t hs = (t', .ok (.tipChanged header hash n rv cn)) := hch
  cases headers_ok e with
  | misbehaved h1 => omega
  | ignored => simp at hx
  | known => simp [Mgr.heard] at hx
  | aborted => simp [Mgr.heard] at hx
  | unchanged h1 hi hp hr => rw [hch] at hr; simp at hr
  | changed h1 => omega
  | @full p m' header' hash' height' rv' cn' hlen hi hp hr e1 =>
    rw [hch] at hr
    cases hr
    obtain ⟨q, k1, -⟩ := updated_get (m := Mgr.heard { m with out := [] } now a p) (env := env) (t := (Chain.importBlocks cfg.chain t hs).1)
      (now := now) (a := a) (hash := hash) (height := n) (r := rv) (c := cn) (p := { p with lastActive := some now }) (by rw [heard_get]; simp) a
    obtain ⟨o, h1, h2⟩ := request_ok (K := (· = .disconnect)) e1 rfl
    rcases h2 with ⟨-, -, h2 | h2⟩ | ⟨rfl, -⟩
    · rw [(updated_fields (env := env)).1, AMap.contains_iff, ← AMap.get_isSome_iff] at h2
      simp [Mgr.heard] at h2
    · rw [k1] at h2; simp at h2
    · rw [h1.out]; simp [zeros]

/-- **C81 (by the timer).** When the timer fires and we last looked ten minutes ago or a peer is disconnected for not answering, then headers are being
requested afterwards if a connected peer has a longer chain and one that does not serve compact filters is connected.
(`timeout` is the configured time-out; it is not also ten minutes.) -/
theorem C81_timer_partial {env : Env} {now : Nat} (r : Run cfg U fail P t0 h m t) (l : (Op.timer env now).Legal U fail)
    (e : { m with out := [] }.step cfg t (.timer env now) = .ok (m', t')) (ht : cfg.timeout ≠ 600000)
    (hd : (looked h).getD 0 + 600000 ≤ now ∨ ∃ a, Out.disconnect a ∈ m'.out)
    (hb : Behind ((.timer env now, m'.out) :: h) t') (hu : Usable ((.timer env now, m'.out) :: h)) :
    Asking cfg ((.timer env now, m'.out) :: h) := by
  have i := (step_stepped (run_inv r) l e).inv
  simp only [Mgr.step, Res.bind_eq_ok] at e
  obtain ⟨m1, e1, e2⟩ := e
  cases e2
  obtain ⟨o, h1, m2, b, o1, o2, -, rfl, g1, g0, g2, -, -, g5, g6, g7, g8⟩ := timer_ok l.1 (run_inv r).clear e1
  rcases g8 with ⟨-, c, e3⟩ | ⟨hb0, e3⟩
  · exact asking_of_sync (K := fun _ => False) l.1 i e3 .refl hb hu
  · rcases idle_cases e3 with ⟨k1, k2⟩ | ⟨-, -, -, q, o3, k1, k2⟩
    · exfalso
      rcases hd with hd | ⟨a, hd⟩
      · rw [g0] at k1
        have := run_looked ht r
        simp only at k1
        rw [this] at k1
        simp only [idleTimeout] at k1
        omega
      · rw [h1.out] at hd
        simp only [Mgr.without, List.nil_append, List.mem_append] at hd
        rcases hd with hd | hd
        · have := g5.2 ⟨a, hd⟩
          rw [hb0] at this; simp at this
        · rcases g7 _ hd with hx | hx
          · exact hx
          · simp at hx
    · exact asking_of_sync l.1 i k1 k2 hb hu

/-! ## C82 — misbehaviour -/

/-- **C82 (exactly these).** A peer is reported as misbehaving exactly if it sends more than 2000 headers.  (So peers that send invalid headers are not; the
claim fails, see `Scenario.C82_invalid_not_reported`.) -/
theorem C82_only_partial (r : Run cfg U fail P t0 h m t) (l : op.Legal U fail) (e : { m with out := [] }.step cfg t op = .ok (m', t')) (a : Nat) :
    Out.misbehaved a ∈ m'.out ↔ ∃ env now hs, op = .headers env now a hs ∧ 2000 < hs.length := by
  constructor
  · intro hx
    exact step_from (run_inv r) l e _ hx
  · rintro ⟨env, now, hs, rfl, hlen⟩
    rw [((C50_unwanted r e).1 hlen).1]
    simp

end Verif.Sync
