import Verif.Cbf.PropsReq

/-!
# Property C61: what becomes of matches
-/

set_option autoImplicit false

namespace Verif.Cbf

variable (p : Params)

theorem requestBlocks_spec : ∀ (ms : List (Nat × Nat)) (m : Mgr), ms.Pairwise (fun x y => x.1 < y.1) →
    (∀ h ∈ m.pending, h ∈ (m.requestBlocks ms).pending) ∧
    ∃ o, (m.requestBlocks ms).out = m.out ++ o ∧
      ∀ h k, (h, k) ∈ ms → h ∈ (m.requestBlocks ms).pending ∧ (h ∈ m.pending ∨ Out.getBlock k ∈ o)
  | [], m, _ => ⟨fun _ h => h, [], by simp [Mgr.requestBlocks]⟩
  | (a, b) :: ms, m, hp => by
    rw [List.pairwise_cons] at hp
    unfold Mgr.requestBlocks
    split
    · rename_i hc
      have hc : a ∈ m.pending := by simpa using hc
      obtain ⟨h1, o, h2, h3⟩ := requestBlocks_spec ms m hp.2
      refine ⟨h1, o, h2, fun h k hk => ?_⟩
      rcases List.mem_cons.1 hk with hk | hk
      · cases hk; exact ⟨h1 _ hc, Or.inl hc⟩
      · exact h3 h k hk
    · obtain ⟨h1, o, h2, h3⟩ := requestBlocks_spec ms (Mgr.emit { m with pending := a :: m.pending } [.getBlock b]) hp.2
      refine ⟨fun h hh => h1 h (List.mem_cons_of_mem _ hh), .getBlock b :: o, by rw [h2]; simp [Mgr.emit], fun h k hk => ?_⟩
      rcases List.mem_cons.1 hk with hk | hk
      · cases hk; exact ⟨h1 _ (List.mem_cons_self ..), Or.inr (List.mem_cons_self ..)⟩
      · obtain ⟨h4, h5⟩ := h3 h k hk
        refine ⟨h4, ?_⟩
        rcases h5 with h5 | h5
        · rcases List.mem_cons.1 h5 with h6 | h6
          · have := hp.1 _ hk; simp only at this; omega
          · exact Or.inl h6
        · exact Or.inr (List.mem_cons_of_mem _ h5)

theorem afterFilter_spec (ms : List (Nat × Nat)) (m : Mgr) (hp : ms.Pairwise (fun x y => x.1 < y.1)) :
    (∀ h ∈ m.pending, h ∈ (m.afterFilter ms).pending) ∧
    ∃ o, (m.afterFilter ms).out = m.out ++ o ∧
      ∀ h k, (h, k) ∈ ms → h ∈ (m.afterFilter ms).pending ∧ (h ∈ m.pending ∨ Out.getBlock k ∈ o) := by
  obtain ⟨h1, o, h2, h3⟩ := requestBlocks_spec ms m hp
  unfold Mgr.afterFilter
  simp only
  split
  · refine ⟨h1, o ++ [_], by simp only [Mgr.emit, h2, List.append_assoc]; rfl, fun h k hk => ?_⟩
    obtain ⟨h4, h5⟩ := h3 h k hk
    exact ⟨h4, h5.imp_right (fun h => List.mem_append_left _ h)⟩
  · exact ⟨h1, o, h2, h3⟩

/-- C61, first half.  When handling a filter message finds a match, the block is then waited for, and it was requested unless
it was waited for already. -/
theorem C61_match_requested (e : Env) (t : Tree) (m m' : Mgr) (peer ft block : Nat) (f : Filter)
    (h : m.step p e t (.cfilter peer ft block f) = .ok m') :
    ∃ o, m'.out = m.out ++ o ∧ ∀ b k v c, Ev.filterProcessed b k v true c ∈ eventsOf o →
      k ∈ m'.pending ∧ (k ∈ m.pending ∨ Out.getBlock b ∈ o) := by
  have hc := receivedCFilter_cases p e t m peer ft block f
  simp only [Mgr.step] at h
  generalize m.receivedCFilter p e t peer ft block f = g at h hc
  cases hc with
  | ignored hi => cases h; exact ⟨[], by simp, by simp [eventsOf]⟩
  | invalid hh h0 h1 h2 h3 => cases h; exact ⟨[_], rfl, by simp [eventsOf]⟩
  | unsolicited hh h0 h1 h2 h3 =>
    cases h
    obtain ⟨_, ks, o, h4, h5⟩ := afterFilter_frame [] (m.emit [.event (.filterReceived peer block hh f)])
    refine ⟨.event (.filterReceived peer block hh f) :: (ks.map .getBlock ++ o), by rw [h4]; simp [Mgr.emit], ?_⟩
    intro b k v c hm
    rcases h5 with rfl | ⟨_, rfl⟩ <;>
      simp [eventsOf, List.filterMap_append] at hm
  | scanned hh c r ms es n h0 h1 h2 h3 h4 h5 =>
    cases h
    obtain ⟨n', r', ms', es', stp, g1, g2, g3, g4, g5, g6, g7, g8, g9, g10, g11⟩ := C29_process p
      { m.rescan with requested := m.rescan.requested.filter (· ≠ hh), cache := c.2,
                      received := m.rescan.received.insert hh (f, block, false) }
    rw [h5] at g1
    simp only [Prod.mk.injEq] at g1
    obtain ⟨rfl, rfl, rfl, rfl⟩ := g1
    set m1 : Mgr := { m with
      rescan := r, lastProcessed := if 0 < n then some e.now else m.lastProcessed,
      out := m.out ++ .event (.filterReceived peer block hh f) :: (es' ++ stp).map .event } with hm1
    obtain ⟨a1, ks, o2, a3, a4⟩ := afterFilter_frame ms m1
    obtain ⟨b1, o, b2, b3⟩ := afterFilter_spec ms m1 g8
    refine ⟨.event (.filterReceived peer block hh f) :: (es' ++ stp).map .event ++ o, by rw [b2, hm1]; simp, ?_⟩
    have ho : o = ks.map .getBlock ++ o2 := by
      rw [a3] at b2; exact (List.append_cancel_left b2).symm
    intro b k v cc hm
    have hm' : Ev.filterProcessed b k v true cc ∈ es' := by
      rw [eventsOf_append] at hm
      rcases List.mem_append.1 hm with hm | hm
      · have : eventsOf (.event (.filterReceived peer block hh f) :: (es' ++ stp).map .event) =
            .filterReceived peer block hh f :: (es' ++ stp) := eventsOf_map (_ :: (es' ++ stp))
        rw [this] at hm
        simp only [List.mem_cons, List.mem_append] at hm
        rcases hm with hm | hm | hm
        · cases hm
        · exact hm
        · rcases g10 with ⟨rfl, _⟩ | ⟨rfl, _⟩
          · cases hm
          · simp at hm
      · rw [ho, eventsOf_append, eventsOf_getBlocks] at hm
        rcases a4 with rfl | ⟨_, rfl⟩ <;> simp [eventsOf] at hm
    obtain ⟨i, hi⟩ := List.getElem?_of_mem hm'
    have hin : i < n := by rw [← g5]; exact (List.getElem?_eq_some_iff.1 hi).1
    obtain ⟨x, hx⟩ := Option.isSome_iff_exists.1 (g3 i hin)
    obtain ⟨ev, he, v', mt', hev, hmt, _⟩ := g6 i x hin hx
    rw [hi] at he; cases he
    simp only [Ev.filterProcessed.injEq] at hev
    obtain ⟨e1, e2, e3, e4, e5⟩ := hev
    have hmem : (k, b) ∈ ms := by
      rw [g7]
      simp only at e2 hmt hx ⊢
      refine ⟨by omega, by omega, x, by rw [e2]; exact hx, e1.symm, ?_⟩
      rw [e1]; exact hmt.1 e4.symm
    obtain ⟨b4, b5⟩ := b3 k b hmem
    exact ⟨b4, b5.imp_right (fun h => List.mem_append_right _ h)⟩
  | panicked m' hh hp => cases h

/-- The call ends the wait for the block at height `h`: the block was processed or disconnected. -/
def Op.settles (h : Nat) : Op → Prop
  | .blockProcessed _ k => k = h
  | .blockDisconnected k => k = h
  | _ => False

theorem step_pending (e : Env) (t : Tree) (m m' : Mgr) (op : Op) (hs : m.step p e t op = .ok m') (h : Nat)
    (hh : h ∈ m.pending) (hn : ¬ op.settles h) : h ∈ m'.pending := by
  have hq : ∀ {m''}, Quiet t m m'' → h ∈ m''.pending := fun q => by rw [q.pending]; exact hh
  cases op with
  | init => exact hq (quiet_idle p e t m m' hs)
  | peerNegotiated addr ob hf pers =>
    simp only [Mgr.step] at hs
    split at hs
    · cases hs; exact hh
    · split at hs
      · cases hs; exact hh
      · rw [(quiet_sync p e t _ m' hs).pending]; exact hh
  | peerDisconnected addr => cases hs; exact hh
  | blockProcessed block height =>
    simp only [Mgr.step] at hs
    split at hs
    · cases hs
      simp only [Mgr.emit, List.mem_filter]
      exact ⟨hh, by simpa [Op.settles] using fun hx => hn (Eq.symm hx)⟩
    · cases hs; exact hh
  | blockDisconnected height =>
    cases hs
    simp only [List.mem_filter]
    exact ⟨hh, by simpa [Op.settles] using fun hx => hn (Eq.symm hx)⟩
  | headersImported reverted =>
    simp only [Mgr.step] at hs
    split at hs
    · rw [Res.bind_eq_ok] at hs
      obtain ⟨fork, _, hs⟩ := hs
      rw [Res.bind_eq_ok] at hs
      obtain ⟨m1, h1, hs⟩ := hs
      rw [(quiet_sync p e t _ m' hs).pending]
      rcases rollback_cases e m m1 fork h1 with ⟨rfl, _⟩ | ⟨_, c, _, hm1, _⟩
      · exact hh
      · rw [hm1]; exact hh
    · exact hq (quiet_sync p e t m m' hs)
  | txConfirmed txid => cases hs; exact hh
  | txReverted txid scripts => cases hs; exact hh
  | cfheaders peer msg =>
    obtain ⟨m0, o, _, _, _, _, hp1, hp2⟩ := receivedCFHeaders_frame p e t m msg
    have hp : (m.receivedCFHeaders p e t msg).1.pending = m.pending := by rw [hp1, hp2.pending]
    simp only [Mgr.step] at hs
    generalize m.receivedCFHeaders p e t msg = g at hs hp
    obtain ⟨g1, g2⟩ := g
    simp only at hp
    cases g2 with
    | ok n => cases hs; rw [hp]; exact hh
    | err er => cases er <;> (injection hs with hs; rw [← hs]; show h ∈ g1.pending; rw [hp]; exact hh)
    | panic => cases hs
  | getcfheaders peer ft start stop =>
    have hc := receivedGetCFHeaders_frame p t m peer ft start stop
    simp only [Mgr.step] at hs
    generalize m.receivedGetCFHeaders p t peer ft start stop = g at hs hc
    obtain ⟨g1, g2⟩ := g
    have hf : g1.pending = m.pending := by
      rcases hc with h1 | ⟨_, _, h1⟩ <;> (simp only at h1; subst h1; rfl)
    cases g2 with
    | ok n => cases hs; rw [hf]; exact hh
    | err er => cases er <;> (injection hs with hs; rw [← hs]; show h ∈ g1.pending; rw [hf]; exact hh)
    | panic => cases hs
  | cfilter peer ft block f =>
    have hc := receivedCFilter_cases p e t m peer ft block f
    simp only [Mgr.step] at hs
    generalize m.receivedCFilter p e t peer ft block f = g at hs hc
    cases hc with
    | ignored hi => cases hs; exact hh
    | invalid _ h0 h1 h2 h3 => cases hs; exact hh
    | unsolicited k h0 h1 h2 h3 =>
      cases hs
      exact (afterFilter_spec [] (m.emit [.event (.filterReceived peer block k f)]) List.Pairwise.nil).1 h hh
    | scanned k c r ms es n h0 h1 h2 h3 h4 h5 =>
      cases hs
      obtain ⟨n', r', ms', es', stp, g1, _, _, _, _, _, _, g8, _⟩ := C29_process p
        { m.rescan with requested := m.rescan.requested.filter (· ≠ k), cache := c.2,
                        received := m.rescan.received.insert k (f, block, false) }
      rw [h5] at g1
      simp only [Prod.mk.injEq] at g1
      obtain ⟨_, rfl, _, _⟩ := g1
      exact (afterFilter_spec ms _ g8).1 h hh
    | panicked m' _ hp => cases hs
  | timer => exact hq (quiet_timerExpired p e t m m' hs)
  | watch scripts => cases hs; exact hh
  | watchTransaction txid scripts => cases hs; exact hh
  | rescan start stop w =>
    have hc := startRescan_cases p e t m start stop w
    simp only [Mgr.step] at hs
    generalize m.startRescan p e t start stop w = g at hs hc
    cases hc with
    | panicked m' => simp at hs
    | nothing stop _ => cases hs; exact hh
    | processed stop m1 r ms es n _ q hp =>
      cases hs
      have := q.pending
      simp only [Mgr.emit]
      rw [this]; exact hh
  | getCFilters start stop =>
    have hqq := quiet_getCFilters e t m start stop
    simp only [Mgr.step] at hs
    generalize m.getCFilters e t start stop = g at hs hqq
    obtain ⟨g1, g2⟩ := g
    cases g2 <;> simp at hs <;> (subst hs; exact hq hqq)

/-- Any calls that do not settle the block at height `h`. -/
inductive WaitRun (p : Params) (h : Nat) : Mgr → Mgr → Prop
  | nil (m : Mgr) : WaitRun p h m m
  | cons {a b c : Mgr} (e : Env) (t : Tree) (op : Op) :
      WaitRun p h a b → ¬ op.settles h → b.step p e t op = .ok c → WaitRun p h a c

/-- C61.  When a filter message makes the client find a match at some height, then, whatever happens before that block is
processed or disconnected — further messages, re-orgs, new rescans — processing a block of that height reports it with a
`BlockMatched` event.  (Missing for the full property: matches on filters found in memory when a rescan starts; these are never
reported, see `C61_cached_match_not_reported`.) -/
theorem C61_reported_partial (e e' : Env) (t t' : Tree) (m m1 m2 m3 : Mgr) (peer ft block : Nat) (f : Filter)
    (h1 : m.step p e t (.cfilter peer ft block f) = .ok m1) {o : List Out} (ho : m1.out = m.out ++ o)
    {b k : Nat} {v c : Bool} (hm : Ev.filterProcessed b k v true c ∈ eventsOf o) (hw : WaitRun p k m1 m2)
    (b' : Nat) (h2 : m2.step p e' t' (.blockProcessed b' k) = .ok m3) :
    ∃ o', m3.out = m2.out ++ .event (.blockMatched b' k) :: o' := by
  obtain ⟨o1, g1, g2⟩ := C61_match_requested p e t m m1 peer ft block f h1
  have : o1 = o := by rw [ho] at g1; exact (List.append_cancel_left g1).symm
  subst this
  have hk := (g2 b k v c hm).1
  have hk2 : k ∈ m2.pending := by
    clear h2
    induction hw with
    | nil => exact hk
    | @cons b c e t op _ hn hs ih => exact step_pending p e t b c op hs k ih hn
  simp only [Mgr.step] at h2
  rw [if_pos (by simpa using hk2)] at h2
  cases h2
  exact ⟨[_], by simp only [Mgr.emit, List.append_assoc]; rfl⟩

end Verif.Cbf

namespace Verif.Cbf.Scenario
open Verif.Cbf

/-- C61: a match found by a filter message is reported when its block arrives, here after another rescan was started. -/
example : look (fun m => (eventsOf m.out).filter (fun o => o matches .blockMatched _ _))
    (m0.run p (setup ++ [(at_ 100002, t, .rescan (.included 1) .unbounded [2]), f1 100003, f2 100003,
      (at_ 100004, t, .rescan (.included 3) .unbounded [9]), (at_ 100005, t, .blockProcessed 102 2)])) =
    some [.blockMatched 102 2] := by decide

/-- C65, C63: requests of a run. -/
example : look (fun m => m.out.filter (fun o => o matches .getCFHeaders _ _ _ | .getCFilters _ _ _))
    (m0.run p (setup ++ [(at_ 100002, t, .rescan (.included 1) .unbounded [2])])) =
    some [.getCFHeaders 1 1 103, .getCFilters 1 1 103] := by decide

theorem run_delivered (t : Tree) : ∀ (ops : List (Env × Tree × Op)) (m m' : Mgr), Delivered p t m →
    (∀ x ∈ ops, x.1.fail = false ∧ x.2.1 = t ∧ x.2.2.reverts = false) → m.run p ops = .ok m' → Delivered p t m'
  | [], m, m', h, _, hr => by cases hr; exact h
  | (e, t1, op) :: ops, m, m', h, hf, hr => by
    unfold Mgr.run at hr
    rw [Res.bind_eq_ok] at hr
    obtain ⟨m1, h1, h2⟩ := hr
    obtain ⟨h4, rfl, h3⟩ := hf (e, t1, op) (by simp)
    exact run_delivered _ ops m1 m' (.call e op h h4 h3 h1) (fun x hx => hf x (by simp [hx])) h2

/-- C60: the theorem covers a state in the middle of a rescan with a connected peer. -/
example : ∃ m, Delivered p t m ∧ m.rescan.active = true ∧ m.peers.keys = [1] ∧ m.filters.height = 3 := by
  have hd : look (fun m => (m.rescan.active, m.peers.keys, m.filters.height)) (m0.run p scan) = some (true, [1], 3) := by decide
  cases hr : m0.run p scan with
  | ok m =>
    rw [hr] at hd
    simp only [look, Option.some.injEq, Prod.mk.injEq] at hd
    exact ⟨m, run_delivered t scan m0 m (.init t _ _ rfl (by decide)) (by decide) hr, hd.1, hd.2.1, hd.2.2⟩
  | err _ => rw [hr] at hd; simp [look] at hd
  | panic => rw [hr] at hd; simp [look] at hd

/-- The environment of the runs is fair. -/
theorem fair_at (now : Nat) : (at_ now).Fair := by
  refine ⟨?_, ?_, fun l => List.Perm.refl l, fun l => List.Perm.refl l⟩
  · intro k m x h; exact List.mem_of_mem_head? h
  · intro k m h
    cases m with
    | nil => exact absurd rfl h
    | cons x m => rfl

/-- C65: a history with fair choices in which requests were sent. -/
example : ∃ l m, FairLog p l m ∧ m.out = [.getCFHeaders 1 1 103, .timer 6000] :=
  ⟨_, _, .step (at_ 100000) t (.peerNegotiated 1 true true false) (.init ⟨(5, 6), [], [(5, 6)]⟩ 100) (fair_at _) rfl, by decide⟩

end Verif.Cbf.Scenario
