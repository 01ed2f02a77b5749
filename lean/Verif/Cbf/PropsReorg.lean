import Verif.Cbf.PropsStop

/-!
# Property C31: re-orgs during a rescan
-/

set_option autoImplicit false

namespace Verif.Cbf

variable (p : Params)

theorem heightOf_some {t : Tree} {b h : Nat} (hh : t.heightOf b = some h) : t.hashes[h]? = some b := by
  unfold Tree.heightOf at hh
  generalize t.hashes = l at hh
  induction l generalizing h with
  | nil => simp at hh
  | cons x l ih =>
    rw [List.idxOf?_cons] at hh
    by_cases hx : x = b
    · subst hx
      simp at hh; subst hh; rfl
    · have hx' : (x == b) = false := by simpa using hx
      simp only [hx', Bool.false_eq_true, if_false] at hh
      rw [Option.map_eq_some_iff] at hh
      obtain ⟨k, hk, rfl⟩ := hh
      simpa using ih hk

theorem Committed.append {es ext : List Entry} {h : Nat} {f : Filter} (hc : Committed p es h f) :
    Committed p (es ++ ext) h f := by
  obtain ⟨hdr, prev, h1, h2, h3⟩ := hc
  have hl : h < es.length := by
    cases he : es[h]? with
    | none => simp [he] at h1
    | some x => exact (List.getElem?_eq_some_iff.1 he).1
  refine ⟨hdr, prev, by rw [List.getElem?_append_left hl]; exact h1, ?_, h3⟩
  cases h with
  | zero => exact h2
  | succ k => simp only [below] at h2 ⊢; rw [List.getElem?_append_left (by omega)]; exact h2

theorem Committed.take {es : List Entry} {h n : Nat} {f : Filter} (hc : Committed p es h f) (hn : h ≤ n) :
    Committed p (es.take (n + 1)) h f := by
  obtain ⟨hdr, prev, h1, h2, h3⟩ := hc
  refine ⟨hdr, prev, by rw [List.getElem?_take, if_pos (by omega)]; exact h1, ?_, h3⟩
  cases h with
  | zero => exact h2
  | succ k => simp only [below] at h2 ⊢; rw [List.getElem?_take, if_pos (by omega)]; exact h2

theorem Committed.lt {es : List Entry} {h : Nat} {f : Filter} (hc : Committed p es h f) : h < es.length := by
  obtain ⟨hdr, prev, h1, _⟩ := hc
  cases he : es[h]? with
  | none => simp [he] at h1
  | some x => exact (List.getElem?_eq_some_iff.1 he).1

/-- Histories in which changes of the active chain are reported at once, re-orgs as what they are, the store does not fail while
the filter headers are rolled back, and no filter above the fork waits in the queue when a re-org comes. -/
inductive InOrder (p : Params) : Tree → Mgr → Prop
  | init (t : Tree) (f : FilterHeaders) (cacheSize : Nat) : InOrder p t (Mgr.new f cacheSize)
  | call {t : Tree} {m m' : Mgr} (e : Env) (op : Op) : InOrder p t m → op.reverts = false →
      m.step p e t op = .ok m' → InOrder p t m'
  | extend {t t' : Tree} {m m' : Mgr} (e : Env) : InOrder p t m → t.hashes <+: t'.hashes →
      m.step p e t' (.headersImported []) = .ok m' → InOrder p t' m'
  | reorg {t t' : Tree} {m m' : Mgr} (e : Env) (fork : Nat) (reverted : List Nat) : InOrder p t m → e.fail = false →
      t'.hashes.take (fork + 1) = t.hashes.take (fork + 1) → reverted.getLast? = some (fork + 1) →
      (∀ h, (m.rescan.received.get h).isSome → h ≤ fork) →
      m.step p e t' (.headersImported reverted) = .ok m' → InOrder p t' m'

/-- What is in memory fits the active chain and the filter headers. -/
structure Fits (p : Params) (t : Tree) (m : Mgr) : Prop where
  cacheOK : CacheOK List.length m.rescan.cache
  cache : ∀ h f, m.rescan.cache.get h = some f → Committed p m.filters.all h f
  queue : ∀ h f b c, m.rescan.received.get h = some (f, b, c) → t.hashes[h]? = some b ∧ Committed p m.filters.all h f

theorem step_grow (e : Env) (t : Tree) (m m' : Mgr) (op : Op) (h : m.step p e t op = .ok m') (hr : op.reverts = false) :
    ∃ ext, m'.filters.all = m.filters.all ++ ext := by
  have hc := step_filters p e t m m' op h
  rw [hr] at hc
  generalize m'.filters = f' at hc
  cases hc with
  | same => exact ⟨[], by simp⟩
  | imported hs =>
    refine ⟨chainHeaders p (tipHeader m.filters) hs, ?_⟩
    unfold importHeaders
    cases e.fail <;> simp [FilterHeaders.all]
  | rolledBack k hx => cases hx

theorem Fits.source {t : Tree} {m : Mgr} (hf : Fits p t m) {op : Op} {h b : Nat} {f : Filter} (hs : Source p t m op h f b) :
    t.hashes[h]? = some b ∧ Committed p m.filters.all h f := by
  rcases hs with ⟨c, h1⟩ | ⟨h1, h2⟩ | ⟨peer, _, h2, h3⟩
  · exact hf.queue h f b c h1
  · exact ⟨h2, hf.cache h f h1⟩
  · exact ⟨heightOf_some h2, h3⟩

theorem Fits.step {t : Tree} {m m' : Mgr} (hf : Fits p t m) (e : Env) (op : Op) (h : m.step p e t op = .ok m')
    (hr : op.reverts = false) : Fits p t m' := by
  obtain ⟨ext, hx⟩ := step_grow p e t m m' op h hr
  have sf := step_facts p e t m m' op h hf.cacheOK
  refine ⟨sf.cacheOK, ?_, ?_⟩
  · intro k f hk
    rw [hx]
    rcases sf.cache k f hk with h1 | ⟨_, _, _, _, h3⟩
    · exact (hf.cache k f h1).append
    · exact h3.append
  · intro k f b c hk
    obtain ⟨h1, h2⟩ := hf.source p (sf.queue k f b c hk)
    rw [hx]; exact ⟨h1, h2.append⟩

theorem Fits.retree {t t' : Tree} {m : Mgr} (hf : Fits p t m)
    (ht : ∀ h, (m.rescan.received.get h).isSome → t'.hashes[h]? = t.hashes[h]?) : Fits p t' m :=
  ⟨hf.cacheOK, hf.cache, fun h f b c hq => ⟨by rw [ht h (by simp [hq])]; exact (hf.queue h f b c hq).1,
    (hf.queue h f b c hq).2⟩⟩

/-- C31.  A reported re-org whose lowest reverted height is `fork + 1` takes the filter headers and the filters in memory back to
the fork, and the rescan, if it had passed the fork, to the first reverted height (or to its start). -/
theorem C31_rewinds (e : Env) (t' : Tree) (m m' : Mgr) (fork : Nat) (reverted : List Nat) (hfail : e.fail = false)
    (hr : reverted.getLast? = some (fork + 1)) (hc : CacheOK List.length m.rescan.cache)
    (h : m.step p e t' (.headersImported reverted) = .ok m') :
    m'.filters.all = m.filters.all.take (fork + 1) ∧
    (m.filters.height ≤ fork ∨ ∀ k f, m'.rescan.cache.get k = some f → m.rescan.cache.get k = some f ∧ k ≤ fork) ∧
    (fork < m.filters.height → m.rescan.active = true → m'.rescan.current =
      if fork + 1 < m.rescan.current then max (fork + 1) m.rescan.start else m.rescan.current) := by
  simp only [Mgr.step, hr] at h
  rw [Res.bind_eq_ok] at h
  obtain ⟨k, hk, h⟩ := h
  have hkf : k = fork := by
    unfold subUsize at hk
    rw [if_pos (by omega)] at hk
    cases hk; omega
  subst hkf
  rw [Res.bind_eq_ok] at h
  obtain ⟨m1, h1, h⟩ := h
  have q := quiet_sync p e t' _ m' h
  have hrs : m'.rescan.current = m1.rescan.current ∧ m'.rescan.cache = m1.rescan.cache := by
    rw [q.rescan]; exact ⟨rfl, rfl⟩
  rw [q.filters, hrs.1, hrs.2]
  rcases rollback_cases e m m1 k h1 with ⟨rfl, hle⟩ | ⟨hlt, c, hcr, hm1, hok, _⟩
  · refine ⟨?_, Or.inl hle, fun hlt => absurd hlt (by omega)⟩
    rw [List.take_of_length_le]
    simp only [FilterHeaders.all, List.length_cons]
    simp only [FilterHeaders.height] at hle
    omega
  · obtain ⟨h5, _, h6, _⟩ := hok hfail
    refine ⟨?_, Or.inr ?_, fun _ ha => h6 ha⟩
    · rw [h5]; simp [rollbackHeaders, FilterHeaders.all]
    · intro j f hj
      have : m1.rescan.cache = c := by rw [hm1]
      rw [this] at hj
      exact (rollback_cacheOK hc hcr).2 j f hj

theorem Fits.reorg {t t' : Tree} {m m' : Mgr} (hf : Fits p t m) (e : Env) (fork : Nat) (reverted : List Nat)
    (hfail : e.fail = false) (ht : t'.hashes.take (fork + 1) = t.hashes.take (fork + 1))
    (hr : reverted.getLast? = some (fork + 1)) (hq : ∀ h, (m.rescan.received.get h).isSome → h ≤ fork)
    (h : m.step p e t' (.headersImported reverted) = .ok m') : Fits p t' m' := by
  have ht' : ∀ k, k ≤ fork → t'.hashes[k]? = t.hashes[k]? := by
    intro k hk
    have := congrArg (fun l : List Nat => l[k]?) ht
    simpa [List.getElem?_take, show k < fork + 1 by omega] using this
  have hf1 : Fits p t' m := hf.retree p (fun k hk => ht' k (hq k hk))
  have sf := step_facts p e t' m m' (.headersImported reverted) h hf.cacheOK
  obtain ⟨r1, r2, _⟩ := C31_rewinds p e t' m m' fork reverted hfail hr hf.cacheOK h
  have hle : ∀ k f, Committed p m.filters.all k f → m.filters.height ≤ fork → k ≤ fork := by
    intro k f hk hh
    have := hk.lt
    simp only [FilterHeaders.all, List.length_cons] at this
    simp only [FilterHeaders.height] at hh
    omega
  have hcache : ∀ k f, m'.rescan.cache.get k = some f → Committed p m.filters.all k f ∧ k ≤ fork := by
    intro k f hk
    have h0 : m.rescan.cache.get k = some f := by
      rcases sf.cache k f hk with h1 | ⟨_, _, h1, _⟩
      · exact h1
      · cases h1
    rcases r2 with r2 | r2
    · exact ⟨hf.cache k f h0, hle k f (hf.cache k f h0) r2⟩
    · exact ⟨hf.cache k f h0, (r2 k f hk).2⟩
  refine ⟨sf.cacheOK, ?_, ?_⟩
  · intro k f hk
    obtain ⟨h1, h2⟩ := hcache k f hk
    rw [r1]; exact h1.take p h2
  · intro k f b c hk
    have hs := sf.queue k f b c hk
    obtain ⟨h1, h2⟩ := hf1.source p hs
    refine ⟨h1, ?_⟩
    rw [r1]
    refine h2.take p ?_
    -- the filter was in the queue before, or comes from the cache after the rollback
    simp only [Mgr.step, hr] at h
    rw [Res.bind_eq_ok] at h
    obtain ⟨fk, hfk, h⟩ := h
    rw [Res.bind_eq_ok] at h
    obtain ⟨m1, hm1, h⟩ := h
    have q := quiet_sync p e t' _ m' h
    rcases q.queued k _ hk with h3 | ⟨h3, _⟩
    · have hrec : m1.rescan.received = m.rescan.received := by
        rcases rollback_cases e m m1 fk hm1 with ⟨rfl, _⟩ | ⟨_, c, _, hx, _⟩
        · rfl
        · rw [hx]
      rw [hrec] at h3
      exact hq k (by simp [h3])
    · have : m'.rescan.cache = m1.rescan.cache := by rw [q.rescan]
      rw [← this] at h3
      exact (hcache k f h3).2

theorem InOrder.fits {t : Tree} {m : Mgr} (h : InOrder p t m) : Fits p t m := by
  induction h with
  | init t f c => exact ⟨new_cacheOK f c, by simp [Mgr.new, Rescan.new, Cache.get], by simp [Mgr.new, Rescan.new]⟩
  | @call t m m' e op _ hr hs ih => exact ih.step p e op hs hr
  | @extend t t' m m' e _ ht hs ih =>
    refine (ih.retree p (t' := t') ?_).step p e _ hs rfl
    intro k hk
    obtain ⟨x, hx⟩ := Option.isSome_iff_exists.1 hk
    obtain ⟨f, b, c⟩ := x
    have h1 := (ih.queue k f b c hx).1
    obtain ⟨ext, hext⟩ := ht
    rw [← hext, List.getElem?_append_left (List.getElem?_eq_some_iff.1 h1).1]
  | @reorg t t' m m' e fork reverted _ hfail ht hr hq hs ih => exact ih.reorg p e fork reverted hfail ht hr hq hs

/-- C31, what holds.  In the histories of `InOrder`, every filter reported as scanned is the filter of the block at that height
of the present active chain and the one the present filter headers commit to; it matched iff it contains what is watched.
Missing: if a filter above the fork waits in the queue when the re-org comes, the filter of the reverted block is scanned
(`C31_scans_reverted_block`). -/
theorem C31_active_chain_partial {t : Tree} {m m' : Mgr} (hi : InOrder p t m) (e : Env) (op : Op)
    (h : m.step p e t op = .ok m') :
    ∃ o, m'.out = m.out ++ o ∧ ∀ b k v mt c, .filterProcessed b k v mt c ∈ eventsOf o →
      t.hashes[k]? = some b ∧ ∃ f, Committed p m.filters.all k f ∧
        (mt = true ↔ Matches p m'.rescan.watch m'.rescan.transactions f b) := by
  have hf := hi.fits p
  obtain ⟨o, h1, h2⟩ := (step_facts p e t m m' op h hf.cacheOK).out
  refine ⟨o, h1, fun b k v mt c hm => ?_⟩
  obtain ⟨f, h3, h4⟩ := h2 b k v mt c hm
  obtain ⟨h5, h6⟩ := hf.source p h3
  exact ⟨h5, f, h6, h4⟩

/-- C31.  After a re-org, the heights reported as scanned are, in order and without gap, those from the height the rescan was
rewound to. -/
theorem C31_rescans {m' m2 : Mgr} (hr : PlainRun p m' m2) :
    m'.rescan.current ≤ m2.rescan.current ∧
    processedHeights m2.out = processedHeights m'.out ++
      List.range' m'.rescan.current (m2.rescan.current - m'.rescan.current) := by
  induction hr with
  | nil => exact Order.same [] rfl (by simp) rfl
  | @cons b c e' t' op hab hp hs ih => exact Order.trans ih (step_order p e' t' b c op hs hp)

theorem run_inOrder (t : Tree) : ∀ (ops : List (Env × Tree × Op)) (m m' : Mgr), InOrder p t m →
    (∀ x ∈ ops, x.2.1 = t ∧ x.2.2.reverts = false) → m.run p ops = .ok m' → InOrder p t m'
  | [], m, m', h, _, hr => by cases hr; exact h
  | (e, t1, op) :: ops, m, m', h, hf, hr => by
    unfold Mgr.run at hr
    rw [Res.bind_eq_ok] at hr
    obtain ⟨m1, h1, h2⟩ := hr
    obtain ⟨rfl, h3⟩ := hf (e, t1, op) (by simp)
    exact run_inOrder _ ops m1 m' (.call e op h h3 h1) (fun x hx => hf x (by simp [hx])) h2

end Verif.Cbf

namespace Verif.Cbf.Scenario
open Verif.Cbf

/-- Heights 1 and 2 are scanned, then block 103 is replaced by 203 and 204. -/
def cleanReorg : List (Env × Tree × Op) :=
  setup ++ [(at_ 100002, t, .rescan (.included 1) .unbounded [3]), f1 100003, f2 100003, f3 100003]

/-- C31: after three scanned heights, a re-org takes the rescan back to height 3; the state is covered by the theorem. -/
example : ∃ m, InOrder p t' m ∧ m.rescan.current = 3 ∧ m.filters.height = 2 ∧ processedHeights m.out = [1, 2, 3] := by
  have h0 : ∃ m, m0.run p cleanReorg = .ok m ∧ m.rescan.received = [] ∧
      look (fun m => (m.rescan.current, m.filters.height, processedHeights m.out))
        (m.step p (at_ 100004) t' (.headersImported [3])) = some (3, 2, [1, 2, 3]) := by
    have hd : look (fun m => m.rescan.received) (m0.run p cleanReorg) = some [] ∧
        look (fun m => look (fun m => (m.rescan.current, m.filters.height, processedHeights m.out))
          (m.step p (at_ 100004) t' (.headersImported [3]))) (m0.run p cleanReorg) = some (some (3, 2, [1, 2, 3])) := by
      decide
    cases hr : m0.run p cleanReorg with
    | ok m =>
      rw [hr] at hd
      simp only [look, Option.some.injEq] at hd
      exact ⟨m, rfl, hd.1, hd.2⟩
    | err _ => rw [hr] at hd; simp [look] at hd
    | panic => rw [hr] at hd; simp [look] at hd
  obtain ⟨m, h1, h2, h3⟩ := h0
  have hi := run_inOrder p t cleanReorg m0 m (.init t _ _) (by decide) h1
  cases hs : m.step p (at_ 100004) t' (.headersImported [3]) with
  | ok m' =>
    rw [hs] at h3
    simp only [look, Option.some.injEq, Prod.mk.injEq] at h3
    exact ⟨m', .reorg (at_ 100004) 2 [3] hi rfl rfl rfl (by simp [h2]) hs, h3.1, h3.2.1, h3.2.2⟩
  | err _ => rw [hs] at h3; simp [look] at h3
  | panic => rw [hs] at h3; simp [look] at h3

end Verif.Cbf.Scenario
