import Verif.Cbf.PropsReorg

/-!
# Properties C59 and C60: the filter manager does not crash
-/

set_option autoImplicit false

namespace Verif.Cbf

variable (p : Params)

/-- What the manager relies on: the size accounting of the cache, the store in line with memory, and filter headers not
reaching beyond the active chain. -/
structure Sound (t : Tree) (m : Mgr) : Prop where
  cacheOK : CacheOK List.length m.rescan.cache
  store : m.filters.store = m.filters.all
  height : m.filters.height < t.hashes.length

theorem byHeight_some {t : Tree} {h : Nat} (hh : h < t.hashes.length) : ∃ b, t.byHeight h = some b := by
  exact ⟨_, List.getElem?_eq_getElem hh⟩

theorem askFilters_ok (t : Tree) (peers : List Nat) : ∀ (rs : List (Nat × Nat)) (i : Nat) (m : Mgr),
    (∀ x ∈ rs, x.2 < t.hashes.length) → (Mgr.askFilters t peers i m rs).2 = .ok ()
  | [], i, m, _ => by simp [Mgr.askFilters]
  | (a, b) :: rs, i, m, h => by
    unfold Mgr.askFilters
    split
    · rfl
    · obtain ⟨k, hk⟩ := byHeight_some (h (a, b) (by simp))
      simp only [hk]
      exact askFilters_ok t peers rs (i + 1) _ (fun x hx => h x (by simp [hx]))

/-- Asking for filters: what can go wrong. -/
theorem getCFilters_result (e : Env) (t : Tree) (m : Mgr) (a b : Nat) (hh : m.filters.height < t.hashes.length) :
    (m.getCFilters e t a b).2 =
      if m.peers = [] then .err .notConnected else if b < a then .err .invalidRange
      else if b ≤ m.filters.height then .ok () else .panic := by
  unfold Mgr.getCFilters
  split
  · rfl
  · split
    · rfl
    · split
      · simp only
        refine askFilters_ok t _ _ 0 _ ?_
        intro x hx
        have := (C28_requests t m.rescan a b).2.1 x hx
        omega
      · rfl

theorem sync_ok {E : Type} (e : Env) (t : Tree) (m : Mgr) (hh : m.filters.height < t.hashes.length) :
    ∃ m', (m.sync p e t : Res E Mgr) = .ok m' := by
  have hle : m.filters.height ≤ t.height := by unfold Tree.height; omega
  have hg : ∀ m1 : Mgr, m1.filters = m.filters →
      ∃ m', (if m1.rescan.active = true then
        match m1.getCFilters e t m1.rescan.current m1.filters.height with
        | (_, .panic) => .panic
        | (m, _) => .ok m
      else .ok m1 : Res E Mgr) = .ok m' := by
    intro m1 h1
    split
    · have := getCFilters_result e t m1 m1.rescan.current m1.filters.height (by rw [h1]; exact hh)
      generalize m1.getCFilters e t m1.rescan.current m1.filters.height = g at this
      obtain ⟨g1, g2⟩ := g
      cases g2 with
      | ok u => exact ⟨g1, rfl⟩
      | err u => exact ⟨g1, rfl⟩
      | panic =>
        simp only at this
        split at this
        · cases this
        · split at this
          · cases this
          · rw [if_pos (Nat.le_refl _)] at this; cases this
    · exact ⟨m1, rfl⟩
  unfold Mgr.sync
  rw [if_pos hle]
  split
  · exact ⟨m, rfl⟩
  · by_cases hlt : m.filters.height < t.height
    · rw [if_pos hlt]
      unfold Mgr.sendGetCFHeaders
      rw [if_neg (by omega)]
      simp only
      have hb : m.filters.height + 1 + min maxCFHeaders (t.height - (m.filters.height + 1) + 1) - 1 < t.hashes.length := by
        unfold Tree.height maxCFHeaders at *; omega
      obtain ⟨k, hk⟩ := byHeight_some hb
      simp only [hk, Res.ok_bind]
      exact hg _ (quiet_getCFHeaders e t m _ _).filters
    · rw [if_neg hlt]
      simp only [Res.ok_bind]
      exact hg m rfl

theorem idle_ok {E : Type} (e : Env) (t : Tree) (m : Mgr) (hh : m.filters.height < t.hashes.length) :
    ∃ m', (m.idle p e t : Res E Mgr) = .ok m' := by
  unfold Mgr.idle
  split
  · obtain ⟨m', h⟩ := sync_ok (E := E) p e t m hh
    rw [h]; exact ⟨_, rfl⟩
  · exact ⟨_, rfl⟩

/-- C59.  No `cfilter` message, whatever it contains and whatever the active chain is, makes the client panic. -/
theorem C59_cfilter_safe (e : Env) (t : Tree) (m : Mgr) (peer ft block : Nat) (f : Filter)
    (hc : CacheOK List.length m.rescan.cache) : m.step p e t (.cfilter peer ft block f) ≠ .panic := by
  have hcc := receivedCFilter_cases p e t m peer ft block f
  simp only [Mgr.step]
  generalize m.receivedCFilter p e t peer ft block f = g at hcc
  cases hcc with
  | ignored hi => simp
  | invalid hh h0 h1 h2 h3 => simp
  | unsolicited hh h0 h1 h2 h3 => simp
  | scanned hh c r ms es n h0 h1 h2 h3 h4 h5 => simp
  | panicked m' hh hp =>
    obtain ⟨ok, c', h1, _⟩ := C27_push List.length m.rescan.cache hc hh f
    exact absurd h1 (hp (ok, c'))

theorem gh_aux {E : Type} (U : Nat) (checked : Bool) (l : List Entry) (a b : Nat) (hb : b + 1 < U) (x : Res E (List Entry))
   (hx : x = ((if a ≤ b then Res.ok (b - a) else if checked then Res.panic else Res.ok (b + U - a)) >>= fun n =>
     (if n + 1 < U then Res.ok (n + 1) else if checked then Res.panic else Res.ok ((n + 1) % U)) >>= fun n => .ok ((l.drop a).take n))) :
    x = .panic ∧ checked = true ∧ b < a ∨
    ¬ (checked = true ∧ b < a) ∧ ∃ n, x = .ok ((l.drop a).take n) := by
  by_cases hab : a ≤ b
  · right
    rw [if_pos hab] at hx
    refine ⟨by omega, b - a + 1, ?_⟩
    simp only [Res.ok_bind] at hx
    rw [if_pos (by omega)] at hx
    exact hx
  · rw [if_neg hab] at hx
    cases checked with
    | true => left; exact ⟨hx, rfl, by omega⟩
    | false =>
      right
      refine ⟨by simp, ?_⟩
      simp only [Bool.false_eq_true, if_false, Res.ok_bind] at hx
      split at hx
      · exact ⟨_, hx⟩
      · exact ⟨_, hx⟩

theorem getHeaders_cases {E : Type} (checked : Bool) (f : FilterHeaders) (a b : Nat) (hb : b + 1 < u64) :
    (getHeaders checked f a b : Res E (List Entry)) = .panic ∧ checked = true ∧ b < a ∨
    ¬ (checked = true ∧ b < a) ∧ ∃ n, (getHeaders checked f a b : Res E (List Entry)) = .ok ((f.all.drop a).take n) :=
  gh_aux u64 checked f.all a b hb _ (by simp only [getHeaders, subUsize, addUsize])

theorem serve_ne_panic (m : Mgr) (from_ start stop n : Nat) :
    (m.serveCFHeaders from_ start stop (.ok ((m.filters.all.drop start).take n))).2 ≠ .panic := by
  generalize hx : (m.filters.all.drop start).take n = xs
  cases xs with
  | nil => simp [Mgr.serveCFHeaders]
  | cons x l =>
    have hs : start < m.filters.all.length := by
      by_contra hge
      rw [List.drop_eq_nil_of_le (by omega)] at hx
      simp at hx
    simp only [Mgr.serveCFHeaders, C24_prev_header]
    cases hb : below m.filters.all start with
    | none =>
      exfalso
      cases start with
      | zero => simp [below] at hb
      | succ k =>
        simp only [below, Option.map_eq_none_iff, List.getElem?_eq_none_iff] at hb
        omega
    | some prev => simp

/-- C59.  A `getcfheaders` message makes the client panic exactly if it is a debug build, the stop hash is on the active chain
and the start height is above it. -/
theorem C59_getcfheaders_panics_iff (e : Env) (t : Tree) (m : Mgr) (peer ft start stop : Nat)
    (hlen : t.hashes.length < u64) :
    m.step p e t (.getcfheaders peer ft start stop) = .panic ↔
      p.checked = true ∧ ft = 0 ∧ ∃ h, t.heightOf stop = some h ∧ h < start := by
  have hstep : m.step p e t (.getcfheaders peer ft start stop) = .panic ↔
      (m.receivedGetCFHeaders p t peer ft start stop).2 = .panic := by
    simp only [Mgr.step]
    generalize m.receivedGetCFHeaders p t peer ft start stop = g
    obtain ⟨g1, g2⟩ := g
    cases g2 with
    | ok n => simp
    | err er => cases er <;> simp
    | panic => simp
  rw [hstep]
  unfold Mgr.receivedGetCFHeaders
  by_cases hft : ft = 0
  swap
  · rw [if_pos hft]; simp [hft]
  rw [if_neg (by simpa using hft)]
  cases hh : t.heightOf stop with
  | none => simp
  | some h =>
    have hhl : h < t.hashes.length := (List.getElem?_eq_some_iff.1 (heightOf_some hh)).1
    simp only [hft, true_and, Option.some.injEq, exists_eq_left']
    rcases getHeaders_cases (E := Err) p.checked m.filters start h (by omega) with ⟨h1, h2, h3⟩ | ⟨h1, n, h2⟩
    · rw [h1]; simp [Mgr.serveCFHeaders, h2, h3]
    · rw [h2]
      exact ⟨fun hx => absurd hx (serve_ne_panic m peer start stop n), fun hx => absurd hx h1⟩

/-- C59.  A `cfheaders` message can only make the client panic if a rescan is active and no filter peer is connected. -/
theorem C59_cfheaders_safe (e : Env) (t : Tree) (m : Mgr) (hs : Sound t m) (peer : Nat) (msg : CFHeadersMsg)
    (h : m.step p e t (.cfheaders peer msg) = .panic) : m.rescan.active = true ∧ m.peers = [] := by
  have key : (m.receivedCFHeaders p e t msg).2 = .panic := by
    simp only [Mgr.step] at h
    generalize m.receivedCFHeaders p e t msg = g at h
    obtain ⟨g1, g2⟩ := g
    cases g2 with
    | ok n => simp at h
    | err er => cases er <;> simp at h
    | panic => rfl
  unfold Mgr.receivedCFHeaders at key
  split at key
  · cases key
  · simp only at key
    split at key
    · cases key
    · split at key
      · cases key
      · rename_i stop hstop
        have hst : stop < t.hashes.length := (List.getElem?_eq_some_iff.1 (heightOf_some hstop)).1
        split at key
        · cases key
        · split at key
          · cases key
          · split at key
            · cases key
            · split at key
              · cases key
              · split at key
                · cases key
                · rename_i hsm _ _ _ _
                  split at key
                  · cases key
                  · rename_i hlen
                    have hch : ∀ (hs : List Nat) (prev : Nat), (chainHeaders p prev hs).length = hs.length := by
                      intro hs
                      induction hs with
                      | nil => intro _; rfl
                      | cons x hs ih => intro prev; simp [chainHeaders, ih]
                    have himp : ∀ g, importHeaders m.filters (chainHeaders p msg.prev msg.hashes) e.fail = g →
                        (∀ height, g.2 = .ok height → height = stop ∧ g.1.height = stop) ∧ g.2 ≠ .panic := by
                      intro g hg
                      unfold importHeaders at hg
                      cases hf : e.fail with
                      | true => rw [hf] at hg; simp at hg; subst hg; simp
                      | false =>
                        rw [hf] at hg
                        simp only [Bool.false_eq_true, if_false] at hg
                        subst hg
                        refine ⟨?_, by simp⟩
                        intro height hx
                        simp only [Res.ok.injEq] at hx
                        have h1 : m.filters.store.length = m.filters.tail.length + 1 := by
                          rw [hs.store]; simp [FilterHeaders.all]
                        have h2 : stop - m.filters.height = msg.hashes.length := by simpa using hlen
                        simp only [FilterHeaders.height, List.length_append, hch] at *
                        omega
                    generalize importHeaders m.filters (chainHeaders p msg.prev msg.hashes) e.fail = g at key himp
                    obtain ⟨g1, g2⟩ := g
                    obtain ⟨himp, hnp⟩ := himp _ rfl
                    cases g2 with
                    | err er => simp at key
                    | panic => exact absurd rfl hnp
                    | ok height =>
                      obtain ⟨hh1, hh2⟩ := himp height rfl
                      subst hh1
                      simp only at key hh2
                      have hq := quiet_headersImported e t
                        { m with inflight := m.inflight.erase msg.stop, filters := g1 } m.filters.height height
                      have hres : (Mgr.headersImported e t
                          { m with inflight := m.inflight.erase msg.stop, filters := g1 } m.filters.height height).2 ≠ .ok () →
                          m.rescan.active = true ∧ m.peers = [] := by
                        intro hne
                        unfold Mgr.headersImported at hne
                        split at hne
                        · exact absurd rfl hne
                        · rename_i ha
                          simp only at hne
                          split at hne
                          · exact absurd rfl hne
                          · rename_i hrange
                            rw [getCFilters_result _ _ _ _ _ (by simpa [hh2] using hst)] at hne
                            simp only at hne
                            refine ⟨by simpa using ha, ?_⟩
                            by_contra hp
                            rw [if_neg hp, if_neg hrange, if_pos] at hne
                            · exact hne rfl
                            · rw [hh2]; exact Nat.min_le_left _ _
                      generalize Mgr.headersImported e t
                        { m with inflight := m.inflight.erase msg.stop, filters := g1 } m.filters.height height = k
                          at hq hres key
                      obtain ⟨k1, k2⟩ := k
                      have hf : k1.filters = g1 := hq.filters
                      cases k2 with
                      | err er => exact hres (by simp)
                      | panic => exact hres (by simp)
                      | ok u =>
                        exfalso
                        cases u
                        simp only at key
                        rw [if_pos (by unfold Tree.height; omega)] at key
                        split at key
                        · cases key
                        · obtain ⟨m', hm'⟩ := sync_ok (E := Err) p e t k1 (by rw [hf, hh2]; exact hst)
                          rw [hm'] at key
                          cases key

/-- Histories in which changes of the active chain are reported at once, re-orgs as what they are, and the store does not fail;
the filter headers start within the active chain. -/
inductive Delivered (p : Params) : Tree → Mgr → Prop
  | init (t : Tree) (f : FilterHeaders) (cacheSize : Nat) : f.store = f.all → f.height < t.hashes.length →
      Delivered p t (Mgr.new f cacheSize)
  | call {t : Tree} {m m' : Mgr} (e : Env) (op : Op) : Delivered p t m → e.fail = false → op.reverts = false →
      m.step p e t op = .ok m' → Delivered p t m'
  | extend {t t' : Tree} {m m' : Mgr} (e : Env) : Delivered p t m → e.fail = false → t.hashes <+: t'.hashes →
      m.step p e t' (.headersImported []) = .ok m' → Delivered p t' m'
  | reorg {t t' : Tree} {m m' : Mgr} (e : Env) (fork : Nat) (reverted : List Nat) : Delivered p t m → e.fail = false →
      fork < t'.hashes.length → reverted.getLast? = some (fork + 1) →
      m.step p e t' (.headersImported reverted) = .ok m' → Delivered p t' m'

/-- Filter headers only grow by `cfheaders` messages, up to a height of the tree shown. -/
theorem step_height (e : Env) (t : Tree) (m m' : Mgr) (op : Op) (hs : Sound t m) (h : m.step p e t op = .ok m')
    (hr : op.reverts = false) : m'.filters.height < t.hashes.length := by
  by_cases hcf : ∃ peer msg, op = .cfheaders peer msg
  · obtain ⟨peer, msg, rfl⟩ := hcf
    have key : (m.receivedCFHeaders p e t msg).1.filters.height < t.hashes.length := by
      have hch : ∀ (hs : List Nat) (prev : Nat), (chainHeaders p prev hs).length = hs.length := by
        intro hs
        induction hs with
        | nil => intro _; rfl
        | cons x hs ih => intro prev; simp [chainHeaders, ih]
      have hc := receivedCFHeaders_filters p e t m msg
      unfold Mgr.receivedCFHeaders
      split
      · exact hs.height
      · simp only
        split
        · exact hs.height
        · split
          · exact hs.height
          · rename_i stop hstop
            have hst : stop < t.hashes.length := (List.getElem?_eq_some_iff.1 (heightOf_some hstop)).1
            split
            · exact hs.height
            · split
              · exact hs.height
              · split
                · exact hs.height
                · split
                  · exact hs.height
                  · split
                    · exact hs.height
                    · split
                      · exact hs.height
                      · rename_i hlen
                        have h2 : stop - m.filters.height = msg.hashes.length := by simpa using hlen
                        have himp : ∀ g, importHeaders m.filters (chainHeaders p msg.prev msg.hashes) e.fail = g →
                            g.1.height < t.hashes.length := by
                          intro g hg
                          unfold importHeaders at hg
                          cases hf : e.fail <;> rw [hf] at hg <;> simp at hg <;> subst hg <;>
                            simp only [FilterHeaders.height, List.length_append, hch] at * <;> omega
                        generalize importHeaders m.filters (chainHeaders p msg.prev msg.hashes) e.fail = g at himp
                        have himp := himp _ rfl
                        obtain ⟨g1, g2⟩ := g
                        cases g2 with
                        | ok height =>
                          simp only at himp ⊢
                          have hq := quiet_headersImported e t
                            { m with inflight := m.inflight.erase msg.stop, filters := g1 } m.filters.height height
                          generalize Mgr.headersImported e t
                            { m with inflight := m.inflight.erase msg.stop, filters := g1 } m.filters.height height = k at hq
                          obtain ⟨k1, k2⟩ := k
                          have hf : k1.filters = g1 := hq.filters
                          have hk : k1.filters.height < t.hashes.length := by rw [hf]; exact himp
                          cases k2 with
                          | ok u =>
                            cases u
                            simp only
                            split
                            · split
                              · exact hk
                              · cases hsy : (k1.sync p e t : Res Err Mgr) with
                                | ok m2 =>
                                  simp only
                                  rw [(quiet_sync p e t k1 m2 hsy).filters]; exact hk
                                | err e => exact hk
                                | panic => exact hk
                            · exact hk
                          | err e => exact hk
                          | panic => exact hk
                        | err e => exact himp
                        | panic => exact himp
    simp only [Mgr.step] at h
    generalize m.receivedCFHeaders p e t msg = g at h key
    obtain ⟨g1, g2⟩ := g
    cases g2 with
    | ok n => cases h; exact key
    | err er => cases er <;> (cases h; exact key)
    | panic => cases h
  · have hi : op.imports = false := by
      cases op with
      | cfheaders peer msg => exact absurd ⟨peer, msg, rfl⟩ hcf
      | _ => rfl
    have hc := step_filters p e t m m' op h
    rw [hr, hi] at hc
    have hh := hs.height
    generalize m'.filters = f' at hc ⊢
    cases hc with
    | same => exact hh
    | imported _ hx => cases hx
    | rolledBack _ hx => cases hx

theorem change_store {rb im : Bool} {f f' : FilterHeaders} (hc : HeadersChange p rb im false f f')
    (h : f.store = f.all) : f'.store = f'.all := by
  cases hc with
  | same => exact h
  | imported hs =>
    simp only [importHeaders, FilterHeaders.all, Bool.false_eq_true, if_false] at h ⊢
    simp [h]
  | rolledBack k =>
    simp only [rollbackHeaders, FilterHeaders.all, Bool.false_eq_true, if_false] at h ⊢
    simp [h]

theorem Sound.step {t : Tree} {m m' : Mgr} (hs : Sound t m) (e : Env) (op : Op) (hf : e.fail = false)
    (hr : op.reverts = false) (h : m.step p e t op = .ok m') : Sound t m' :=
  ⟨(step_facts p e t m m' op h hs.cacheOK).cacheOK,
    change_store p (hf ▸ step_filters p e t m m' op h) hs.store, step_height p e t m m' op hs h hr⟩

theorem Delivered.sound {t : Tree} {m : Mgr} (h : Delivered p t m) : Sound t m := by
  induction h with
  | init t f c h1 h2 => exact ⟨new_cacheOK f c, h1, h2⟩
  | call e op _ hf hr hstep ih => exact ih.step p e op hf hr hstep
  | extend e _ hf hp hstep ih =>
    exact Sound.step p ⟨ih.cacheOK, ih.store, Nat.lt_of_lt_of_le ih.height hp.length_le⟩ e _ hf rfl hstep
  | @reorg t t' m m' e fork reverted _ hf hfork hlast hstep ih =>
    refine ⟨(step_facts p e t' m m' _ hstep ih.cacheOK).cacheOK,
      change_store p (hf ▸ step_filters p e t' m m' _ hstep) ih.store, ?_⟩
    simp only [Mgr.step, hlast] at hstep
    rw [Res.bind_eq_ok] at hstep
    obtain ⟨k, hk, hstep⟩ := hstep
    rw [Res.bind_eq_ok] at hstep
    obtain ⟨m1, h1, hstep⟩ := hstep
    have hk' : k = fork := by
      unfold subUsize at hk; rw [if_pos (by omega)] at hk; cases hk; omega
    subst hk'
    rw [(quiet_sync p e t' m1 m' hstep).filters]
    rcases rollback_cases e m m1 k h1 with ⟨rfl, hle⟩ | ⟨_, c, _, _, hok, _⟩
    · omega
    · rw [(hok hf).1]
      simp only [rollbackHeaders, Bool.false_eq_true, if_false, FilterHeaders.height, List.length_take]
      omega

/-- C60.  In such a history the report of a longer or re-organised active chain never makes the client panic. -/
theorem C60_chain_changes_safe {t : Tree} {m : Mgr} (hd : Delivered p t m) (e : Env) (hf : e.fail = false) (t' : Tree) :
    (t.hashes <+: t'.hashes → m.step p e t' (.headersImported []) ≠ .panic) ∧
    (∀ fork reverted, fork < t'.hashes.length → reverted.getLast? = some (fork + 1) →
      m.step p e t' (.headersImported reverted) ≠ .panic) := by
  have hs := hd.sound
  constructor
  · intro hp
    obtain ⟨m', hm'⟩ := sync_ok (E := Unit) p e t' m (Nat.lt_of_lt_of_le hs.height hp.length_le)
    simp [Mgr.step, hm']
  · intro fork reverted hfork hlast
    simp only [Mgr.step, hlast]
    have hsub : (subUsize p.checked (fork + 1) 1 : Res Unit Nat) = .ok fork := by
      unfold subUsize; rw [if_pos (by omega)]; rfl
    rw [hsub, Res.ok_bind]
    have hrb : ∃ m1, m.rollback e fork = .ok m1 := by
      unfold Mgr.rollback
      split
      · exact ⟨_, rfl⟩
      · obtain ⟨c, hc, _⟩ := C27_rollback List.length m.rescan.cache hs.cacheOK fork
        simp only [Rescan.rollback, hc, Res.ok_bind, rollbackHeaders, hf, Bool.false_eq_true, if_false]
        split
        · split <;> exact ⟨_, rfl⟩
        · exact ⟨_, rfl⟩
    obtain ⟨m1, h1⟩ := hrb
    rw [h1, Res.ok_bind]
    have hh : m1.filters.height < t'.hashes.length := by
      rcases rollback_cases e m m1 fork h1 with ⟨rfl, hle⟩ | ⟨_, c, _, _, hok, _⟩
      · omega
      · rw [(hok hf).1]
        simp only [rollbackHeaders, Bool.false_eq_true, if_false, FilterHeaders.height, List.length_take]
        omega
    obtain ⟨m', hm'⟩ := sync_ok (E := Unit) p e t' m1 hh
    rw [hm']; simp

theorem no_crash_sound {t : Tree} {m : Mgr} (hs : Sound t m) (e : Env) (op : Op) (hr : op.reverts = false)
    (hlen : t.hashes.length < u64) (h : m.step p e t op = .panic) :
    (∃ a b, op = .getCFilters a b ∧ a ≤ b ∧ m.filters.height < b ∧ m.peers ≠ []) ∨
    (∃ a w, op = .rescan a (.excluded 0) w ∧ p.checked = true) ∨
    (∃ peer msg, op = .cfheaders peer msg ∧ m.rescan.active = true ∧ m.peers = []) ∨
    (∃ peer start stop k, op = .getcfheaders peer 0 start stop ∧ t.heightOf stop = some k ∧ k < start ∧ p.checked = true) := by
  cases op with
  | init =>
    obtain ⟨m', hm'⟩ := idle_ok (E := Unit) p e t m hs.height
    simp [Mgr.step, hm'] at h
  | peerNegotiated addr ob hf pers =>
    simp only [Mgr.step] at h
    split at h
    · cases h
    · split at h
      · cases h
      · obtain ⟨m', hm'⟩ := sync_ok (E := Unit) p e t { m with peers := m.peers.insert addr pers } hs.height
        rw [hm'] at h; cases h
  | peerDisconnected addr => cases h
  | blockProcessed block height =>
    simp only [Mgr.step] at h
    split at h <;> cases h
  | blockDisconnected height => cases h
  | headersImported reverted =>
    cases reverted with
    | cons => cases hr
    | nil =>
      obtain ⟨m', hm'⟩ := sync_ok (E := Unit) p e t m hs.height
      simp [Mgr.step, hm'] at h
  | txConfirmed txid => cases h
  | txReverted txid scripts => cases h
  | cfheaders peer msg => exact Or.inr (Or.inr (Or.inl ⟨peer, msg, rfl, C59_cfheaders_safe p e t m hs peer msg h⟩))
  | getcfheaders peer ft start stop =>
    obtain ⟨h1, h2, k, h3, h4⟩ := (C59_getcfheaders_panics_iff p e t m peer ft start stop hlen).1 h
    subst h2
    exact Or.inr (Or.inr (Or.inr ⟨peer, start, stop, k, rfl, h3, h4, h1⟩))
  | cfilter peer ft block f => exact absurd h (C59_cfilter_safe p e t m peer ft block f hs.cacheOK)
  | timer =>
    exfalso
    obtain ⟨m', hm'⟩ := idle_ok (E := Unit) p e t m hs.height
    simp only [Mgr.step, Mgr.timerExpired, hm', Res.ok_bind] at h
    have hq := (quiet_idle p e t m m' hm').trans (quiet_expire e t (e.order m'.inflight.keys) m')
    generalize Mgr.expire e (e.order m'.inflight.keys) m' = m1 at h hq
    split at h
    · split at h
      · have hr := getCFilters_result e t { m1 with rescan := m1.rescan.reset } m1.rescan.reset.current
          m1.filters.height (by rw [hq.filters]; exact hs.height)
        simp only at h hr
        generalize Mgr.getCFilters e t { m1 with rescan := m1.rescan.reset } m1.rescan.reset.current
          m1.filters.height = g at h hr
        obtain ⟨g1, g2⟩ := g
        cases g2 with
        | ok u => simp at h
        | err u => simp at h
        | panic =>
          simp only at hr
          split at hr
          · cases hr
          · split at hr
            · cases hr
            · rw [if_pos (Nat.le_refl _)] at hr; cases hr
      · cases h
    · cases h
  | watch scripts => cases h
  | watchTransaction txid scripts => cases h
  | rescan start stop w =>
    right; left
    have hend : (∃ st, (stop.last p.checked : Res Unit (Option Nat)) = .ok st) ∨
        stop = .excluded 0 ∧ p.checked = true := by
      cases stop with
      | unbounded => exact Or.inl ⟨_, rfl⟩
      | included k => exact Or.inl ⟨_, rfl⟩
      | excluded k =>
        by_cases hk : 1 ≤ k
        · left; simp only [Bound.last, subUsize]; rw [if_pos hk]; exact ⟨_, rfl⟩
        · have : k = 0 := by omega
          subst this
          cases hc : p.checked with
          | true => exact Or.inr ⟨rfl, rfl⟩
          | false => left; simp only [Bound.last, subUsize]; rw [if_neg hk]; simp [Res.ok_bind]
    rcases hend with ⟨st, hst⟩ | ⟨rfl, hc⟩
    swap
    · exact ⟨start, w, rfl, hc⟩
    exfalso
    simp only [Mgr.step, Mgr.startRescan, hst] at h
    generalize hm1 : Mgr.emit { m with rescan := m.rescan.restart (start.first t) st w }
      [.event (.rescanStarted (start.first t) st)] = m1 at h
    have hmf : m1.filters = m.filters := by rw [← hm1]; rfl
    have hnp : (m1.fetchRescan p e t (start.first t) (m1.lastWanted st)).2 ≠ .panic := by
      unfold Mgr.fetchRescan
      split
      · simp
      · split
        · simp
        · rename_i hlt
          have hres := getCFilters_result e t m1 (start.first t) (m1.lastWanted st) (by rw [hmf]; exact hs.height)
          have hle : m1.lastWanted st ≤ m1.filters.height := by
            cases st <;> simp [Mgr.lastWanted]
          rw [if_neg hlt, if_pos hle] at hres
          generalize m1.getCFilters e t (start.first t) (m1.lastWanted st) = g at hres
          obtain ⟨g1, g2⟩ := g
          simp only at hres
          split at hres <;> (subst hres; simp [Mgr.processQueue])
    have hne : ∀ er, (m1.fetchRescan p e t (start.first t) (m1.lastWanted st)).2 ≠ .err er := by
      intro er
      rcases fetchRescan_cases p e t m1 (start.first t) (m1.lastWanted st) with ⟨m', hx⟩ | hx | ⟨m2, r, ms, es, n, _, _, hx⟩ <;>
        rw [hx] <;> simp
    generalize m1.fetchRescan p e t (start.first t) (m1.lastWanted st) = g at h hnp hne
    obtain ⟨g1, g2⟩ := g
    cases g2 with
    | ok ms => simp at h
    | err er => exact hne er rfl
    | panic => exact hnp rfl
  | getCFilters a b =>
    left
    have hres := getCFilters_result e t m a b hs.height
    simp only [Mgr.step] at h
    generalize m.getCFilters e t a b = g at h hres
    obtain ⟨g1, g2⟩ := g
    cases g2 with
    | ok u => simp at h
    | err u => simp at h
    | panic =>
      simp only at hres
      split at hres
      · cases hres
      · rename_i hp
        split at hres
        · cases hres
        · split at hres
          · cases hres
          · exact ⟨a, b, rfl, by omega, by omega, hp⟩

/-- C60.  In such a history a call can only make the client panic in the cases named: filters asked for above the filter-header
chain; a rescan ending before height 0, in a debug build; filter headers arriving while a rescan is active and no filter peer
is connected; a reversed header range asked for by a peer, in a debug build.  (Missing for the full property: that these
cases do not panic; each does, see the counterexamples.) -/
theorem C60_no_crash_partial {t : Tree} {m : Mgr} (hd : Delivered p t m) (e : Env) (op : Op) (hr : op.reverts = false)
    (hlen : t.hashes.length < u64) (h : m.step p e t op = .panic) :
    (∃ a b, op = .getCFilters a b ∧ a ≤ b ∧ m.filters.height < b ∧ m.peers ≠ []) ∨
    (∃ a w, op = .rescan a (.excluded 0) w ∧ p.checked = true) ∨
    (∃ peer msg, op = .cfheaders peer msg ∧ m.rescan.active = true ∧ m.peers = []) ∨
    (∃ peer start stop k, op = .getcfheaders peer 0 start stop ∧ t.heightOf stop = some k ∧ k < start ∧ p.checked = true) :=
  no_crash_sound p hd.sound e op hr hlen h

end Verif.Cbf
