import Verif.Cbf.Lemmas
import Mathlib.Data.List.Induction

/-!
# Properties C22, C26, C29: the filter-header chain, acceptance of filters, order of scanning
-/

set_option autoImplicit false

namespace Verif.Cbf

variable (p : Params)

/-! ## C22 -/

theorem filterChain_take {es : List Entry} (h : FilterChain p es) (n : Nat) : FilterChain p (es.take (n + 1)) := by
  obtain ⟨g, h0, h1, h2⟩ := h.genesis
  refine ⟨⟨g, by rw [List.getElem?_take, if_pos (by omega)]; exact h0, h1, h2⟩, ?_⟩
  intro k a b ha hb
  rw [List.getElem?_take] at ha hb
  split at ha <;> split at hb <;> first | cases ha | cases hb | exact h.linked k a b ha hb

theorem filterChain_append : ∀ (hs : List Nat) (es : List Entry) (prev : Nat), FilterChain p es →
    (es.getLast?.map (·.2)) = some prev → FilterChain p (es ++ chainHeaders p prev hs)
  | [], es, _, h, _ => by simpa [chainHeaders] using h
  | x :: hs, es, prev, h, hl => by
    rw [Option.map_eq_some_iff] at hl
    obtain ⟨last, hl, rfl⟩ := hl
    have h' : FilterChain p (es ++ [(x, p.filterHeader x last.2)]) := by
      obtain ⟨g, h0, h1, h2⟩ := h.genesis
      have hlen : 0 < es.length := by
        rcases es with _ | _
        · simp at h0
        · simp
      refine ⟨⟨g, by rw [List.getElem?_append_left hlen]; exact h0, h1, h2⟩, ?_⟩
      intro k a b ha hb
      by_cases hk : k + 1 < es.length
      · rw [List.getElem?_append_left (by omega)] at ha
        rw [List.getElem?_append_left hk] at hb
        exact h.linked k a b ha hb
      · by_cases hk2 : k + 1 = es.length
        · rw [List.getElem?_append_left (by omega)] at ha
          rw [List.getElem?_append_right (by omega), hk2] at hb
          simp at hb
          have : es.getLast? = some a := by
            rw [List.getLast?_eq_getElem?, ← ha]; congr 1; omega
          rw [this] at hl; cases hl
          rw [← hb]
        · rw [List.getElem?_append_right (by omega)] at hb
          have : 1 ≤ k + 1 - es.length := by omega
          rw [List.getElem?_eq_none (by simpa using this)] at hb
          cases hb
    have := filterChain_append hs _ (p.filterHeader x last.2) h' (by simp)
    simpa [chainHeaders] using this

/-- How one call can change the filter headers. -/
inductive HeadersChange (p : Params) (reverts imports : Bool) : Bool → FilterHeaders → FilterHeaders → Prop
  | same (fail : Bool) (f : FilterHeaders) : HeadersChange p reverts imports fail f f
  | imported (fail : Bool) (f : FilterHeaders) (hs : List Nat) : imports = true →
      HeadersChange p reverts imports fail f (importHeaders f (chainHeaders p (tipHeader f) hs) fail).1
  | rolledBack (fail : Bool) (f : FilterHeaders) (h : Nat) : reverts = true →
      HeadersChange p reverts imports fail f (rollbackHeaders f h fail).1

/-- The call reports a re-org. -/
def Op.reverts : Op → Bool
  | .headersImported r => !r.isEmpty
  | _ => false

/-- The call hands over filter headers. -/
def Op.imports : Op → Bool
  | .cfheaders _ _ => true
  | _ => false

theorem rollback_filters (e : Env) (m m' : Mgr) (h : Nat) (hr : m.rollback e h = .ok m') :
    HeadersChange p true false e.fail m.filters m'.filters := by
  unfold Mgr.rollback at hr
  split at hr
  · cases hr; exact .same _ _
  · rw [Res.bind_eq_ok] at hr
    obtain ⟨r, _, hr⟩ := hr
    have hc := HeadersChange.rolledBack (p := p) (reverts := true) (imports := false) e.fail m.filters h rfl
    simp only at hr
    generalize rollbackHeaders m.filters h e.fail = g at hr hc
    obtain ⟨g1, g2⟩ := g
    cases g2 <;> simp at hr
    · split at hr
      · split at hr <;> (cases hr; exact hc)
      · cases hr; exact hc
    · cases hr; exact hc
    · cases hr; exact hc

theorem receivedCFHeaders_filters (e : Env) (t : Tree) (m : Mgr) (msg : CFHeadersMsg) :
    HeadersChange p false true e.fail m.filters (m.receivedCFHeaders p e t msg).1.filters := by
  unfold Mgr.receivedCFHeaders
  split
  · exact .same _ _
  · simp only
    split
    · exact .same _ _
    · split
      · exact .same _ _
      · split
        · exact .same _ _
        · split
          · exact .same _ _
          · rename_i hprev
            split
            · exact .same _ _
            · split
              · exact .same _ _
              · split
                · exact .same _ _
                · split
                  · exact .same _ _
                  · have hpe : msg.prev = tipHeader m.filters := by simpa using hprev
                    rw [hpe]
                    have hc := HeadersChange.imported (p := p) (reverts := false) (imports := true) e.fail m.filters msg.hashes rfl
                    generalize importHeaders m.filters (chainHeaders p (tipHeader m.filters) msg.hashes) e.fail = g at hc
                    obtain ⟨g1, g2⟩ := g
                    cases g2 with
                    | ok height =>
                      simp only
                      have hq := quiet_headersImported e t
                        { m with inflight := m.inflight.erase msg.stop, filters := g1 } m.filters.height height
                      generalize Mgr.headersImported e t
                        { m with inflight := m.inflight.erase msg.stop, filters := g1 } m.filters.height height = k at hq
                      obtain ⟨k1, k2⟩ := k
                      have hf : k1.filters = g1 := hq.filters
                      cases k2 with
                      | ok u =>
                        cases u
                        simp only
                        split
                        · split
                          · simpa [Mgr.emit, hf] using hc
                          · cases hs : (k1.sync p e t : Res Err Mgr) with
                            | ok m2 =>
                              simp only
                              rw [(quiet_sync p e t k1 m2 hs).filters, hf]; exact hc
                            | err e => simpa [hf] using hc
                            | panic => simpa [hf] using hc
                        · simpa [hf] using hc
                      | err e => simpa [hf] using hc
                      | panic => simpa [hf] using hc
                    | err e => exact hc
                    | panic => exact hc

/-- What handling a `cfilter` message can do. -/
inductive CFilterCase (p : Params) (e : Env) (t : Tree) (m : Mgr) (from_ filterType block : Nat) (f : Filter) :
    Mgr × Res Err (List (Nat × Nat)) → Prop
  | ignored : (filterType ≠ 0 ∨ t.heightOf block = none ∨ ∃ h, t.heightOf block = some h ∧ m.filters.all[h]? = none) →
      CFilterCase p e t m from_ filterType block f (m, .err .ignored)
  | invalid (h : Nat) : filterType = 0 → t.heightOf block = some h → (m.filters.all[h]?).isSome →
      ¬ Committed p m.filters.all h f → CFilterCase p e t m from_ filterType block f (m, .err .invalid)
  | unsolicited (h : Nat) : filterType = 0 → t.heightOf block = some h → Committed p m.filters.all h f →
      h ∉ m.rescan.requested → CFilterCase p e t m from_ filterType block f
        (m.emit [.event (.filterReceived from_ block h f)], .ok [])
  | scanned (h : Nat) (c : Bool × Cache Filter) (r : Rescan) (ms : List (Nat × Nat)) (es : List Ev) (n : Nat) :
      filterType = 0 → t.heightOf block = some h → Committed p m.filters.all h f → h ∈ m.rescan.requested →
      m.rescan.cache.push List.length h f = .ok c →
      Rescan.process p { m.rescan with requested := m.rescan.requested.filter (· ≠ h), cache := c.2,
                                       received := m.rescan.received.insert h (f, block, false) } = (r, ms, es, n) →
      CFilterCase p e t m from_ filterType block f
        ({ m with rescan := r, lastProcessed := if 0 < n then some e.now else m.lastProcessed,
                  out := m.out ++ .event (.filterReceived from_ block h f) :: es.map .event }, .ok ms)
  | panicked (m' : Mgr) (h : Nat) : (∀ c, m.rescan.cache.push List.length h f ≠ .ok c) →
      CFilterCase p e t m from_ filterType block f (m', .panic)

theorem receivedCFilter_cases (e : Env) (t : Tree) (m : Mgr) (a b c : Nat) (f : Filter) :
    CFilterCase p e t m a b c f (m.receivedCFilter p e t a b c f) := by
  unfold Mgr.receivedCFilter
  by_cases hb : b = 0
  swap
  · rw [if_pos hb]; exact .ignored (Or.inl hb)
  rw [if_neg (by simpa using hb)]
  cases hh : t.heightOf c with
  | none => exact .ignored (Or.inr (Or.inl hh))
  | some h =>
    simp only [getHeader]
    cases hg : m.filters.all[h]? with
    | none => exact .ignored (Or.inr (Or.inr ⟨h, hh, hg⟩))
    | some en =>
      obtain ⟨x, header⟩ := en
      simp only [C24_prev_header]
      cases hp : below m.filters.all h with
      | none =>
        exfalso
        cases h with
        | zero => simp [below] at hp
        | succ k =>
          simp only [below, Option.map_eq_none_iff, List.getElem?_eq_none_iff] at hp
          rw [List.getElem?_eq_some_iff] at hg
          obtain ⟨hl, _⟩ := hg
          omega
      | some prev =>
        simp only
        have hcom : Committed p m.filters.all h f ↔ p.filterHeader (p.filterHash f) prev = header := by
          constructor
          · rintro ⟨hdr, pv, h1, h2, h3⟩
            rw [hg] at h1; rw [hp] at h2
            simp at h1 h2; subst h1 h2; exact h3
          · intro h3; exact ⟨header, prev, by simp [hg], hp, h3⟩
        by_cases hc : p.filterHeader (p.filterHash f) prev = header
        swap
        · rw [if_pos hc]
          exact .invalid h hb hh (by simp [hg]) (by rw [hcom]; exact hc)
        rw [if_neg (by simpa using hc)]
        have hC := hcom.2 hc
        unfold Rescan.receive Mgr.emit
        simp only
        by_cases hr : h ∈ m.rescan.requested
        · have hr' : m.rescan.requested.contains h = true := by simpa using hr
          rw [if_pos hr']
          cases hpush : m.rescan.cache.push List.length h f with
          | ok c' =>
            simp only [Res.ok_bind]
            generalize hpr : Rescan.process p { m.rescan with
              requested := m.rescan.requested.filter (· ≠ h), cache := c'.2,
              received := m.rescan.received.insert h (f, c, false) } = pr
            obtain ⟨r, ms, es, n⟩ := pr
            have := CFilterCase.scanned (e := e) (from_ := a) h c' r ms es n hb hh hC hr hpush hpr
            simp only [List.append_assoc, List.singleton_append]
            by_cases hn : 0 < n
            · simpa [hn] using this
            · simpa [hn] using this
          | err _ => exact .panicked _ h (by simp [hpush])
          | panic => exact .panicked _ h (by simp [hpush])
        · have hr' : m.rescan.requested.contains h = false := by simpa using hr
          rw [hr', if_neg (by simp)]
          have hfil : m.rescan.requested.filter (· ≠ h) = m.rescan.requested := by
            rw [List.filter_eq_self]; intro x hx; simp; rintro rfl; exact hr hx
          have := CFilterCase.unsolicited (e := e) (from_ := a) h hb hh hC hr
          simp only [hfil]
          exact this

theorem requestBlocks_frame (ms : List (Nat × Nat)) (m : Mgr) :
    m.requestBlocks ms = { m with pending := (m.requestBlocks ms).pending, out := (m.requestBlocks ms).out } ∧
    ∃ ks : List Nat, (m.requestBlocks ms).out = m.out ++ ks.map .getBlock := by
  induction ms generalizing m with
  | nil => exact ⟨rfl, [], by simp [Mgr.requestBlocks]⟩
  | cons x ms ih =>
    obtain ⟨a, b⟩ := x
    unfold Mgr.requestBlocks
    split
    · exact ih m
    · obtain ⟨h1, ks, h2⟩ := ih (Mgr.emit { m with pending := a :: m.pending } [.getBlock b])
      refine ⟨by rw [h1]; rfl, b :: ks, ?_⟩
      rw [h2]; simp [Mgr.emit]

theorem afterFilter_frame (ms : List (Nat × Nat)) (m : Mgr) :
    m.afterFilter ms = { m with pending := (m.afterFilter ms).pending, out := (m.afterFilter ms).out } ∧
    ∃ (ks : List Nat) (o : List Out), (m.afterFilter ms).out = m.out ++ (ks.map .getBlock ++ o) ∧
      (o = [] ∨ ∃ h, o = [.event (.scanned h)]) := by
  obtain ⟨h1, ks, h2⟩ := requestBlocks_frame ms m
  unfold Mgr.afterFilter
  simp only
  split
  · refine ⟨?_, ks, [_], by simp only [Mgr.emit, h2, List.append_assoc]; rfl, Or.inr ⟨_, rfl⟩⟩
    clear h2
    generalize m.requestBlocks ms = q at h1
    obtain ⟨a1, a2, a3, a4, a5, a6, a7, a8⟩ := q
    simp only [Mgr.mk.injEq] at h1
    obtain ⟨rfl, rfl, rfl, _, rfl, rfl, _, rfl⟩ := h1
    rfl
  · exact ⟨h1, ks, [], by simp [h2], Or.inl rfl⟩

theorem receivedGetCFHeaders_frame (t : Tree) (m : Mgr) (a b c d : Nat) :
    (m.receivedGetCFHeaders p t a b c d).1 = m ∨
    ∃ prev hs, (m.receivedGetCFHeaders p t a b c d).1 = m.emit [.cfHeaders a d prev hs] := by
  unfold Mgr.receivedGetCFHeaders Mgr.serveCFHeaders
  repeat' first
    | exact Or.inl rfl
    | exact Or.inr ⟨_, _, rfl⟩
    | split

/-- What starting a rescan can do. -/
inductive RescanCase (p : Params) (t : Tree) (m : Mgr) (start last : Bound) (watch : List Nat) :
    Mgr × Res Unit (List (Nat × Nat)) → Prop
  | panicked (m' : Mgr) : RescanCase p t m start last watch (m', .panic)
  | nothing (stop : Option Nat) : (last.last p.checked : Res Unit (Option Nat)) = .ok stop →
      RescanCase p t m start last watch
      ({ m with rescan := m.rescan.restart (start.first t) stop watch,
                out := m.out ++ [.event (.rescanStarted (start.first t) stop)] }, .ok [])
  | processed (stop : Option Nat) (m1 : Mgr) (r : Rescan) (ms : List (Nat × Nat)) (es : List Ev) (n : Nat) :
      (last.last p.checked : Res Unit (Option Nat)) = .ok stop →
      Quiet t { m with rescan := m.rescan.restart (start.first t) stop watch,
                       out := m.out ++ [.event (.rescanStarted (start.first t) stop)] } m1 →
      m1.rescan.process p = (r, ms, es, n) →
      RescanCase p t m start last watch ({ m1 with rescan := r, out := m1.out ++ es.map .event }, .ok ms)

theorem fetchRescan_cases (e : Env) (t : Tree) (m : Mgr) (a b : Nat) :
    (∃ m', m.fetchRescan p e t a b = (m', .panic)) ∨ m.fetchRescan p e t a b = (m, .ok []) ∨
    ∃ m1 r ms es n, Quiet t m m1 ∧ m1.rescan.process p = (r, ms, es, n) ∧
      m.fetchRescan p e t a b = ({ m1 with rescan := r, out := m1.out ++ es.map .event }, .ok ms) := by
  unfold Mgr.fetchRescan
  split
  · exact Or.inr (Or.inl rfl)
  · split
    · exact Or.inr (Or.inl rfl)
    · have hgo : ∀ m1, Quiet t m m1 → ∃ m2 r ms es n, Quiet t m m2 ∧ m2.rescan.process p = (r, ms, es, n) ∧
          m1.processQueue p = ({ m2 with rescan := r, out := m2.out ++ es.map .event }, .ok ms) := by
        intro m1 hq
        unfold Mgr.processQueue
        generalize hpr : m1.rescan.process p = pr
        obtain ⟨r, ms, es, n⟩ := pr
        exact ⟨m1, r, ms, es, n, hq, hpr, rfl⟩
      have hq := quiet_getCFilters e t m a b
      generalize m.getCFilters e t a b = g at hq ⊢
      obtain ⟨g1, g2⟩ := g
      cases g2 with
      | ok u => cases u; exact Or.inr (Or.inr (hgo g1 hq))
      | err e =>
        cases e
        · exact Or.inl ⟨_, rfl⟩
        · exact Or.inr (Or.inr (hgo g1 hq))
      | panic => exact Or.inl ⟨_, rfl⟩

theorem startRescan_cases (e : Env) (t : Tree) (m : Mgr) (a b : Bound) (w : List Nat) :
    RescanCase p t m a b w (m.startRescan p e t a b w) := by
  unfold Mgr.startRescan
  cases hb : (b.last p.checked : Res Unit (Option Nat)) with
  | err _ => exact .panicked _
  | panic => exact .panicked _
  | ok st =>
    simp only
    rcases fetchRescan_cases p e t (Mgr.emit { m with rescan := m.rescan.restart (a.first t) st w }
      [.event (.rescanStarted (a.first t) st)]) (a.first t)
      (m.lastWanted st) with
      ⟨m', h⟩ | h | ⟨m1, r, ms, es, n, h1, h2, h⟩
    · exact h ▸ .panicked m'
    · exact h ▸ .nothing st hb
    · exact h ▸ .processed st m1 r ms es n hb h1 h2

theorem step_filters (e : Env) (t : Tree) (m m' : Mgr) (op : Op) (h : m.step p e t op = .ok m') :
    HeadersChange p op.reverts op.imports e.fail m.filters m'.filters := by
  have hq : ∀ {m'' : Mgr}, Quiet t m m'' → HeadersChange p op.reverts op.imports e.fail m.filters m''.filters := by
    intro m'' q; rw [q.filters]; exact .same _ _
  have hs : ∀ {m'' : Mgr}, m''.filters = m.filters → HeadersChange p op.reverts op.imports e.fail m.filters m''.filters := by
    intro m'' q; rw [q]; exact .same _ _
  cases op with
  | init => exact hq (quiet_idle p e t m m' h)
  | peerNegotiated addr ob hf pers =>
    simp only [Mgr.step] at h
    split at h
    · cases h; exact .same _ _
    · split at h
      · cases h; exact .same _ _
      · rw [(quiet_sync p e t _ m' h).filters]; exact .same _ _
  | peerDisconnected addr => cases h; exact .same _ _
  | blockProcessed block height =>
    simp only [Mgr.step] at h
    split at h <;> (cases h; exact .same _ _)
  | blockDisconnected height => cases h; exact .same _ _
  | headersImported reverted =>
    simp only [Mgr.step] at h
    split at h
    · rename_i hr
      rw [Res.bind_eq_ok] at h
      obtain ⟨fork, _, h⟩ := h
      rw [Res.bind_eq_ok] at h
      obtain ⟨m1, h1, h⟩ := h
      rw [(quiet_sync p e t _ m' h).filters]
      have hrb : Op.reverts (.headersImported reverted) = true := by
        cases reverted with
        | nil => simp at hr
        | cons => rfl
      rw [hrb]
      exact rollback_filters p e m m1 fork h1
    · exact hq (quiet_sync p e t m m' h)
  | txConfirmed txid => cases h; exact .same _ _
  | txReverted txid scripts => cases h; exact .same _ _
  | cfheaders peer msg =>
    have hc := receivedCFHeaders_filters p e t m msg
    simp only [Mgr.step] at h
    generalize m.receivedCFHeaders p e t msg = g at h hc
    obtain ⟨g1, g2⟩ := g
    cases g2 with
    | ok n => cases h; exact hc
    | err er => cases er <;> (cases h; exact hc)
    | panic => cases h
  | getcfheaders peer ft start stop =>
    have hc := receivedGetCFHeaders_frame p t m peer ft start stop
    simp only [Mgr.step] at h
    generalize m.receivedGetCFHeaders p t peer ft start stop = g at h hc
    obtain ⟨g1, g2⟩ := g
    have hf : g1.filters = m.filters := by
      rcases hc with rfl | ⟨_, _, rfl⟩ <;> rfl
    cases g2 with
    | ok n => cases h; exact hs hf
    | err er => cases er <;> (cases h; exact hs hf)
    | panic => cases h
  | cfilter peer ft block f =>
    have hc := receivedCFilter_cases p e t m peer ft block f
    simp only [Mgr.step] at h
    generalize m.receivedCFilter p e t peer ft block f = g at h hc
    have hf : g.2 ≠ .panic → g.1.filters = m.filters := by cases hc <;> simp [Mgr.emit]
    obtain ⟨g1, g2⟩ := g
    cases g2 with
    | ok ms =>
      have hf := hf (by simp)
      cases h
      have : (g1.afterFilter ms).filters = m.filters := by rw [(afterFilter_frame ms g1).1]; exact hf
      exact hs this
    | err er =>
      have hf := hf (by simp)
      cases er <;> (cases h; exact hs hf)
    | panic => cases h
  | timer => exact hq (quiet_timerExpired p e t m m' h)
  | watch scripts => cases h; exact .same _ _
  | watchTransaction txid scripts => cases h; exact .same _ _
  | rescan start stop w =>
    have hc := startRescan_cases p e t m start stop w
    simp only [Mgr.step] at h
    generalize m.startRescan p e t start stop w = g at h hc
    cases hc with
    | panicked m' => simp at h
    | nothing stop _ => cases h; exact .same _ _
    | processed stop m1 r ms es n _ q hp =>
      cases h
      have := q.filters
      exact hs this
  | getCFilters start stop =>
    have hqq := quiet_getCFilters e t m start stop
    simp only [Mgr.step] at h
    generalize m.getCFilters e t start stop = g at h hqq
    obtain ⟨g1, g2⟩ := g
    cases g2 <;> simp at h <;> (subst h; exact hq hqq)

theorem tipHeader_eq (f : FilterHeaders) : f.all.getLast?.map (·.2) = some (tipHeader f) := by
  unfold FilterHeaders.all tipHeader
  cases f.tail using List.reverseRecOn with
  | nil => simp
  | append_singleton l x =>
    have : f.head :: (l ++ [x]) = (f.head :: l) ++ [x] := rfl
    rw [this, List.getLast?_concat]; simp

theorem change_filterChain {rb im fail : Bool} {f f' : FilterHeaders} (hc : HeadersChange p rb im fail f f')
    (h : FilterChain p f.all) : FilterChain p f'.all ∧ (fail = false → f.store = f.all → f'.store = f'.all) := by
  cases hc with
  | same => exact ⟨h, fun _ h => h⟩
  | imported hs =>
    have := filterChain_append p hs f.all (tipHeader f) h (tipHeader_eq f)
    unfold importHeaders
    cases fail
    · refine ⟨by simpa [FilterHeaders.all] using this, fun _ hs' => ?_⟩
      simp only [FilterHeaders.all] at hs' ⊢
      simp [hs']
    · exact ⟨by simpa [FilterHeaders.all] using this, by simp⟩
  | rolledBack k =>
    have := filterChain_take p h k
    unfold rollbackHeaders
    cases fail
    · refine ⟨by simpa [FilterHeaders.all] using this, fun _ hs' => ?_⟩
      simp only [FilterHeaders.all] at hs' ⊢
      simp [hs']
    · exact ⟨h, by simp⟩

/-- C22.  After any history of calls — adversarial messages, re-orgs, rollbacks, timers, commands, restarts, with any block
tree shown at any call and even when the store fails — the filter headers in memory form a filter-header chain from the
network's genesis; if the store never failed it holds exactly the same chain. -/
theorem C22_linked {fail : Bool} {m : Mgr} (h : Reach p fail m) :
    FilterChain p m.filters.all ∧ (fail = false → m.filters.store = m.filters.all) := by
  induction h with
  | init f c hf hs => exact ⟨hf, fun _ => hs⟩
  | @step m m' e t op _ hfail hstep ih =>
    have hc := step_filters p e t m m' op hstep
    obtain ⟨h1, h2⟩ := change_filterChain p hc ih.1
    exact ⟨h1, fun hf => h2 (hfail hf) (ih.2 hf)⟩
  | @restart m f es stop c _ hp hl hv ih =>
    have hf : f.store = f.all ∧ f.store = es ∧ es ≠ [] := by
      unfold loadWith at hl
      split at hl
      · cases hl
      · split at hl
        · cases hl
        · cases hl; simp [FilterHeaders.all]
    refine ⟨?_, fun _ => hf.1⟩
    rcases hv with hv | hv
    · show FilterChain p f.all
      obtain ⟨hf1, hf2, hf3⟩ := hf
      rw [ih.2 hv] at hp
      have h1 := List.prefix_iff_eq_take.1 hp
      have h2 : es.length = (es.length - 1) + 1 := by
        have := List.length_pos_of_ne_nil hf3
        omega
      rw [h2] at h1
      rw [← hf1, hf2, h1]
      exact filterChain_take p ih.1 _
    · exact (C23_verify_interrupted p f stop).1 hv

/-! ## C26 -/

theorem heightOf_eq_some {t : Tree} (hn : t.hashes.Nodup) (b h : Nat) : t.heightOf b = some h ↔ t.hashes[h]? = some b := by
  unfold Tree.heightOf
  generalize t.hashes = l at hn
  induction l generalizing h with
  | nil => simp
  | cons x l ih =>
    rw [List.nodup_cons] at hn
    rw [List.idxOf?_cons]
    by_cases hx : x = b
    · subst hx
      simp only [beq_self_eq_true, if_true, Option.some.injEq]
      constructor
      · rintro rfl; rfl
      · cases h with
        | zero => simp
        | succ h =>
          intro hh
          simp only [List.getElem?_cons_succ] at hh
          exact absurd (List.mem_of_getElem? hh) hn.1
    · have hx' : (x == b) = false := by simpa using hx
      simp only [hx', Bool.false_eq_true, if_false]
      cases h with
      | zero => simp [hx]
      | succ h =>
        simp only [List.getElem?_cons_succ]
        rw [← ih h hn.2]
        cases List.idxOf? b l <;> simp

/-- The message is an acceptable filter: of the basic type, for a block of the active chain, and the one committed to by the
filter-header chain at the block's height. -/
def Acceptable (p : Params) (t : Tree) (fs : FilterHeaders) (ft block : Nat) (f : Filter) (h : Nat) : Prop :=
  ft = 0 ∧ t.hashes[h]? = some block ∧ Committed p fs.all h f

/-- C26.  Handling a filter message: if the filter is acceptable, it is announced; otherwise nothing changes except that the
sender may be flagged, which happens exactly if the filter header is known and does not fit the filter. -/
theorem C26_accepts_only_committed (e : Env) (t : Tree) (m m' : Mgr) (peer ft block : Nat) (f : Filter)
    (hn : t.hashes.Nodup) (hs : m.step p e t (.cfilter peer ft block f) = .ok m') :
    (∀ h, Acceptable p t m.filters ft block f h →
      ∃ o, m'.out = m.out ++ .event (.filterReceived peer block h f) :: o) ∧
    ((∀ h, ¬ Acceptable p t m.filters ft block f h) →
      m' = m ∧ ¬ (ft = 0 ∧ ∃ h : Nat, t.hashes[h]? = some block ∧ (m.filters.all[h]?).isSome) ∨
      m' = m.emit [.event (.peerMisbehaved peer)] ∧ ft = 0 ∧ ∃ h : Nat, t.hashes[h]? = some block ∧ (m.filters.all[h]?).isSome) := by
  have hc := receivedCFilter_cases p e t m peer ft block f
  have hun : ∀ {h h' : Nat}, t.hashes[h]? = some block → t.heightOf block = some h' → h = h' := by
    intro h h' h1 h2
    rw [← heightOf_eq_some hn, h2] at h1; cases h1; rfl
  simp only [Mgr.step] at hs
  generalize m.receivedCFilter p e t peer ft block f = g at hs hc
  cases hc with
  | ignored hi =>
    cases hs
    have hna : ¬ (ft = 0 ∧ ∃ h : Nat, t.hashes[h]? = some block ∧ (m.filters.all[h]?).isSome) := by
      rintro ⟨h0, h, hb, hh⟩
      rcases hi with hi | hi | ⟨h', h1, h2⟩
      · exact hi h0
      · rw [(heightOf_eq_some hn _ _).2 hb] at hi; cases hi
      · rw [hun hb h1] at hh; rw [h2] at hh; cases hh
    refine ⟨fun h ha => absurd ⟨ha.1, h, ha.2.1, ?_⟩ hna, fun _ => Or.inl ⟨rfl, hna⟩⟩
    obtain ⟨hdr, _, hx, _⟩ := ha.2.2
    cases hy : m.filters.all[h]? <;> simp [hy] at hx ⊢
  | invalid h h0 h1 h2 h3 =>
    cases hs
    refine ⟨fun h' ha => ?_, fun _ => Or.inr ⟨rfl, h0, h, (heightOf_eq_some hn _ _).1 h1, h2⟩⟩
    have := hun ha.2.1 h1
    subst this; exact absurd ha.2.2 h3
  | unsolicited h h0 h1 h2 h3 =>
    refine ⟨fun h' ha => ?_, fun hna => absurd ⟨h0, (heightOf_eq_some hn _ _).1 h1, h2⟩ (hna h)⟩
    have := hun ha.2.1 h1
    subst this
    cases hs
    obtain ⟨_, ks, o, hks, _⟩ := afterFilter_frame [] (m.emit [.event (.filterReceived peer block h' f)])
    exact ⟨ks.map .getBlock ++ o, by rw [hks]; simp [Mgr.emit]⟩
  | scanned h c r ms es n h0 h1 h2 h3 h4 h5 =>
    refine ⟨fun h' ha => ?_, fun hna => absurd ⟨h0, (heightOf_eq_some hn _ _).1 h1, h2⟩ (hna h)⟩
    have := hun ha.2.1 h1
    subst this
    cases hs
    obtain ⟨_, ks, o, hks, _⟩ := afterFilter_frame ms { m with
      rescan := r, lastProcessed := if 0 < n then some e.now else m.lastProcessed,
      out := m.out ++ .event (.filterReceived peer block h' f) :: es.map .event }
    exact ⟨es.map .event ++ (ks.map .getBlock ++ o), by rw [hks]; simp⟩
  | panicked m' h hp => simp at hs

/-- Histories with their log: for every call the filter headers before it, the tree shown and the call. -/
inductive Log (p : Params) : List (FilterHeaders × Tree × Op) → Mgr → Prop
  | init (f : FilterHeaders) (cacheSize : Nat) : Log p [] (Mgr.new f cacheSize)
  | step {l : List (FilterHeaders × Tree × Op)} {m m' : Mgr} (e : Env) (t : Tree) (op : Op) :
      Log p l m → m.step p e t op = .ok m' → Log p ((m.filters, t, op) :: l) m'

/-- Some filter message of the log was acceptable when it was handled, and carried filter `f` for height `h`. -/
def WasAccepted (p : Params) (l : List (FilterHeaders × Tree × Op)) (h : Nat) (f : Filter) : Prop :=
  ∃ fs t peer block, (fs, t, Op.cfilter peer 0 block f) ∈ l ∧ t.heightOf block = some h ∧ Committed p fs.all h f

/-- Where a filter `f` for block `b` at height `h` can come from in a call: the queue, the cache (the block being the one of the
tree), or the acceptable message being handled. -/
def Source (p : Params) (t : Tree) (m : Mgr) (op : Op) (h : Nat) (f : Filter) (b : Nat) : Prop :=
  (∃ c, m.rescan.received.get h = some (f, b, c)) ∨
  (m.rescan.cache.get h = some f ∧ t.byHeight h = some b) ∨
  (∃ peer, op = .cfilter peer 0 b f ∧ t.heightOf b = some h ∧ Committed p m.filters.all h f)

/-- Facts about one call. -/
structure StepFacts (p : Params) (t : Tree) (m : Mgr) (op : Op) (m' : Mgr) : Prop where
  cacheOK : CacheOK List.length m'.rescan.cache
  cache : ∀ h f, m'.rescan.cache.get h = some f → m.rescan.cache.get h = some f ∨
    ∃ peer b, op = .cfilter peer 0 b f ∧ t.heightOf b = some h ∧ Committed p m.filters.all h f
  queue : ∀ h f b c, m'.rescan.received.get h = some (f, b, c) → Source p t m op h f b
  out : ∃ o, m'.out = m.out ++ o ∧ ∀ b h v mt c, .filterProcessed b h v mt c ∈ eventsOf o →
    ∃ f, Source p t m op h f b ∧ (mt = true ↔ Matches p m'.rescan.watch m'.rescan.transactions f b)

theorem StepFacts.of_quiet {t : Tree} {m m' : Mgr} (op : Op) (hc : CacheOK List.length m.rescan.cache)
    (q : Quiet t m m') : StepFacts p t m op m' := by
  have hcc : m'.rescan.cache = m.rescan.cache := by rw [q.rescan]
  obtain ⟨o, h1, h2, _⟩ := q.out
  refine ⟨hcc ▸ hc, fun h f hh => Or.inl (hcc ▸ hh), ?_, ⟨o, h1, by simp [h2]⟩⟩
  intro h f b c hh
  rcases q.queued h _ hh with h3 | h3
  · exact Or.inl ⟨c, h3⟩
  · exact Or.inr (Or.inl h3)

/-- Changes that touch neither cache nor queue nor emit `FilterProcessed`. -/
theorem StepFacts.of_frame {t : Tree} {m m' : Mgr} (op : Op) (hc : CacheOK List.length m.rescan.cache)
    (h1 : m'.rescan.cache = m.rescan.cache) (h2 : m'.rescan.received = m.rescan.received) (o : List Out)
    (h3 : m'.out = m.out ++ o) (h4 : ∀ b h v mt c, .filterProcessed b h v mt c ∉ eventsOf o) : StepFacts p t m op m' :=
  ⟨h1 ▸ hc, fun _ _ hh => Or.inl (h1 ▸ hh), fun _ _ _ c hh => Or.inl ⟨c, h2 ▸ hh⟩,
    ⟨o, h3, fun b h v mt c hh => absurd hh (h4 b h v mt c)⟩⟩

/-- Processing the queue only emits events about queued filters and only removes filters from the queue. -/
theorem process_facts (r : Rescan) {r' : Rescan} {ms : List (Nat × Nat)} {es : List Ev} {n : Nat}
    (h : r.process p = (r', ms, es, n)) :
    r'.cache = r.cache ∧ r'.watch = r.watch ∧ r'.transactions = r.transactions ∧ r'.current = r.current + n ∧
    r'.start = r.start ∧ r'.end = r.end ∧ r'.requested = r.requested ∧
    (∀ h x, r'.received.get h = some x → r.received.get h = some x) ∧
    es.filterMap processedHeight = List.range' r.current n ∧
    (∀ b h v mt c, Ev.filterProcessed b h v mt c ∈ es →
      ∃ f, r.received.get h = some (f, b, c) ∧ (mt = true ↔ Matches p r.watch r.transactions f b)) := by
  obtain ⟨n', r'', ms', es', stp, h1, h2, h3, h4, h5, h6, h7, h8, h9, h10, h11⟩ := C29_process p r
  rw [h] at h1
  simp only [Prod.mk.injEq] at h1
  obtain ⟨e1, e2, e3, e4⟩ := h1
  subst e1 e2 e3 e4
  have hev : ∀ i e, es'[i]? = some e → ∃ x, r.received.get (r.current + i) = some x ∧ IsEventFor p r (r.current + i) x e := by
    intro i e he
    have hi : i < n := by
      rw [← h5]; exact (List.getElem?_eq_some_iff.1 he).1
    obtain ⟨x, hx⟩ := Option.isSome_iff_exists.1 (h3 i hi)
    obtain ⟨e', he', hie⟩ := h6 i x hi hx
    rw [he] at he'; cases he'
    exact ⟨x, hx, hie⟩
  refine ⟨by rw [h11], by rw [h11], by rw [h11], h2, by rw [h11], by rw [h11], by rw [h11], ?_, ?_, ?_⟩
  · intro h x hx
    rw [h9] at hx
    split at hx
    · cases hx
    · exact hx
  · have hstop : stp.filterMap processedHeight = [] := by
      rcases h10 with ⟨rfl, _⟩ | ⟨rfl, _⟩ <;> rfl
    rw [List.filterMap_append, hstop, List.append_nil]
    have : es'.map processedHeight = (List.range' r.current n).map some := by
      apply List.ext_getElem?
      intro i
      rw [List.getElem?_map, List.getElem?_map]
      cases he : es'[i]? with
      | none =>
        rw [List.getElem?_eq_none_iff] at he
        rw [List.getElem?_eq_none (by simp; omega)]; rfl
      | some e =>
        obtain ⟨x, hx, v, mt, rfl, _⟩ := hev i e he
        have hi : i < n := by rw [← h5]; exact (List.getElem?_eq_some_iff.1 he).1
        rw [List.getElem?_range' (by omega)]
        simp [processedHeight]
    have h' : ∀ l : List Ev, l.filterMap processedHeight = (l.map processedHeight).filterMap id := by
      intro l; rw [List.filterMap_map]; rfl
    rw [h', this, List.filterMap_map]
    simp
  · intro b h v mt c hm
    have hm' : Ev.filterProcessed b h v mt c ∈ es' := by
      rcases List.mem_append.1 hm with hm | hm
      · exact hm
      · rcases h10 with ⟨rfl, _⟩ | ⟨rfl, _⟩ <;> simp at hm
    obtain ⟨i, hi⟩ := List.getElem?_of_mem hm'
    obtain ⟨x, hx, v', mt', he, h12, _⟩ := hev i _ hi
    simp only [Ev.filterProcessed.injEq] at he
    obtain ⟨rfl, rfl, rfl, rfl, rfl⟩ := he
    exact ⟨x.1, hx, h12⟩

theorem eventsOf_map (es : List Ev) : eventsOf (es.map .event) = es := by
  induction es with
  | nil => rfl
  | cons e es ih => simp only [List.map_cons, eventsOf, List.filterMap_cons] at ih ⊢; rw [ih]

theorem eventsOf_getBlocks (ks : List Nat) : eventsOf (ks.map .getBlock) = [] := by
  induction ks with
  | nil => rfl
  | cons e es ih => simp only [List.map_cons, eventsOf, List.filterMap_cons] at ih ⊢; rw [ih]

theorem rollback_cases (e : Env) (m m' : Mgr) (h : Nat) (hr : m.rollback e h = .ok m') :
    m' = m ∧ m.filters.height ≤ h ∨
    h < m.filters.height ∧ ∃ c, m.rescan.cache.rollback List.length h = .ok c ∧
      m' = { m with filters := m'.filters, out := m'.out,
                    rescan := { m.rescan with cache := c, current := m'.rescan.current } } ∧
      (e.fail = false → m'.filters = (rollbackHeaders m.filters h false).1 ∧ m'.out = m.out ∧
        (m.rescan.active = true → m'.rescan.current =
          if h + 1 < m.rescan.current then max (h + 1) m.rescan.start else m.rescan.current) ∧
        (m.rescan.active = false → m'.rescan.current = m.rescan.current)) ∧
      (e.fail = true → m'.filters = m.filters ∧ m'.out = m.out ++ [.event .error] ∧
        m'.rescan.current = m.rescan.current) := by
  unfold Mgr.rollback at hr
  split at hr
  · rename_i hle; cases hr; exact Or.inl ⟨rfl, hle⟩
  · rename_i hle
    right
    refine ⟨by omega, ?_⟩
    rw [Res.bind_eq_ok] at hr
    obtain ⟨r, hrr, hr⟩ := hr
    unfold Rescan.rollback at hrr
    rw [Res.bind_eq_ok] at hrr
    obtain ⟨c, hc, hrr⟩ := hrr
    cases hrr
    refine ⟨c, hc, ?_⟩
    cases hfail : e.fail
    · rw [hfail] at hr
      simp only [rollbackHeaders, Bool.false_eq_true, if_false] at hr
      cases ha : m.rescan.active
      · simp only [ha, Bool.false_eq_true, if_false] at hr
        cases hr
        refine ⟨by simp [ha], ?_, by simp⟩
        intro _; exact ⟨by simp [rollbackHeaders], rfl, by simp, by simp⟩
      · simp only [ha, if_true] at hr
        split at hr
        · rename_i hlt
          cases hr
          refine ⟨by simp [ha], ?_, by simp⟩
          intro _; exact ⟨by simp [rollbackHeaders], rfl, by simp [hlt], by simp⟩
        · rename_i hlt
          cases hr
          refine ⟨by simp [ha], ?_, by simp⟩
          intro _; exact ⟨by simp [rollbackHeaders], rfl, by simp [hlt], by simp⟩
    · rw [hfail] at hr
      simp only [rollbackHeaders, if_true] at hr
      cases hr
      exact ⟨rfl, by simp, fun _ => ⟨rfl, rfl, rfl⟩⟩

theorem rollback_cacheOK {c c' : Cache Filter} (hc : CacheOK List.length c) {h : Nat}
    (hr : c.rollback List.length h = .ok c') : CacheOK List.length c' ∧
      ∀ k f, c'.get k = some f → c.get k = some f ∧ k ≤ h := by
  obtain ⟨c'', h1, h2, _, h4, _⟩ := C27_rollback List.length c hc h
  rw [hr] at h1; cases h1
  refine ⟨h2, fun k f hk => ?_⟩
  rw [get_eq_some_iff h2.sorted, h4, List.mem_filter] at hk
  exact ⟨(get_eq_some_iff hc.sorted k f).2 hk.1, by simpa using hk.2⟩

theorem push_cacheOK {c : Cache Filter} (hc : CacheOK List.length c) {h : Nat} {f : Filter} {r : Bool × Cache Filter}
    (hr : c.push List.length h f = .ok r) : CacheOK List.length r.2 ∧
      ∀ k g, r.2.get k = some g → c.get k = some g ∨ k = h ∧ g = f := by
  obtain ⟨ok, c'', h1, h2, _, _, h5, h6⟩ := C27_push List.length c hc h f
  rw [hr] at h1; cases h1
  refine ⟨h2, fun k g hk => ?_⟩
  simp only at hk
  cases ok with
  | false => rw [h5 rfl] at hk; exact Or.inl hk
  | true =>
    obtain ⟨n, hn, _⟩ := h6 rfl
    rw [get_eq_some_iff h2.sorted, hn] at hk
    rcases (mem_sinsert hlt_total h f hc.sorted _).1 (List.mem_of_mem_drop hk) with h7 | ⟨_, h7⟩
    · cases h7; exact Or.inr ⟨rfl, rfl⟩
    · exact Or.inl ((get_eq_some_iff hc.sorted k g).2 h7)

/-- `m1` is `m` with other filter headers and quiet changes, followed by events other than `FilterProcessed`. -/
def FrameOK (t : Tree) (m m1 : Mgr) : Prop :=
  ∃ m0 o, m1.rescan = m0.rescan ∧ m1.out = m0.out ++ o ∧ (∀ x ∈ eventsOf o, ∃ h, x = .filterHeadersSynced h) ∧
    (∀ x ∈ o, ∀ k, x ≠ .getBlock k) ∧ m1.pending = m0.pending ∧ Quiet t { m with filters := m1.filters } m0

theorem receivedCFHeaders_frame (e : Env) (t : Tree) (m : Mgr) (msg : CFHeadersMsg) :
    FrameOK t m (m.receivedCFHeaders p e t msg).1 := by
  have hstay : ∀ (m1 : Mgr), m1.rescan = m.rescan → m1.out = m.out → m1.pending = m.pending →
      m1.lastProcessed = m.lastProcessed → FrameOK t m m1 := by
    intro m1 h1 h2 h3 h4
    refine ⟨m1, [], rfl, by simp, by simp [eventsOf], by simp, rfl, ?_⟩
    exact Quiet.mk' t _ _ [] rfl h3 h4 h1 (by simpa using h2) rfl (by simp)
  unfold Mgr.receivedCFHeaders
  split
  · exact hstay _ rfl rfl rfl rfl
  · simp only
    split
    · exact hstay _ rfl rfl rfl rfl
    · split
      · exact hstay _ rfl rfl rfl rfl
      · split
        · exact hstay _ rfl rfl rfl rfl
        · split
          · refine ⟨m.scheduleWake, [], rfl, by simp [Mgr.scheduleWake, Mgr.emit], by simp [eventsOf], by simp, rfl, ?_⟩
            exact Quiet.mk' t _ _ [_] rfl rfl rfl rfl rfl rfl (by simp)
          · split
            · exact hstay _ rfl rfl rfl rfl
            · split
              · exact hstay _ rfl rfl rfl rfl
              · split
                · exact hstay _ rfl rfl rfl rfl
                · split
                  · exact hstay _ rfl rfl rfl rfl
                  · generalize importHeaders m.filters (chainHeaders p msg.prev msg.hashes) e.fail = g
                    obtain ⟨g1, g2⟩ := g
                    cases g2 with
                    | ok height =>
                      simp only
                      have hq := quiet_headersImported e t
                        { m with inflight := m.inflight.erase msg.stop, filters := g1 } m.filters.height height
                      generalize Mgr.headersImported e t
                        { m with inflight := m.inflight.erase msg.stop, filters := g1 } m.filters.height height = k at hq
                      obtain ⟨k1, k2⟩ := k
                      have hq' : Quiet t { m with filters := g1 } k1 :=
                        by
                        refine Quiet.trans (b := { m with inflight := m.inflight.erase msg.stop, filters := g1 }) ?_ hq
                        exact Quiet.mk' t _ _ [] rfl rfl rfl rfl (by simp) rfl (by simp)
                      have hf : k1.filters = g1 := hq.filters
                      have hk0 : FrameOK t m k1 := by
                        refine ⟨k1, [], rfl, by simp, by simp [eventsOf], by simp, rfl, ?_⟩
                        rw [hf]; exact hq'
                      cases k2 with
                      | ok u =>
                        cases u
                        simp only
                        split
                        · split
                          · refine ⟨k1, [_], rfl, rfl, by simp [eventsOf], by simp, rfl, ?_⟩
                            have : (k1.emit [.event (.filterHeadersSynced height)]).filters = g1 := hf
                            rw [this]; exact hq'
                          · cases hs : (k1.sync p e t : Res Err Mgr) with
                            | ok m2 =>
                              simp only
                              have q2 := quiet_sync p e t k1 m2 hs
                              refine ⟨m2, [], rfl, by simp, by simp [eventsOf], by simp, rfl, ?_⟩
                              rw [q2.filters, hf]; exact hq'.trans q2
                            | err e => exact hk0
                            | panic => exact hk0
                        · exact hk0
                      | err e => exact hk0
                      | panic => exact hk0
                    | err e => exact hstay _ rfl rfl rfl rfl
                    | panic => exact hstay _ rfl rfl rfl rfl

theorem step_facts (e : Env) (t : Tree) (m m' : Mgr) (op : Op) (h : m.step p e t op = .ok m')
    (hc : CacheOK List.length m.rescan.cache) : StepFacts p t m op m' := by
  have hframe : ∀ {m'' : Mgr} (o : List Out), m''.rescan.cache = m.rescan.cache → m''.rescan.received = m.rescan.received →
      m''.out = m.out ++ o → (∀ b h v mt c, .filterProcessed b h v mt c ∉ eventsOf o) → StepFacts p t m op m'' :=
    fun o h1 h2 h3 h4 => StepFacts.of_frame p op hc h1 h2 o h3 h4
  cases op with
  | init => exact StepFacts.of_quiet p _ hc (quiet_idle p e t m m' h)
  | peerNegotiated addr ob hf pers =>
    simp only [Mgr.step] at h
    split at h
    · cases h; exact StepFacts.of_quiet p _ hc (Quiet.refl t _)
    · split at h
      · cases h; exact StepFacts.of_quiet p _ hc (Quiet.refl t _)
      · refine StepFacts.of_quiet p _ hc (Quiet.trans ?_ (quiet_sync p e t _ m' h))
        exact Quiet.mk' t _ _ [] rfl rfl rfl rfl (by simp) rfl (by simp)
  | peerDisconnected addr => cases h; exact hframe [] rfl rfl (by simp) (by simp [eventsOf])
  | blockProcessed block height =>
    simp only [Mgr.step] at h
    split at h
    · cases h
      exact hframe [_, _] rfl rfl (by simp only [Mgr.emit, List.append_assoc]; rfl) (by simp [eventsOf])
    · cases h; exact hframe [] rfl rfl (by simp) (by simp [eventsOf])
  | blockDisconnected height => cases h; exact hframe [] rfl rfl (by simp) (by simp [eventsOf])
  | headersImported reverted =>
    simp only [Mgr.step] at h
    split at h
    · rw [Res.bind_eq_ok] at h
      obtain ⟨fork, _, h⟩ := h
      rw [Res.bind_eq_ok] at h
      obtain ⟨m1, h1, h⟩ := h
      have q := quiet_sync p e t _ m' h
      rcases rollback_cases e m m1 fork h1 with ⟨rfl, _⟩ | ⟨_, c, hcr, hm1, hok, hfl⟩
      · exact StepFacts.of_quiet p _ hc q
      · obtain ⟨hc1, hc2⟩ := rollback_cacheOK hc hcr
        have hcache : m1.rescan.cache = c := by rw [hm1]
        have hrec : m1.rescan.received = m.rescan.received := by rw [hm1]
        have hcm' : m'.rescan.cache = c := by rw [q.rescan]; exact hcache
        obtain ⟨o, ho1, ho2, _⟩ := q.out
        refine ⟨hcm' ▸ hc1, ?_, ?_, ?_⟩
        · intro k f hk; rw [hcm'] at hk; exact Or.inl (hc2 k f hk).1
        · intro k f b cc hk
          rcases q.queued k _ hk with h3 | ⟨h3, h4⟩
          · rw [hrec] at h3; exact Or.inl ⟨cc, h3⟩
          · rw [hcache] at h3; exact Or.inr (Or.inl ⟨(hc2 k _ h3).1, h4⟩)
        · cases hf : e.fail
          · obtain ⟨_, h5, _⟩ := hok hf
            exact ⟨o, by rw [ho1, h5], by simp [ho2]⟩
          · obtain ⟨_, h5, _⟩ := hfl hf
            refine ⟨[.event .error] ++ o, by rw [ho1, h5]; simp, ?_⟩
            rw [eventsOf_append, ho2]; simp [eventsOf]
    · exact StepFacts.of_quiet p _ hc (quiet_sync p e t m m' h)
  | txConfirmed txid => cases h; exact hframe [] rfl rfl (by simp) (by simp [eventsOf])
  | txReverted txid scripts => cases h; exact hframe [] rfl rfl (by simp) (by simp [eventsOf])
  | cfheaders peer msg =>
    obtain ⟨m0, o, h1, h2, h3, _, h5, q⟩ := receivedCFHeaders_frame p e t m msg
    have key : ∀ (m'' : Mgr) (o' : List Out), m''.rescan = m0.rescan → m''.out = m0.out ++ o ++ o' →
        (∀ b h v mt c, .filterProcessed b h v mt c ∉ eventsOf o') → StepFacts p t m (.cfheaders peer msg) m'' := by
      intro m'' o' k1 k2 k3
      obtain ⟨f1, f2, f3, oo, f4, f5⟩ := StepFacts.of_quiet p (Op.cfheaders peer msg) (m := { m with
        filters := (m.receivedCFHeaders p e t msg).1.filters }) hc q
      refine ⟨k1 ▸ f1, ?_, ?_, ⟨oo ++ o ++ o', by rw [k2, f4]; simp, ?_⟩⟩
      · intro k f hk; rw [k1] at hk
        rcases f2 k f hk with f2 | ⟨_, _, f2, _⟩
        · exact Or.inl f2
        · cases f2
      · intro k f b cc hk; rw [k1] at hk
        rcases f3 k f b cc hk with f3 | f3 | ⟨_, f3, _⟩
        · exact Or.inl f3
        · exact Or.inr (Or.inl f3)
        · cases f3
      · intro b hh v mt c hm
        rw [eventsOf_append, eventsOf_append, List.mem_append, List.mem_append] at hm
        rcases hm with (hm | hm) | hm
        · obtain ⟨o2, q2, q3, _⟩ := q.out
          have : oo = o2 := by
            have := f4.symm.trans q2
            exact List.append_cancel_left this
          rw [this, q3] at hm; cases hm
        · obtain ⟨_, hx⟩ := h3 _ hm; cases hx
        · exact absurd hm (k3 b hh v mt c)
    simp only [Mgr.step] at h
    generalize m.receivedCFHeaders p e t msg = g at h h1 h2
    obtain ⟨g1, g2⟩ := g
    cases g2 with
    | ok n => cases h; exact key _ [] h1 (by simpa using h2) (by simp [eventsOf])
    | err er =>
      cases er
      · cases h; exact key _ [] h1 (by simpa using h2) (by simp [eventsOf])
      · cases h; exact key _ [_] h1 (by simp only [Mgr.emit]; rw [h2]) (by simp [eventsOf])
      · cases h; exact key _ [_] h1 (by simp only [Mgr.emit]; rw [h2]) (by simp [eventsOf])
    | panic => cases h
  | getcfheaders peer ft start stop =>
    have hcc := receivedGetCFHeaders_frame p t m peer ft start stop
    simp only [Mgr.step] at h
    generalize m.receivedGetCFHeaders p t peer ft start stop = g at h hcc
    obtain ⟨g1, g2⟩ := g
    have hf : g1.rescan = m.rescan ∧ ∃ o, g1.out = m.out ++ o ∧ eventsOf o = [] := by
      rcases hcc with rfl | ⟨_, _, rfl⟩
      · exact ⟨rfl, [], by simp, rfl⟩
      · exact ⟨rfl, [_], rfl, rfl⟩
    obtain ⟨hf1, o, hf2, hf3⟩ := hf
    cases g2 with
    | ok n => cases h; exact hframe o (by rw [hf1]) (by rw [hf1]) hf2 (by simp [hf3])
    | err er =>
      cases er
      · cases h; exact hframe o (by rw [hf1]) (by rw [hf1]) hf2 (by simp [hf3])
      · cases h
        exact hframe (o ++ [.event (.peerMisbehaved peer)]) (by simp [Mgr.emit, hf1]) (by simp [Mgr.emit, hf1])
          (by simp [Mgr.emit, hf2]) (by rw [eventsOf_append, hf3]; simp [eventsOf])
      · cases h; exact hframe o (by rw [hf1]) (by rw [hf1]) hf2 (by simp [hf3])
    | panic => cases h
  | cfilter peer ft block f =>
    have hcc := receivedCFilter_cases p e t m peer ft block f
    simp only [Mgr.step] at h
    generalize m.receivedCFilter p e t peer ft block f = g at h hcc
    cases hcc with
    | ignored hi => cases h; exact hframe [] rfl rfl (by simp) (by simp [eventsOf])
    | invalid hh h0 h1 h2 h3 => cases h; exact hframe [_] rfl rfl rfl (by simp [eventsOf])
    | unsolicited hh h0 h1 h2 h3 =>
      cases h
      obtain ⟨b1, ks, o, b2, b3⟩ := afterFilter_frame [] (m.emit [.event (.filterReceived peer block hh f)])
      refine hframe (.event (.filterReceived peer block hh f) :: (ks.map .getBlock ++ o)) (by rw [b1]; rfl) (by rw [b1]; rfl)
        (by rw [b2]; simp [Mgr.emit]) ?_
      have : eventsOf (.event (.filterReceived peer block hh f) :: (ks.map .getBlock ++ o)) =
        .filterReceived peer block hh f :: eventsOf (ks.map .getBlock ++ o) := rfl
      rw [this, eventsOf_append, eventsOf_getBlocks]
      rcases b3 with rfl | ⟨_, rfl⟩ <;> simp [eventsOf]
    | scanned hh c r ms es n h0 h1 h2 h3 h4 h5 =>
      subst h0
      obtain ⟨p1, p2, p3, p4, _, _, _, p8, p9, p10⟩ := process_facts p _ h5
      obtain ⟨c1, c2⟩ := push_cacheOK hc h4
      cases h
      obtain ⟨b1, ks, o, b2, b3⟩ := afterFilter_frame ms { m with
        rescan := r, lastProcessed := if 0 < n then some e.now else m.lastProcessed,
        out := m.out ++ .event (.filterReceived peer block hh f) :: es.map .event }
      have hsrc : ∀ k g b cc, AMap.get (m.rescan.received.insert hh (f, block, false)) k = some (g, b, cc) →
          Source p t m (.cfilter peer 0 block f) k g b := by
        intro k g b cc hk
        rw [AMap.get_insert] at hk
        split at hk
        · rename_i he; subst he; cases hk
          exact Or.inr (Or.inr ⟨peer, rfl, h1, h2⟩)
        · exact Or.inl ⟨cc, hk⟩
      have key : ∀ (m'' : Mgr) (o' : List Out), m''.rescan = r →
          m''.out = m.out ++ (.event (.filterReceived peer block hh f) :: es.map .event ++ ks.map .getBlock ++ o') →
          (∀ b h v mt c, .filterProcessed b h v mt c ∉ eventsOf o') →
          StepFacts p t m (.cfilter peer 0 block f) m'' := by
        intro m'' o' k1 k2 k3
        refine ⟨by rw [k1, p1]; exact c1, ?_, ?_, ⟨_, k2, ?_⟩⟩
        · intro k g hk
          rw [k1, p1] at hk
          rcases c2 k g hk with h | ⟨rfl, rfl⟩
          · exact Or.inl h
          · exact Or.inr ⟨peer, block, rfl, h1, h2⟩
        · intro k g b cc hk
          rw [k1] at hk
          exact hsrc k g b cc (p8 k _ hk)
        · intro b k v mt c hm
          rw [eventsOf_append, eventsOf_append, eventsOf_getBlocks, List.append_nil, List.mem_append] at hm
          rcases hm with hm | hm
          · have hm' : .filterProcessed b k v mt c ∈ es := by
              have : eventsOf (.event (.filterReceived peer block hh f) :: es.map .event) =
                .filterReceived peer block hh f :: eventsOf (es.map .event) := rfl
              rw [this, eventsOf_map] at hm
              simpa using hm
            obtain ⟨g, g1, g2⟩ := p10 b k v mt c hm'
            refine ⟨g, hsrc k g b c g1, ?_⟩
            rw [k1, p2, p3]; exact g2
          · exact absurd hm (k3 b k v mt c)
      refine key _ o (by rw [b1]) (by rw [b2]; simp) ?_
      rcases b3 with rfl | ⟨_, rfl⟩ <;> simp [eventsOf]
    | panicked m' hh hp => simp at h
  | timer => exact StepFacts.of_quiet p _ hc (quiet_timerExpired p e t m m' h)
  | watch scripts => cases h; exact hframe [] rfl rfl (by simp) (by simp [eventsOf])
  | watchTransaction txid scripts => cases h; exact hframe [] rfl rfl (by simp) (by simp [eventsOf])
  | rescan start stop w =>
    have hcc := startRescan_cases p e t m start stop w
    simp only [Mgr.step] at h
    generalize m.startRescan p e t start stop w = g at h hcc
    cases hcc with
    | panicked m' => simp at h
    | nothing st _ => cases h; exact hframe [_] rfl rfl (by simp [Mgr.emit]; rfl) (by simp [eventsOf])
    | processed st m1 r ms es n _ q hp =>
      obtain ⟨p1, p2, p3, p4, _, _, _, p8, p9, p10⟩ := process_facts p _ hp
      cases h
      obtain ⟨f1, f2, f3, oo, f4, f5⟩ := StepFacts.of_quiet p (Op.rescan start stop w) (m := { m with
        rescan := m.rescan.restart (start.first t) st w,
        out := m.out ++ [.event (.rescanStarted (start.first t) st)] }) hc q
      have hsrc : ∀ k g b cc, m1.rescan.received.get k = some (g, b, cc) →
          Source p t m (.rescan start stop w) k g b := by
        intro k g b cc hk
        rcases f3 k g b cc hk with f3 | f3 | ⟨_, f3, _⟩
        · exact Or.inl f3
        · exact Or.inr (Or.inl f3)
        · cases f3
      refine ⟨?_, ?_, ?_, ⟨.event (.rescanStarted (start.first t) st) :: oo ++ es.map .event ++
        (ms.map (·.2)).map .getBlock, ?_, ?_⟩⟩
      · simp only [Mgr.emit]; rw [p1]; exact f1
      · intro k g hk
        simp only [Mgr.emit] at hk
        rw [p1] at hk
        rcases f2 k g hk with f2 | ⟨_, _, f2, _⟩
        · exact Or.inl f2
        · cases f2
      · intro k g b cc hk
        exact hsrc k g b cc (p8 k _ hk)
      · simp only [Mgr.emit]; rw [f4]; simp [Function.comp_def]
      · intro b k v mt c hm
        rw [eventsOf_append, eventsOf_getBlocks, List.append_nil, eventsOf_append, eventsOf_map, List.mem_append] at hm
        rcases hm with hm | hm
        · obtain ⟨o2, q2, q3, _⟩ := q.out
          have : oo = o2 := List.append_cancel_left (f4.symm.trans q2)
          have he : eventsOf (.event (.rescanStarted (start.first t) st) :: oo) =
            .rescanStarted (start.first t) st :: eventsOf oo := rfl
          rw [he, this, q3] at hm
          simp at hm
        · obtain ⟨g, g1, g2⟩ := p10 b k v mt c hm
          refine ⟨g, hsrc k g b c g1, ?_⟩
          simp only [Mgr.emit]; rw [p2, p3]; exact g2
  | getCFilters start stop =>
    have hqq := quiet_getCFilters e t m start stop
    simp only [Mgr.step] at h
    generalize m.getCFilters e t start stop = g at h hqq
    obtain ⟨g1, g2⟩ := g
    cases g2 <;> simp at h <;> (subst h; exact StepFacts.of_quiet p _ hc hqq)

end Verif.Cbf
