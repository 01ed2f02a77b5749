import Verif.Node.TidyScan

/-!
# Scans and re-orgs: properties
-/

set_option autoImplicit false

namespace Verif.Node
open Verif.Tx (Block Transaction)
open Verif.Chain (Header)
open Verif.Cbf (Committed Matches)
open Verif (AMap)

variable {cfg : Cfg} {U : Header → Prop} {fail : Bool} {t0 : Chain.State} {g : Header} {h : Hist} {n n' : Fsm}
  {T : AMap Nat (List Nat) → Prop} {w : List Nat}

/-! ## Specification -/

/-- How an output moves the height to scan next, for a rescan from the height `s` on: after a filter was scanned the next height follows, and if blocks left the chain that were passed already,
the lowest of them does (or `s`). -/
def tick (s c : Nat) : Out → Nat
  | .cbf (.event (.filterProcessed _ height _ _ _)) => height + 1
  | .sync (.imported _ _ _ _ rv) =>
    match rv.getLast? with
    | some r => if r.1 < c then max r.1 s else c
    | none => c
  | _ => c

/-- The height to scan next. -/
def progress (s : Nat) (l : List Out) : Nat := l.foldl (tick s) s

/-- Filters are scanned one after the other: each at the height to scan next, which is `c` at first. -/
def InOrder (s : Nat) : Nat → List Out → Prop
  | _, [] => True
  | c, x :: l => (∀ y ∈ scans [x], y.1 = c) ∧ InOrder s (tick s c x) l

/-- The last time the filter for a height was scanned: the block and whether it matched. -/
def latest (l : List Out) (height : Nat) : Option (Nat × Bool) := ((scans l).reverse.find? (fun x => x.1 == height)).map (·.2)

/-! ## C89: scanned filters -/

theorem quiet_leaves {o : Out} {k : Nat} (hq : ¬ o.Reverts) : ¬ Leaves k o := by
  intro hx
  cases o with
  | sync y =>
    cases y with
    | disconnected => exact hq trivial
    | imported a b c d rv =>
      obtain ⟨r, hr, -⟩ := hx
      have : rv = [] := by_contra hq
      subst this
      cases hr
    | _ => exact hx
  | _ => exact hx

/-- The block is on the active chain, the filter is committed to, and no report waits that says otherwise. -/
structure Holds (cfg : Cfg) (n : Fsm) (height hash : Nat) (f : Cbf.Filter) : Prop where
  chain : (view cfg n.tree).byHeight height = some hash
  filter : Committed cfg.cbf n.cbf.filters.all height f
  queue : ∀ o ∈ n.qSync, ∀ k, Leaves k (.sync o) → height < k

theorem hits_leaves {k : Nat} {o : Sync.Out} (hx : Hits k o) : ∃ k', Leaves k' (.sync o) ∧ k' ≤ k := by
  cases o with
  | imported a b c d rv =>
    obtain ⟨r, h1, h2⟩ := hx
    exact ⟨r.1, ⟨r, List.mem_of_getLast? h1, rfl⟩, h2⟩
  | _ => cases hx

theorem Holds.step {i : Input} {outs : List Out} {height hash : Nat} {f : Cbf.Filter} (s : Holds cfg n height hash f) (k : Kind cfg w T n i n' outs)
    (hl : ∀ o ∈ outs, ∀ k, Leaves k o → height < k) : Holds cfg n' height hash f := by
  cases k with
  | calm a go ha hr before after quiet =>
    obtain ⟨ext, hx⟩ := go.grow
    exact ⟨go.keep _ _ s.chain, hx ▸ s.filter.append, fun o ho k hk => absurd hk (quiet_leaves (after o ho))⟩
  | headers o before queue out same keep =>
    refine ⟨?_, by rw [same]; exact s.filter, fun y hy k hk => ?_⟩
    · rcases keep _ _ s.chain with h1 | ⟨y, hy, h1⟩
      · exact h1
      · obtain ⟨k, h2, h3⟩ := hits_leaves h1
        have := hl (.sync y) (by rw [out]; exact List.mem_map_of_mem hy) k h2
        omega
    · rw [queue] at hy
      rcases List.mem_append.1 hy with hy | hy
      · exact absurd hk (quiet_leaves (before y hy))
      · exact hl (.sync y) (by rw [out]; exact List.mem_map_of_mem hy) k hk
  | deliver o queue tree none quiet fate =>
    have hq : ∀ y ∈ n'.qSync, ∀ k, Leaves k (.sync y) → height < k := fun y hy => s.queue y (by rw [queue]; exact List.mem_cons_of_mem _ hy)
    have h0 := s.queue o (by rw [queue]; exact List.mem_cons_self ..)
    cases fate with
    | nothing hc hf ho => exact ⟨by rw [tree]; exact s.chain, by rw [hf]; exact s.filter, hq⟩
    | @back b hash' height' cn rv fork hlast hf hc =>
      refine ⟨by rw [tree]; exact s.chain, ?_, hq⟩
      rw [List.getLast?_map, Option.map_eq_some_iff] at hlast
      obtain ⟨r, h1, h2⟩ := hlast
      have := h0 r.1 ⟨r, List.mem_of_getLast? h1, rfl⟩
      rw [hf]
      exact s.filter.take cfg.cbf (by omega)

/-- What is scanned in a step. -/
theorem Kind.scanned {i : Input} {outs : List Out} (k : Kind cfg w T n i n' outs) (ho : n'.log = n.log ++ outs) {x : Nat × Nat × Bool} (hx : x ∈ scans outs) :
    Scanned cfg w T n' x ∧ ∀ o ∈ n'.qSync, ¬ (Out.sync o).Reverts := by
  cases k with
  | calm a go ha hr before after quiet =>
    obtain ⟨d, h1, -, h3⟩ := go.out
    have : outs = d := List.append_cancel_left (ho.symm.trans h1)
    subst this
    exact ⟨h3 x hx, after⟩
  | headers o before queue out same keep => rw [out, scans_sync] at hx; cases hx
  | deliver o queue tree none quiet fate => rw [none] at hx; cases hx

theorem holds_later (c : Ctx cfg U fail t0 g) (cf : Chain.CollisionFree cfg.sync.chain U) : ∀ {later : Hist} {n' : Fsm}, Tidy cfg U fail t0 (later ++ h) n' →
    ∃ n, Tidy cfg U fail t0 h n ∧ ∀ height hash f, (∀ o ∈ outputs later, ∀ k, Leaves k o → height < k) → Holds cfg n height hash f → Holds cfg n' height hash f
  | [], n', r => ⟨n', r, fun _ _ _ _ h => h⟩
  | (i, outs) :: later, n', r => by
    rw [List.cons_append] at r
    rcases r with _ | ⟨e, r, l, hf, p, hs, ho⟩
    obtain ⟨n, r0, ih⟩ := holds_later c cf r
    refine ⟨n, r0, fun height hash f hl h0 => ?_⟩
    rw [outputs_cons] at hl
    exact (ih height hash f (fun o ho => hl o (List.mem_append_left _ ho)) h0).step (tidy_kind (T := fun _ => True) c cf r l hf p hs ho trivial)
      (fun o ho => hl o (List.mem_append_right _ ho))

/-- **C89 with re-orgs, what holds.** In a tidy history, every filter reported as scanned is the one the filter headers commit to at that height, the block reported is the one at that height
of the active chain, and the filter was reported to match iff it matches the scripts watched at that moment (or the outputs of transactions watched); and this remains so until the block is
reported to leave the chain.  Missing: re-orgs while a received filter waits to be scanned or a match found was not reported, or whose reports are taken late; failures of the filter store. -/
theorem C89_scanned_reorg_partial (c : Ctx cfg U fail t0 g) (cf : Chain.CollisionFree cfg.sync.chain U) {later earlier : Hist} {i : Input} {outs : List Out}
    (r : Tidy cfg U fail t0 (later ++ (i, outs) :: earlier) n) : ∀ height hash mt, (height, hash, mt) ∈ scans outs → (∀ o ∈ outputs later, ∀ k, Leaves k o → height < k) →
    onChain cfg n height = some hash ∧ ∃ f txs, filterAt cfg n height f ∧ Tracked ((i, outs) :: earlier) txs ∧
      (mt = true ↔ Matches cfg.cbf (watching ((i, outs) :: earlier)) txs f hash) := by
  intro height hash mt hx hl
  obtain ⟨n1, r1, h1⟩ := holds_later c cf r
  have hT := run_tracked r1.run
  rcases r1 with _ | ⟨e, r1, l, hf, p, hs, ho⟩
  obtain ⟨⟨h2, f, txs, h3, h4, h5⟩, h6⟩ := (tidy_kind c cf r1 l hf p hs ho hT).scanned ho hx
  have h7 := h1 height hash f hl ⟨h2, h4, fun o ho k hk => absurd hk (quiet_leaves (h6 o ho))⟩
  have h8 := h7.chain
  rw [byHeight_view] at h8
  exact ⟨h8, f, txs, h7.filter, h3, h5⟩

/-! ## C90: blocks are reported in the order in which their filters matched -/

/-- **C90 with re-orgs, what holds.** In a tidy history, the blocks reported are, in the same order, the first of those whose filters were found to match; each was sent by a peer. -/
theorem C90_reports_reorg_partial (c : Ctx cfg U fail t0 g) (cf : Chain.CollisionFree cfg.sync.chain U) (r : Tidy cfg U fail t0 h n) :
    (reported (outputs h)).map (fun p => (p.1, p.2.hash)) <+: found (outputs h) ∧ ∀ p ∈ reported (outputs h), Sent p.2 h := by
  have s := tidy_half c cf r
  have hl := run_log r.run
  have hp := s.j.core.prefix
  have ht := s.j.told
  simp only [hl] at hp ht
  exact ⟨hp, ht⟩

/-- **C90 with re-orgs (all are reported), what holds.** In a tidy history, when every block found to match was received since and all outputs were taken, all of them are reported. -/
theorem C90_complete_reorg_partial (c : Ctx cfg U fail t0 g) (cf : Chain.CollisionFree cfg.sync.chain U) (r : Tidy cfg U fail t0 h n) (ha : ∀ k, ¬ Awaited k h) (hd : Drained n) :
    (reported (outputs h)).map (fun p => (p.1, p.2.hash)) = found (outputs h) := by
  have s := tidy_half c cf r
  have hl := run_log r.run
  have hc := s.j.core
  simp only [hd.2.1, hl] at hc
  exact hc.complete fun k hk => ha k (s.j.await k hk)

/-- **C90 with re-orgs (on the chain), what holds.** In a tidy history, every block is reported with its height while it is on the active chain. -/
theorem C90_onchain_reorg_partial (c : Ctx cfg U fail t0 g) (cf : Chain.CollisionFree cfg.sync.chain U) {i : Input} {outs : List Out}
    (r : Tidy cfg U fail t0 ((i, outs) :: h) n) : ∀ p ∈ reported outs, onChain cfg n p.1 = some p.2.hash := by
  intro p hp
  have rr := r
  rcases r with _ | @⟨_, n0, _, _, _, e, r, l, hf, ps, hs, ho⟩
  have s := tidy_half c cf r
  have s' := tidy_half c cf rr
  obtain ⟨W, cw⟩ := s.j.core
  have hrest := Core.rest cw
  have hpre := s'.j.core.prefix
  simp only [ho, found_append, reported_append, List.map_append] at hpre
  have hmem : (p.1, p.2.hash) ∈ (found n0.log).drop (reported n0.log).length ++ found outs := by
    obtain ⟨ext, hx⟩ := hpre
    have h1 := congrArg (List.drop (reported n0.log).length) hx
    rw [List.append_assoc, List.drop_left' (by simp)] at h1
    have h2 : (reported n0.log).length ≤ (found n0.log).length := by
      have := congrArg List.length cw.split
      simp only [List.length_append, List.length_map] at this
      omega
    rw [List.drop_append_of_le_length h2] at h1
    rw [← h1]
    exact List.mem_append_left _ (List.mem_map.2 ⟨p, hp, rfl⟩)
  have kind := tidy_kind (T := fun _ => True) c cf r l hf ps hs ho trivial
  have goal : (view cfg n.tree).byHeight p.1 = some p.2.hash := by
    rcases List.mem_append.1 hmem with h1 | h1
    · have hc : (view cfg n0.tree).byHeight p.1 = some p.2.hash := by
        rw [hrest] at h1
        exact cw.chain _ h1
      have hno : ∀ o ∈ outs, ∀ k, Leaves k o → p.1 < k := fun o ho k hk => (ps.reorg o ho k hk).1 _ (by rw [← run_log r.run]; exact h1)
      cases kind with
      | calm a go ha hr before after quiet => exact go.keep _ _ hc
      | headers o before queue out same keep =>
        rcases keep _ _ hc with h2 | ⟨y, hy, h2⟩
        · exact h2
        · obtain ⟨k, h3, h4⟩ := hits_leaves h2
          have := hno (.sync y) (by rw [out]; exact List.mem_map_of_mem hy) k h3
          omega
      | deliver o queue tree none quiet fate => rw [tree]; exact hc
    · exact (kind.scanned ho (mem_found h1)).1.1
  rw [byHeight_view] at goal
  exact goal

/-! ## C91: a rescan reports all matching blocks -/

theorem inOrder_append {s : Nat} : ∀ {c : Nat} {a b : List Out}, InOrder s c (a ++ b) ↔ InOrder s c a ∧ InOrder s (a.foldl (tick s) c) b
  | c, [], b => by simp [InOrder]
  | c, x :: a, b => by
    rw [List.cons_append, InOrder, InOrder, inOrder_append, List.foldl_cons, and_assoc]

theorem progress_append {s : Nat} {a b : List Out} : progress s (a ++ b) = b.foldl (tick s) (progress s a) := List.foldl_append ..

/-- Reports only move the height back, and not below the start. -/
theorem tick_sync {s c : Nat} (hc : s ≤ c) (o : Sync.Out) : s ≤ tick s c (.sync o) ∧ tick s c (.sync o) ≤ c := by
  cases o with
  | imported a b d e rv =>
    simp only [tick]
    split
    · split <;> omega
    · omega
  | _ => exact ⟨hc, Nat.le_refl c⟩

theorem fold_sync {s : Nat} : ∀ {c : Nat} (o : List Sync.Out), s ≤ c → s ≤ (o.map Out.sync).foldl (tick s) c ∧ (o.map Out.sync).foldl (tick s) c ≤ c
  | c, [], hc => ⟨hc, Nat.le_refl c⟩
  | c, x :: o, hc => by
    have h1 := tick_sync hc x
    have h2 := fold_sync o h1.1
    rw [List.map_cons, List.foldl_cons]
    exact ⟨h2.1, h2.2.trans h1.2⟩

theorem tick_quiet {s c : Nat} {o : Sync.Out} (hq : ¬ (Out.sync o).Reverts) : tick s c (.sync o) = c := by
  cases o with
  | imported a b d e rv =>
    have : rv = [] := by_contra hq
    subst this
    rfl
  | _ => rfl

theorem fold_quiet {s : Nat} : ∀ {c : Nat} {o : List Sync.Out}, (∀ x ∈ o, ¬ (Out.sync x).Reverts) → (o.map Out.sync).foldl (tick s) c = c
  | c, [], _ => rfl
  | c, x :: o, hq => by
    rw [List.map_cons, List.foldl_cons, tick_quiet (hq x (List.mem_cons_self ..))]
    exact fold_quiet fun y hy => hq y (List.mem_cons_of_mem _ hy)

theorem tick_hits {s c k : Nat} (hk : s ≤ k) {o : Sync.Out} (hlt : k < tick s c (.sync o)) : ¬ Hits k o := by
  intro hx
  cases o with
  | imported a b d e rv =>
    obtain ⟨r, h1, h2⟩ := hx
    simp only [tick, h1] at hlt
    split at hlt <;> omega
  | _ => cases hx

theorem fold_hits {s k : Nat} (hk : s ≤ k) : ∀ {c : Nat} {o : List Sync.Out}, s ≤ c → k < (o.map Out.sync).foldl (tick s) c → ∀ y ∈ o, ¬ Hits k y
  | c, [], _, _, y, hy => by cases hy
  | c, x :: o, hc, hlt, y, hy => by
    rw [List.map_cons, List.foldl_cons] at hlt
    have h1 := tick_sync hc x
    have h2 := fold_sync o h1.1
    rcases List.mem_cons.1 hy with rfl | hy
    · exact tick_hits (c := c) hk (by omega)
    · exact fold_hits hk h1.1 hlt y hy

/-- One output that does not report a re-org: it scans a filter or leaves the height alone. -/
theorem tick_scan {s c : Nat} {x : Out} (hq : ¬ x.Reverts) : (scans [x] = [] ∧ tick s c x = c) ∨ ∃ y, scans [x] = [y] ∧ tick s c x = y.1 + 1 := by
  cases x with
  | sync o => exact .inl ⟨rfl, tick_quiet hq⟩
  | cbf o =>
    cases o with
    | event ev =>
      cases ev with
      | filterProcessed b k v mt cc => exact .inr ⟨_, rfl, rfl⟩
      | _ => exact .inl ⟨rfl, rfl⟩
    | _ => exact .inl ⟨rfl, rfl⟩
  | _ => exact .inl ⟨rfl, rfl⟩

/-- Outputs of a step without reports of re-orgs. -/
theorem fold_scans {s : Nat} : ∀ {c len : Nat} {d : List Out}, (∀ o ∈ d, ¬ o.Reverts) → (scans d).map (·.1) = List.range' c len →
    d.foldl (tick s) c = c + len ∧ InOrder s c d
  | c, len, [], _, hs => by
    have : len = 0 := by simpa [scans] using hs
    subst this
    exact ⟨rfl, trivial⟩
  | c, len, x :: d, hq, hs => by
    have hq' : ∀ o ∈ d, ¬ o.Reverts := fun o ho => hq o (List.mem_cons_of_mem _ ho)
    rw [show x :: d = [x] ++ d from rfl, scans_append, List.map_append] at hs
    rw [List.foldl_cons, InOrder]
    rcases tick_scan (s := s) (c := c) (hq x (List.mem_cons_self ..)) with ⟨h1, h2⟩ | ⟨y, h1, h2⟩
    · rw [h1, List.map_nil, List.nil_append] at hs
      rw [h1, h2]
      obtain ⟨h3, h4⟩ := fold_scans hq' hs
      exact ⟨h3, by simp, h4⟩
    · rw [h1] at hs
      cases len with
      | zero => simp at hs
      | succ len =>
        simp only [List.map_cons, List.map_nil, List.cons_append, List.nil_append, List.range'_succ, List.cons.injEq] at hs
        rw [h1, h2, hs.1]
        obtain ⟨h3, h4⟩ := fold_scans hq' hs.2
        exact ⟨by rw [h3]; omega, by simp [hs.1], h4⟩

/-- Outputs that scan nothing and do not report re-orgs. -/
theorem fold_none {s c : Nat} {d : List Out} (hq : ∀ o ∈ d, ¬ o.Reverts) (hs : scans d = []) : d.foldl (tick s) c = c ∧ InOrder s c d :=
  fold_scans (len := 0) hq (by rw [hs]; rfl)

theorem inOrder_sync {s : Nat} : ∀ {c : Nat} (o : List Sync.Out), InOrder s c (o.map .sync)
  | _, [] => trivial
  | c, x :: o => ⟨by simp [scans], inOrder_sync o⟩

theorem latest_append {l d : List Out} {k : Nat} (hd : ∀ x ∈ scans d, x.1 ≠ k) : latest (l ++ d) k = latest l k := by
  unfold latest
  rw [scans_append, List.reverse_append, List.find?_append]
  have : (scans d).reverse.find? (fun x => x.1 == k) = none := by
    rw [List.find?_eq_none]
    intro x hx
    simpa using hd x (List.mem_reverse.1 hx)
  rw [this]
  rfl

theorem latest_mem {l d : List Out} {k : Nat} (hd : ∃ x ∈ scans d, x.1 = k) : ∃ x ∈ scans d, x.1 = k ∧ latest (l ++ d) k = some x.2 := by
  obtain ⟨x, hx, rfl⟩ := hd
  obtain ⟨y, hy⟩ : ∃ y, (scans d).reverse.find? (fun z => z.1 == x.1) = some y := by
    rw [← Option.isSome_iff_exists, List.find?_isSome]
    exact ⟨x, List.mem_reverse.2 hx, by simp⟩
  refine ⟨y, List.mem_reverse.1 (List.mem_of_find?_eq_some hy), by simpa using List.find?_some hy, ?_⟩
  unfold latest
  rw [scans_append, List.reverse_append, List.find?_append, hy]
  rfl

/-- What is known of the scan of a rescan from the height `s` on, after the outputs `l`. -/
structure Since (cfg : Cfg) (w : List Nat) (T : AMap Nat (List Nat) → Prop) (s : Nat) (l : List Out) (n : Fsm) : Prop where
  endless : Endless s n.cbf
  low : s ≤ n.cbf.rescan.current
  bound : n.cbf.rescan.current ≤ max s n.cbf.filters.all.length
  prog : progress s l = (n.qSync.map Out.sync).foldl (tick s) n.cbf.rescan.current
  order : InOrder s s l
  each : ∀ k, s ≤ k → k < progress s l → ∃ hash mt, latest l k = some (hash, mt) ∧ Scanned cfg w T n (k, hash, mt)

/-- The end of a part of the scan without re-orgs. -/
theorem goes_end {a : Nat} {outs : List Out} (go : Goes cfg w T a n n') (ho : n'.log = n.log ++ outs) :
    (scans outs).map (·.1) = List.range' a (n'.cbf.rescan.current - a) ∧ (∀ x ∈ scans outs, Scanned cfg w T n' x) ∧
      (a < n'.cbf.rescan.current → n'.cbf.rescan.current ≤ n'.cbf.filters.all.length) := by
  obtain ⟨d, h1, h2, h3⟩ := go.out
  have : outs = d := List.append_cancel_left (ho.symm.trans h1)
  subst this
  refine ⟨h2, h3, fun hlt => ?_⟩
  have : n'.cbf.rescan.current - 1 ∈ (scans outs).map (·.1) := by
    rw [h2, List.mem_range'_1]
    omega
  obtain ⟨x, hx, he⟩ := List.mem_map.1 this
  obtain ⟨-, f, txs, -, h4, -⟩ := h3 x hx
  have := h4.lt
  omega

theorem Since.step {s : Nat} {l : List Out} {i : Input} {outs : List Out} (q : Since cfg w T s l n) (k : Kind cfg w T n i n' outs) (ho : n'.log = n.log ++ outs)
    (hi : ∀ a b v, i ≠ .rescan a b v) (he : Endless s n'.cbf) : Since cfg w T s (l ++ outs) n' := by
  cases k with
  | calm a go ha hr before after quiet =>
    have := ha hi
    subst this
    obtain ⟨h1, h2, h3⟩ := goes_end go ho
    have hp : progress s l = n.cbf.rescan.current := by rw [q.prog, fold_quiet before]
    obtain ⟨h4, h5⟩ := fold_scans (s := s) quiet h1
    have hle := go.le
    have hp' : progress s (l ++ outs) = n'.cbf.rescan.current := by
      rw [progress_append, hp, h4]
      omega
    refine ⟨he, q.low.trans hle, ?_, by rw [hp', fold_quiet after], inOrder_append.2 ⟨q.order, by have := hp ▸ h5; exact this⟩, fun k hk hlt => ?_⟩
    · by_cases hlt : n.cbf.rescan.current < n'.cbf.rescan.current
      · exact (h3 hlt).trans (Nat.le_max_right ..)
      · have := q.bound
        obtain ⟨ext, hx⟩ := go.grow
        have : n'.cbf.filters.all.length = n.cbf.filters.all.length + ext.length := by rw [hx, List.length_append]
        omega
    · rw [hp'] at hlt
      by_cases hold : k < n.cbf.rescan.current
      · obtain ⟨hash, mt, h6, h7⟩ := q.each k hk (by rw [hp]; exact hold)
        refine ⟨hash, mt, ?_, h7.later go.keep go.grow⟩
        rw [latest_append, h6]
        intro x hx hxk
        have : x.1 ∈ (scans outs).map (·.1) := List.mem_map_of_mem hx
        rw [h1, List.mem_range'_1] at this
        omega
      · have : k ∈ (scans outs).map (·.1) := by
          rw [h1, List.mem_range'_1]
          omega
        obtain ⟨x, hx, hxk⟩ := List.mem_map.1 this
        obtain ⟨y, hy, hyk, h6⟩ := latest_mem (l := l) ⟨x, hx, hxk⟩
        exact ⟨y.2.1, y.2.2, h6, by have := h2 y hy; rw [← hyk]; exact this⟩
  | headers o before queue out same keep =>
    have hsc : scans outs = [] := by rw [out]; exact scans_sync o
    have hp : progress s l = n.cbf.rescan.current := by rw [q.prog, fold_quiet before]
    have hp' : progress s (l ++ outs) = (o.map Out.sync).foldl (tick s) n.cbf.rescan.current := by rw [progress_append, hp, out]
    refine ⟨he, by rw [same]; exact q.low, by rw [same]; exact q.bound, ?_, inOrder_append.2 ⟨q.order, by rw [out]; exact inOrder_sync o⟩, fun k hk hlt => ?_⟩
    · rw [hp', queue, List.map_append, List.foldl_append, fold_quiet before, same]
    · rw [hp'] at hlt
      have h1 := fold_sync o q.low
      obtain ⟨hash, mt, h6, h7, h8⟩ := q.each k hk (by omega)
      refine ⟨hash, mt, by rw [latest_append (by simp [hsc]), h6], ?_, by rw [same]; exact h8⟩
      rcases keep _ _ h7 with h9 | ⟨y, hy, h9⟩
      · exact h9
      · exact absurd h9 (fold_hits hk q.low hlt y hy)
  | deliver o queue tree none quiet fate =>
    obtain ⟨h1, h2⟩ := fold_none (s := s) (c := progress s l) quiet none
    have hp : progress s (l ++ outs) = progress s l := by rw [progress_append, h1]
    have hq := q.prog
    rw [queue, List.map_cons, List.foldl_cons] at hq
    have hto := tick_sync q.low o
    have hlow := q.low
    have hbound := q.bound
    have hcur : n'.cbf.rescan.current = tick s n.cbf.rescan.current (.sync o) ∧ n'.cbf.rescan.current ≤ max s n'.cbf.filters.all.length ∧
        ∀ k, ¬ Hits k o → ∀ f, Committed cfg.cbf n.cbf.filters.all k f → Committed cfg.cbf n'.cbf.filters.all k f := by
      cases fate with
      | nothing hc hf hno =>
        refine ⟨?_, by rw [hc, hf]; exact q.bound, fun k _ f hk => by rw [hf]; exact hk⟩
        rw [hc]
        cases o with
        | imported a b d e rv =>
          cases hl : rv.getLast? with
          | none => simp [tick, hl]
          | some r => exact absurd ⟨r, hl, Nat.le_refl _⟩ (hno r.1)
        | _ => rfl
      | @back b hash' height' cn rv fork hlast hf hc =>
        rw [List.getLast?_map, Option.map_eq_some_iff] at hlast
        obtain ⟨r, hr1, hr2⟩ := hlast
        have hlen : n.cbf.filters.all.length = n.cbf.filters.height + 1 := rfl
        have hlen' : n'.cbf.filters.all.length = min (fork + 1) n.cbf.filters.all.length := by rw [hf, List.length_take]
        have ht : tick s n.cbf.rescan.current (.sync (.imported b hash' height' cn rv)) =
            if fork + 1 < n.cbf.rescan.current then max (fork + 1) s else n.cbf.rescan.current := by
          simp only [tick, hr1, hr2]
        rw [ht, hc, q.endless.1, q.endless.2.1]
        simp only [true_and]
        refine ⟨?_, ?_, fun k hk f hkf => ?_⟩
        · split <;> split <;> omega
        · split <;> omega
        · rw [hf]
          refine hkf.take cfg.cbf ?_
          by_contra hgt
          exact hk ⟨r, hr1, by omega⟩
    refine ⟨he, by rw [hcur.1]; exact hto.1, hcur.2.1, by rw [hp, hq, hcur.1], inOrder_append.2 ⟨q.order, h2⟩, fun k hk hlt => ?_⟩
    rw [hp] at hlt
    obtain ⟨hash, mt, h6, h7, f, txs, h8, h9, h10⟩ := q.each k hk hlt
    refine ⟨hash, mt, by rw [latest_append (by simp [none]), h6], by rw [tree]; exact h7, f, txs, h8, ?_, h10⟩
    refine hcur.2.2 k ?_ f h9
    rw [hq] at hlt
    have h11 := fold_sync n'.qSync hto.1
    exact tick_hits (c := n.cbf.rescan.current) hk (by omega)

theorem opOf_rescan {i : Input} {op : Cbf.Op} (e : opOf n i = some op) (hi : ∀ a b v, i ≠ .rescan a b v) : ∀ a b v, op ≠ .rescan a b v := by
  intro a b v hx
  subst hx
  cases i with
  | rescan x y z => exact hi x y z rfl
  | next => simp only [opOf] at e; split at e <;> cases e
  | _ => cases e

theorem watching_later {a b : Cbf.Bound} {outs : List Out} : ∀ {later : Hist}, (∀ x ∈ later, (∀ a b v, x.1 ≠ .rescan a b v) ∧ ∀ v, x.1 ≠ .watch v) →
    watching (later ++ (.rescan a b w, outs) :: h) = w
  | [], _ => rfl
  | (i, outs') :: later, hl => by
    have hi := hl _ (List.mem_cons_self ..)
    have ih := watching_later (a := a) (b := b) (outs := outs) (later := later) fun x hx => hl x (List.mem_cons_of_mem _ hx)
    rw [List.cons_append]
    cases i with
    | rescan x y z => exact absurd rfl (hi.1 x y z)
    | watch v => exact absurd rfl (hi.2 v)
    | _ => exact ih

theorem since_tidy (c : Ctx cfg U fail t0 g) (cf : Chain.CollisionFree cfg.sync.chain U) {s : Nat} {outs : List Out} : ∀ {later : Hist} {n' : Fsm},
    Tidy cfg U fail t0 (later ++ (.rescan (.included s) .unbounded w, outs) :: h) n' →
    (∀ x ∈ later, (∀ a b v, x.1 ≠ .rescan a b v) ∧ ∀ v, x.1 ≠ .watch v) →
    (∀ l1 l2 m, later = l1 ++ l2 → Tidy cfg U fail t0 (l2 ++ (.rescan (.included s) .unbounded w, outs) :: h) m → T m.cbf.rescan.transactions) →
    Since cfg w T s (outputs (later ++ [(.rescan (.included s) .unbounded w, outs)])) n'
  | [], n', r, _, hT => by
    have hT := hT [] [] n' rfl r
    rw [List.nil_append] at r
    rcases r with _ | ⟨e, r, l, hf, p, hs, ho⟩
    have k := tidy_kind c cf r l hf p hs ho hT
    have he : Endless s n'.cbf := rescan_endless _ _ _ (called_scans hs).1
    have hout : outputs ([] ++ [(Input.rescan (.included s) .unbounded w, outs)]) = outs := by simp [outputs]
    rw [hout]
    cases k with
    | calm a go ha hr before after quiet =>
      have : a = s := hr _ _ _ rfl
      subst this
      obtain ⟨h1, h2, h3⟩ := goes_end go ho
      obtain ⟨h4, h5⟩ := fold_scans (s := a) quiet h1
      have hle := go.le
      have hp : progress a outs = n'.cbf.rescan.current := by
        unfold progress
        rw [h4]
        omega
      refine ⟨he, hle, ?_, by rw [hp, fold_quiet after], h5, fun k hk hlt => ?_⟩
      · by_cases hlt : a < n'.cbf.rescan.current
        · exact (h3 hlt).trans (Nat.le_max_right ..)
        · omega
      · have : k ∈ (scans outs).map (·.1) := by
          rw [h1, List.mem_range'_1]
          omega
        obtain ⟨x, hx, hxk⟩ := List.mem_map.1 this
        obtain ⟨y, hy, hyk, h6⟩ := latest_mem (l := []) ⟨x, hx, hxk⟩
        exact ⟨y.2.1, y.2.2, h6, by have := h2 y hy; rw [← hyk]; exact this⟩
    | headers o before queue out same keep hi => exact absurd rfl (hi _ _ _)
    | deliver o queue tree none quiet fate hi => cases hi
  | (i, outs') :: later, n', r, hl, hT => by
    have hT' := hT [] _ n' rfl r
    have hwat : watching ((i, outs') :: (later ++ (.rescan (.included s) .unbounded w, outs) :: h)) = w := watching_later (later := (i, outs') :: later) hl
    rw [List.cons_append] at r
    rcases r with _ | ⟨e, r, l, hf, p, hs, ho⟩
    have ih := since_tidy c cf r (fun x hx => hl x (List.mem_cons_of_mem _ hx)) fun l1 l2 m e => hT ((i, outs') :: l1) l2 m (by rw [e]; rfl)
    have hi := (hl _ (List.mem_cons_self ..)).1
    have k := tidy_kind c cf r l hf p hs ho hT'
    rw [hwat] at k
    rw [List.cons_append, outputs_cons]
    refine ih.step k ho hi ?_
    have hop := step_op hs
    generalize hoo : opOf _ i = oo at hop
    cases oo with
    | none => rw [hop]; exact ih.endless
    | some op =>
      obtain ⟨t, ht⟩ := hop
      exact step_endless _ _ _ ht (opOf_rescan hoo hi) ih.endless

/-- **C91 with re-orgs, what holds.** A rescan from the height `s` on, without end, for the scripts `w`, in a tidy history in which no other rescan and no other script is asked for since.
The filters are scanned one after the other, from `s` on; after a re-org of blocks that were passed, again from the lowest of them on.  For every height passed (and not reverted), the block
scanned last is the one on the active chain, its filter is the one the filter headers commit to, and it was reported to match iff it contains one of the scripts or all outputs of a transaction that
was submitted or reverted.  When every matching block was received and all outputs were taken, the blocks reported since are those that matched, in this order, and every block of the active chain
at the heights passed whose filter contains one of the scripts was reported.  Missing: as for `C89_scanned_reorg_partial`; rescans with an end. -/
theorem C91_rescan_reorg_partial (c : Ctx cfg U fail t0 g) (cf : Chain.CollisionFree cfg.sync.chain U) {s : Nat} {w : List Nat} {outs : List Out} {later : Hist}
    (r : Tidy cfg U fail t0 (later ++ (.rescan (.included s) .unbounded w, outs) :: h) n')
    (hl : ∀ x ∈ later, (∀ a b v, x.1 ≠ .rescan a b v) ∧ ∀ v, x.1 ≠ .watch v) :
    let l := outputs (later ++ [(.rescan (.included s) .unbounded w, outs)])
    InOrder s s l ∧
    (∀ height, s ≤ height → height < progress s l → ∃ hash mt f txs, latest l height = some (hash, mt) ∧ onChain cfg n' height = some hash ∧ filterAt cfg n' height f ∧
      (∀ x ∈ txs, Followed (later ++ (.rescan (.included s) .unbounded w, outs) :: h) x) ∧ (mt = true ↔ Matches cfg.cbf w txs f hash)) ∧
    ((∀ k, ¬ Awaited k (later ++ (.rescan (.included s) .unbounded w, outs) :: h)) → Drained n' →
      (reported l).map (fun p => (p.1, p.2.hash)) = found l ∧
      ∀ height, s ≤ height → height < progress s l → ∀ hash, onChain cfg n' height = some hash →
        w ≠ [] → (∀ f, filterAt cfg n' height f → cfg.cbf.matchAny f hash w = some true) → ∃ b, (height, b) ∈ reported l ∧ b.hash = hash) := by
  intro l
  have q : Since cfg w (fun txs => ∀ x ∈ txs, Followed (later ++ (.rescan (.included s) .unbounded w, outs) :: h) x) s l n' := since_tidy c cf r hl
    (fun l1 l2 m e r x hx => by rw [e, List.append_assoc]; exact ((run_tracked r.run).only x hx).later l1)
  have each : ∀ height, s ≤ height → height < progress s l → ∃ hash mt f txs, latest l height = some (hash, mt) ∧ onChain cfg n' height = some hash ∧ filterAt cfg n' height f ∧
      (∀ x ∈ txs, Followed (later ++ (.rescan (.included s) .unbounded w, outs) :: h) x) ∧ (mt = true ↔ Matches cfg.cbf w txs f hash) := by
    intro height h1 h2
    obtain ⟨hash, mt, h3, h4, f, txs, h5, h6, h7⟩ := q.each height h1 h2
    rw [byHeight_view] at h4
    exact ⟨hash, mt, f, txs, h3, h4, h6, h5, h7⟩
  refine ⟨q.order, each, fun ha hd => ?_⟩
  have all : (reported l).map (fun p => (p.1, p.2.hash)) = found l := by
    have all := C90_complete_reorg_partial c cf r ha hd
    obtain ⟨n1, r1, -⟩ := holds_later c cf r
    rcases r1 with _ | ⟨e, r0, l0, hf, p, hs, ho⟩
    have h0 := (p.rescan _ _ _ rfl).1
    rw [show later ++ (Input.rescan (.included s) .unbounded w, outs) :: h = (later ++ [(Input.rescan (.included s) .unbounded w, outs)]) ++ h by simp,
      outputs_append, reported_append, found_append, List.map_append, h0] at all
    exact List.append_cancel_left all
  refine ⟨all, fun height h1 h2 hash h3 hw hm => ?_⟩
  obtain ⟨hash', mt, f, txs, h4, h5, h6, -, h7⟩ := each height h1 h2
  rw [h3] at h5
  cases h5
  have hmt : mt = true := h7.2 (.inl ⟨hw, hm f h6⟩)
  subst hmt
  have hmem : (height, hash, true) ∈ scans l := by
    unfold latest at h4
    rw [Option.map_eq_some_iff] at h4
    obtain ⟨x, hx, he⟩ := h4
    have hx1 : x.1 = height := by simpa using List.find?_some hx
    have := List.mem_reverse.1 (List.mem_of_find?_eq_some hx)
    rw [← hx1, ← he]
    exact this
  have hf : (height, hash) ∈ found l := by
    rw [found_scans, List.mem_filterMap]
    exact ⟨_, hmem, by simp⟩
  rw [← all, List.mem_map] at hf
  obtain ⟨⟨k, b⟩, hb, he⟩ := hf
  simp only [Prod.mk.injEq] at he
  obtain ⟨rfl, rfl⟩ := he
  exact ⟨b, hb, rfl⟩

/-! ## C93: the order of messages does not matter -/

/-- **C93 with re-orgs, what holds.** Two clients, both with tidy histories, asked for the same rescan and have the same blocks on the active chain and equivalent filters at the heights passed, however
they came to that chain.  Then the last report about the filter at each of these heights is the same.  When the blocks asked for were received and all outputs were taken, both reported every block
that matches, and it is the same block.  No transactions are followed.  Missing: as for `C91_rescan_reorg_partial`; the reports about blocks that left the chain depend on the history. -/
theorem C93_order_reorg_partial {U1 U2 : Header → Prop} {fail1 fail2 : Bool} {t1 t2 : Chain.State} {g1 g2 : Header} {n1 n2 : Fsm} {outs1 outs2 : List Out} {later1 later2 h1 h2 : Hist}
    (c1 : Ctx cfg U1 fail1 t1 g1) (cf1 : Chain.CollisionFree cfg.sync.chain U1) (c2 : Ctx cfg U2 fail2 t2 g2) (cf2 : Chain.CollisionFree cfg.sync.chain U2) {s : Nat} {w : List Nat}
    (r1 : Tidy cfg U1 fail1 t1 (later1 ++ (.rescan (.included s) .unbounded w, outs1) :: h1) n1) (hl1 : ∀ x ∈ later1, (∀ a b v, x.1 ≠ .rescan a b v) ∧ ∀ v, x.1 ≠ .watch v)
    (r2 : Tidy cfg U2 fail2 t2 (later2 ++ (.rescan (.included s) .unbounded w, outs2) :: h2) n2) (hl2 : ∀ x ∈ later2, (∀ a b v, x.1 ≠ .rescan a b v) ∧ ∀ v, x.1 ≠ .watch v)
    (no1 : NoTransactions (later1 ++ (.rescan (.included s) .unbounded w, outs1) :: h1)) (no2 : NoTransactions (later2 ++ (.rescan (.included s) .unbounded w, outs2) :: h2)) (len : Nat)
    (e1 : s + len ≤ progress s (outputs (later1 ++ [(.rescan (.included s) .unbounded w, outs1)])))
    (e2 : s + len ≤ progress s (outputs (later2 ++ [(.rescan (.included s) .unbounded w, outs2)]))) (hsame : SameChain cfg w n1 n2 s len) :
    let l1 := outputs (later1 ++ [(.rescan (.included s) .unbounded w, outs1)])
    let l2 := outputs (later2 ++ [(.rescan (.included s) .unbounded w, outs2)])
    (∀ i < len, (latest l1 (s + i)).isSome = true ∧ latest l1 (s + i) = latest l2 (s + i)) ∧
    ((∀ k, ¬ Awaited k (later1 ++ (.rescan (.included s) .unbounded w, outs1) :: h1)) → Drained n1 →
      (∀ k, ¬ Awaited k (later2 ++ (.rescan (.included s) .unbounded w, outs2) :: h2)) → Drained n2 →
      (∀ b1 b2, Sent b1 (later1 ++ (.rescan (.included s) .unbounded w, outs1) :: h1) → Sent b2 (later2 ++ (.rescan (.included s) .unbounded w, outs2) :: h2) → b1.hash = b2.hash → b1 = b2) →
      ∀ i < len, ∀ hash, latest l1 (s + i) = some (hash, true) → ∃ b, b.hash = hash ∧ (s + i, b) ∈ reported l1 ∧ (s + i, b) ∈ reported l2) := by
  intro l1 l2
  have no : ∀ {h : Hist}, NoTransactions h → ∀ {txs : AMap Nat (List Nat)}, (∀ x ∈ txs, Followed h x) → txs = [] := by
    intro h hn txs hx
    refine List.eq_nil_iff_forall_not_mem.2 fun x hm => ?_
    obtain ⟨t, _, ⟨o, ho⟩ | ho⟩ := hx x hm
    · exact hn.1 t o ho
    · exact hn.2 t ho
  have a1 := C91_rescan_reorg_partial c1 cf1 r1 hl1
  have a2 := C91_rescan_reorg_partial c2 cf2 r2 hl2
  have only : ∀ {f : Cbf.Filter} {hash : Nat}, Matches cfg.cbf w [] f hash ↔ w ≠ [] ∧ cfg.cbf.matchAny f hash w = some true := by
    intro f hash
    unfold Matches
    simp
  have same : ∀ i < len, (latest l1 (s + i)).isSome = true ∧ latest l1 (s + i) = latest l2 (s + i) := by
    intro i hi
    obtain ⟨k1, m1, f1, x1, p1, p2, p3, p4, p5⟩ := a1.2.1 (s + i) (by omega) (by omega)
    obtain ⟨k2, m2, f2, x2, q1, q2, q3, q4, q5⟩ := a2.2.1 (s + i) (by omega) (by omega)
    have hk := hsame.blocks i hi
    rw [p2, q2] at hk
    cases hk
    have hm := hsame.filters i hi f1 f2 k1 p3 q3 p2
    rw [no no1 p4, only] at p5
    rw [no no2 q4, only, ← hm] at q5
    refine ⟨by rw [show latest l1 (s + i) = _ from p1]; rfl, ?_⟩
    rw [show latest l1 (s + i) = _ from p1, show latest l2 (s + i) = _ from q1]
    have : m1 = m2 := Bool.eq_iff_iff.2 (p5.trans q5.symm)
    rw [this]
  refine ⟨same, fun w1 d1 w2 d2 hu i hi hash hm => ?_⟩
  have mem : ∀ {l : List Out}, latest l (s + i) = some (hash, true) → (s + i, hash) ∈ found l := by
    intro l h4
    unfold latest at h4
    rw [Option.map_eq_some_iff] at h4
    obtain ⟨x, hx, he⟩ := h4
    have hx1 : x.1 = s + i := by simpa using List.find?_some hx
    have h5 := List.mem_reverse.1 (List.mem_of_find?_eq_some hx)
    rw [found_scans, List.mem_filterMap]
    exact ⟨x, h5, by rw [← hx1, he]; rfl⟩
  have g1 := mem hm
  have g2 := mem ((same i hi).2 ▸ hm)
  rw [← (a1.2.2 w1 d1).1, List.mem_map] at g1
  rw [← (a2.2.2 w2 d2).1, List.mem_map] at g2
  obtain ⟨⟨k1, b1⟩, m1, h3⟩ := g1
  obtain ⟨⟨k2, b2⟩, m2, h4⟩ := g2
  simp only [Prod.mk.injEq] at h3 h4
  obtain ⟨rfl, h3⟩ := h3
  obtain ⟨rfl, h4⟩ := h4
  have late : ∀ {later h : Hist} {x : Input × List Out} {p : Nat × Block}, p ∈ reported (outputs (later ++ [x])) → p ∈ reported (outputs (later ++ x :: h)) := by
    intro later h x p hp
    rw [show later ++ x :: h = (later ++ [x]) ++ h by simp, outputs_append, reported_append]
    exact List.mem_append_right _ hp
  have s1 := (C90_reports_reorg_partial c1 cf1 r1).2 _ (late m1)
  have s2 := (C90_reports_reorg_partial c2 cf2 r2).2 _ (late m2)
  have := hu b1 b2 s1 s2 (h3.trans h4.symm)
  subst this
  exact ⟨b1, h3, m1, m2⟩

end Verif.Node
