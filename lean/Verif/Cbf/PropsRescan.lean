import Verif.Cbf.PropsCache

/-!
# Properties C28 and C29 (queue level): which filters a rescan requests, and how it processes them
-/

set_option autoImplicit false

namespace Verif.Cbf

/-! ## C28 -/

theorem heightsOf_eq (a b : Nat) : heightsOf a b = List.range' a (b + 1 - a) := by
  unfold heightsOf
  rw [List.range_eq_range']
  simp only [Nat.add_comm _ a]
  rw [List.map_add_range']
  rfl

theorem mem_heightsOf (a b h : Nat) : h ∈ heightsOf a b ↔ a ≤ h ∧ h ≤ b := by
  rw [heightsOf_eq, List.mem_range'_1]; omega

/-- A height for which a filter is in memory and its block is known. -/
def Cached (t : Tree) (r : Rescan) (h : Nat) : Bool := (r.cache.get h).isSome && (t.byHeight h).isSome

theorem queueCached_spec (t : Tree) : ∀ (hs : List Nat) (r : Rescan),
    r.queueCached t hs = { r with received := (r.queueCached t hs).received } ∧
    ∀ h, (r.queueCached t hs).received.get h =
      if h ∈ hs ∧ Cached t r h = true then
        (r.cache.get h).bind (fun f => (t.byHeight h).map (fun b => (f, b, true)))
      else r.received.get h
  | [], r => by simp [Rescan.queueCached]
  | h0 :: hs, r => by
    unfold Rescan.queueCached
    cases hc : r.cache.get h0 with
    | none =>
      obtain ⟨h1, h2⟩ := queueCached_spec t hs r
      refine ⟨h1, fun h => ?_⟩
      simp only
      rw [h2 h]
      by_cases hh : h = h0
      · subst hh; simp [Cached, hc]
      · simp [hh]
    | some f =>
      cases hb : t.byHeight h0 with
      | none =>
        obtain ⟨h1, h2⟩ := queueCached_spec t hs r
        refine ⟨h1, fun h => ?_⟩
        simp only
        rw [h2 h]
        by_cases hh : h = h0
        · subst hh; simp [Cached, hb]
        · simp [hh]
      | some b =>
        obtain ⟨h1, h2⟩ := queueCached_spec t hs { r with received := r.received.insert h0 (f, b, true) }
        refine ⟨?_, fun h => ?_⟩
        · simpa using h1
        · simp only
          rw [h2 h]
          simp only [Cached]
          by_cases hh : h = h0
          · subst hh; simp [hc, hb]
          · simp [hh, AMap.get_insert, Ne.symm hh]

theorem groupRanges_spec : ∀ (hs : List Nat) (acc : List (Nat × Nat)),
    (∀ x ∈ acc, x.1 ≤ x.2) →
    (groupRanges acc hs).flatMap (fun x => List.range' x.1 (x.2 + 1 - x.1)) =
      acc.reverse.flatMap (fun x => List.range' x.1 (x.2 + 1 - x.1)) ++ hs ∧
    (∀ x ∈ groupRanges acc hs, x.1 ≤ x.2)
  | [], acc, h => by
    unfold groupRanges
    simpa using h
  | h0 :: hs, [], _ => by
    unfold groupRanges
    obtain ⟨h1, h2⟩ := groupRanges_spec hs [(h0, h0)] (by simp)
    exact ⟨by simpa using h1, h2⟩
  | h0 :: hs, (a, b) :: acc, h => by
    unfold groupRanges
    have hab : a ≤ b := h (a, b) (by simp)
    by_cases hh : h0 = b + 1
    · simp only [hh, if_true]
      obtain ⟨h1, h2⟩ := groupRanges_spec hs ((a, b + 1) :: acc) (by
        intro x hx
        rcases List.mem_cons.1 hx with rfl | hx
        · simp only; omega
        · exact h x (List.mem_cons_of_mem _ hx))
      refine ⟨?_, h2⟩
      rw [h1]
      have e : b + 1 + 1 - a = (b + 1 - a) + 1 := by omega
      simp only [List.reverse_cons, List.flatMap_append, List.flatMap_cons, List.flatMap_nil, List.append_nil, e]
      rw [List.range'_concat]
      have : a + (b + 1 - a) = b + 1 := by omega
      simp [this]
    · simp only [hh, if_false]
      obtain ⟨h1, h2⟩ := groupRanges_spec hs ((h0, h0) :: (a, b) :: acc) (by
        intro x hx
        rcases List.mem_cons.1 hx with rfl | hx
        · simp
        · exact h x hx)
      refine ⟨?_, h2⟩
      rw [h1]
      simp

/-- C28.  What a rescan requests for the heights `a..=b`.  The heights of the requested ranges are, in ascending order and each
once, exactly those of `a..=b` that were neither received (and waiting), nor requested before, nor available in memory; every
range is non-empty and has at most 1000 heights; exactly these heights become requested; and the filters available in memory
are queued for processing. -/
theorem C28_requests (t : Tree) (r : Rescan) (a b : Nat) :
    (r.requests t a b).1.flatMap (fun x => List.range' x.1 (x.2 + 1 - x.1)) =
      (List.range' a (b + 1 - a)).filter (fun h => !(r.received.contains h || r.requested.contains h || Cached t r h)) ∧
    (∀ x ∈ (r.requests t a b).1, a ≤ x.1 ∧ x.1 ≤ x.2 ∧ x.2 ≤ b ∧ x.2 + 1 - x.1 ≤ 1000) ∧
    (∀ h, h ∈ (r.requests t a b).2.requested ↔
      h ∈ r.requested ∨ ∃ x ∈ (r.requests t a b).1, x.1 ≤ h ∧ h ≤ x.2) ∧
    (∀ h, (r.requests t a b).2.received.get h =
      if (a ≤ h ∧ h ≤ b) ∧ Cached t r h = true then
        (r.cache.get h).bind (fun f => (t.byHeight h).map (fun k => (f, k, true)))
      else r.received.get h) ∧
    (r.requests t a b).2 = { r with requested := (r.requests t a b).2.requested,
                                    received := (r.requests t a b).2.received } := by
  by_cases hab : b < a
  · have h0 : b + 1 - a = 0 := by omega
    have h1 : ∀ h, ¬ ((a ≤ h ∧ h ≤ b) ∧ Cached t r h = true) := by intro h hh; omega
    simp [Rescan.requests, hab, h0, h1]
  · obtain ⟨q1, q2⟩ := queueCached_spec t (heightsOf a b) r
    generalize hq : r.queueCached t (heightsOf a b) = q at q1 q2
    have hreq : q.requested = r.requested := by rw [q1]
    set missing := (heightsOf a b).filter (fun h => !(q.received.contains h || q.requested.contains h)) with hm
    obtain ⟨g1, g2⟩ := groupRanges_spec missing [] (by simp)
    set ranges := (groupRanges [] missing).flatMap (fun x => heightIter maxCFilters x.1 x.2) with hr
    have hres : r.requests t a b = (ranges, { q with
        requested := q.requested ++ ranges.flatMap (fun x => heightsOf x.1 x.2) }) := by
      simp only [Rescan.requests, hab, if_false, hq, hr, hm]
    have hmiss : missing = (List.range' a (b + 1 - a)).filter
        (fun h => !(r.received.contains h || r.requested.contains h || Cached t r h)) := by
      rw [hm, heightsOf_eq]
      apply List.filter_congr
      intro h hh
      rw [← heightsOf_eq] at hh
      have : q.received.contains h = (r.received.contains h || Cached t r h) := by
        unfold AMap.contains
        rw [q2 h]
        by_cases hc : Cached t r h = true
        · rw [if_pos ⟨hh, hc⟩]
          unfold Cached at hc ⊢
          cases hx : r.cache.get h <;> cases hy : t.byHeight h <;> simp [hx, hy] at hc ⊢
        · rw [if_neg (by tauto)]; simp [hc]
      rw [this, hreq]
      cases r.received.contains h <;> cases r.requested.contains h <;> cases Cached t r h <;> rfl
    have hmm : ∀ h ∈ missing, a ≤ h ∧ h ≤ b := by
      intro h hh
      rw [hm, List.mem_filter, mem_heightsOf] at hh
      exact hh.1
    have hflat : ranges.flatMap (fun x => List.range' x.1 (x.2 + 1 - x.1)) = missing := by
      rw [hr, List.flatMap_assoc]
      have : ∀ x : Nat × Nat, (heightIter maxCFilters x.1 x.2).flatMap (fun x => List.range' x.1 (x.2 + 1 - x.1)) =
          List.range' x.1 (x.2 + 1 - x.1) := fun x => (C25_tiling maxCFilters x.1 x.2 (by decide)).1
      simp only [this]
      simpa using g1
    rw [hres]
    refine ⟨hflat.trans hmiss, ?_, ?_, ?_, ?_⟩
    · intro x hx
      rw [hr, List.mem_flatMap] at hx
      obtain ⟨y, hy, hx⟩ := hx
      have h1 := (C25_tiling maxCFilters y.1 y.2 (by decide)).2.1 x hx
      have hin : ∀ h, y.1 ≤ h → h ≤ y.2 → h ∈ missing := by
        intro h ha hb
        have : h ∈ (groupRanges [] missing).flatMap (fun x => List.range' x.1 (x.2 + 1 - x.1)) :=
          List.mem_flatMap.2 ⟨y, hy, by rw [List.mem_range'_1]; omega⟩
        rw [g1] at this; simpa using this
      have hya := hmm y.1 (hin y.1 (Nat.le_refl _) (g2 y hy))
      have hyb := hmm y.2 (hin y.2 (g2 y hy) (Nat.le_refl _))
      simp only [maxCFilters] at h1
      omega
    · intro h
      simp only [List.mem_append, List.mem_flatMap, mem_heightsOf, hreq]
    · intro h
      rw [q2 h]
      simp only [mem_heightsOf]
    · rw [q1]

/-- C28.  Asking again for heights just requested requests nothing. -/
theorem C28_no_repeat (t : Tree) (r : Rescan) (a b a' b' : Nat) (ha : a ≤ a') (hb : b' ≤ b) :
    ((r.requests t a b).2.requests t a' b').1 = [] := by
  obtain ⟨h1, _, h3, h4, h5⟩ := C28_requests t r a b
  obtain ⟨k1, k2, _⟩ := C28_requests t (r.requests t a b).2 a' b'
  cases hx : ((r.requests t a b).2.requests t a' b').1 with
  | nil => rfl
  | cons x xs =>
    exfalso
    have hxm : x ∈ ((r.requests t a b).2.requests t a' b').1 := by rw [hx]; simp
    have hx' := k2 x hxm
    have hmem : x.1 ∈ ((r.requests t a b).2.requests t a' b').1.flatMap (fun x => List.range' x.1 (x.2 + 1 - x.1)) :=
      List.mem_flatMap.2 ⟨x, hxm, by rw [List.mem_range'_1]; omega⟩
    rw [k1, List.mem_filter] at hmem
    obtain ⟨_, hmem⟩ := hmem
    simp only [Bool.not_eq_true', Bool.or_eq_false_iff] at hmem
    obtain ⟨⟨m1, m2⟩, m3⟩ := hmem
    have hcach : Cached t (r.requests t a b).2 x.1 = Cached t r x.1 := by rw [h5]; rfl
    rw [hcach] at m3
    have hreq : x.1 ∉ (r.requests t a b).2.requested := by simpa using m2
    rw [h3] at hreq
    push Not at hreq
    have hnot : x.1 ∉ (r.requests t a b).1.flatMap (fun x => List.range' x.1 (x.2 + 1 - x.1)) := by
      rw [List.mem_flatMap]
      rintro ⟨y, hy, hh⟩
      rw [List.mem_range'_1] at hh
      have := hreq.2 y hy
      omega
    rw [h1, List.mem_filter] at hnot
    apply hnot
    refine ⟨by rw [List.mem_range'_1]; omega, ?_⟩
    rw [AMap.contains_eq_false_iff, h4, m3] at m1
    simp only [Bool.false_eq_true, and_false, if_false] at m1
    have := (AMap.contains_eq_false_iff r.received x.1).2 m1
    simp [this, m3, hreq.1]

/-! ## C29, queue level -/

theorem matchFilter_spec (p : Params) (r : Rescan) (f : Filter) (hash : Nat) :
    ((r.matchFilter p f hash).getD false = true ↔ Matches p r.watch r.transactions f hash) ∧
    ((r.matchFilter p f hash).isSome = false ↔ r.watch ≠ [] ∧ p.matchAny f hash r.watch = none) := by
  have hany : ∀ x : Option Bool, x.getD false = true ↔ x = some true := by
    intro x; cases x <;> simp
  have hfin : ∀ m : Bool, ((if (!m && !r.transactions.isEmpty) = true then
      some (r.transactions.any (fun t => (p.matchAll f hash t.2).getD false)) else some m : Option Bool).getD false = true ↔
      m = true ∨ ∃ tx ∈ r.transactions, p.matchAll f hash tx.2 = some true) ∧
      (if (!m && !r.transactions.isEmpty) = true then
      some (r.transactions.any (fun t => (p.matchAll f hash t.2).getD false)) else some m : Option Bool).isSome = true := by
    intro m
    cases m with
    | true => simp
    | false =>
      cases ht : r.transactions with
      | nil => simp
      | cons x xs => simp [hany]
  unfold Rescan.matchFilter Matches
  cases hw : r.watch with
  | nil =>
    simp only [List.isEmpty_nil, if_true]
    obtain ⟨h1, h2⟩ := hfin false
    rw [h1, h2]; simp
  | cons w ws =>
    simp only [List.isEmpty_cons, Bool.false_eq_true, if_false]
    cases hm : p.matchAny f hash (w :: ws) with
    | none => simp
    | some m =>
      simp only
      obtain ⟨h1, h2⟩ := hfin m
      rw [h1, h2]
      cases m <;> simp

theorem length_erase_lt {V : Type} (m : AMap Nat V) (k : Nat) (h : (m.get k).isSome) : (m.erase k).length < m.length := by
  rw [AMap.get_isSome_iff] at h
  unfold AMap.keys at h
  obtain ⟨x, hx, hk⟩ := List.mem_map.1 h
  unfold AMap.erase
  exact List.length_filter_lt_length_iff_exists.2 ⟨x, hx, by simp [hk]⟩

/-- The event for the queued filter `x` at height `h`. -/
def IsEventFor (p : Params) (r : Rescan) (h : Nat) (x : Filter × Nat × Bool) (e : Ev) : Prop :=
  ∃ valid matched, e = .filterProcessed x.2.1 h valid matched x.2.2 ∧
    (matched = true ↔ Matches p r.watch r.transactions x.1 x.2.1) ∧
    (valid = false ↔ r.watch ≠ [] ∧ p.matchAny x.1 x.2.1 r.watch = none)

theorem processLoop_spec (p : Params) : ∀ (fuel : Nat) (r : Rescan), r.received.length ≤ fuel →
    ∃ n, (r.processLoop p fuel).1 = { r with current := r.current + n, received := (r.processLoop p fuel).1.received } ∧
      (∀ i < n, (r.received.get (r.current + i)).isSome) ∧ r.received.get (r.current + n) = none ∧
      (∀ h, (r.processLoop p fuel).1.received.get h =
        if r.current ≤ h ∧ h < r.current + n then none else r.received.get h) ∧
      (r.processLoop p fuel).2.2.length = n ∧
      (∀ i x, i < n → r.received.get (r.current + i) = some x →
        ∃ e, (r.processLoop p fuel).2.2[i]? = some e ∧ IsEventFor p r (r.current + i) x e) ∧
      (∀ h k, (h, k) ∈ (r.processLoop p fuel).2.1 ↔ r.current ≤ h ∧ h < r.current + n ∧
        ∃ x, r.received.get h = some x ∧ x.2.1 = k ∧ Matches p r.watch r.transactions x.1 k) ∧
      (r.processLoop p fuel).2.1.Pairwise (fun x y => x.1 < y.1)
  | 0, r, hf => by
    have : r.received = [] := List.eq_nil_of_length_eq_zero (by omega)
    refine ⟨0, by simp [Rescan.processLoop], by simp, by simp [this], ?_, by simp [Rescan.processLoop], by simp, ?_,
      by simp [Rescan.processLoop]⟩
    · intro h; rw [if_neg (by omega)]; rfl
    · intro h k; simp [Rescan.processLoop]; omega
  | fuel + 1, r, hf => by
    cases hg : r.received.get r.current with
    | none =>
      have he : r.processLoop p (fuel + 1) = (r, [], []) := by
        unfold Rescan.processLoop; rw [hg]
      rw [he]
      refine ⟨0, by simp, by simp, by simpa using hg, ?_, by simp, by simp, ?_, by simp⟩
      · intro h; rw [if_neg (by omega)]
      · intro h k; simp; omega
    | some x =>
      have hlen := length_erase_lt r.received r.current (by simp [hg])
      set r' : Rescan := { r with received := r.received.erase r.current, current := r.current + 1 } with hr'
      obtain ⟨n, h1, h2, h3, h4, h5, h6, h7, h8⟩ := processLoop_spec p fuel r' (by
        rw [hr']; simp only; omega)
      have he : r.processLoop p (fuel + 1) = ((r'.processLoop p fuel).1,
          (r.processOne p r.current x).1 ++ (r'.processLoop p fuel).2.1,
          (r.processOne p r.current x).2 :: (r'.processLoop p fuel).2.2) := by
        conv => lhs; unfold Rescan.processLoop
        rw [hg]
      have hcur : r'.current = r.current + 1 := rfl
      have hgr : ∀ h, r'.received.get h = if r.current = h then none else r.received.get h := fun h => by
        rw [hr']; exact AMap.get_erase _ _ _
      rw [hcur] at h1 h2 h3 h4 h6 h7
      have hw : r'.watch = r.watch := rfl
      have htx : r'.transactions = r.transactions := rfl
      have hone : IsEventFor p r r.current x (r.processOne p r.current x).2 :=
        ⟨_, _, rfl, (matchFilter_spec p r x.1 x.2.1).1, (matchFilter_spec p r x.1 x.2.1).2⟩
      rw [he]
      refine ⟨n + 1, ?_, ?_, ?_, ?_, by simp [h5], ?_, ?_, ?_⟩
      · simp only
        rw [h1]
        have : r.current + 1 + n = r.current + (n + 1) := by omega
        simp [hr', this]
      · rintro (_ | i) hi
        · simp [hg]
        · have := h2 i (by omega)
          rw [hgr] at this
          have e : r.current + 1 + i = r.current + (i + 1) := by omega
          rw [e, if_neg (by omega)] at this; exact this
      · rw [hgr] at h3
        have e : r.current + 1 + n = r.current + (n + 1) := by omega
        rw [e, if_neg (by omega)] at h3; exact h3
      · intro h
        simp only
        rw [h4 h, hgr]
        by_cases hc : r.current = h
        · subst hc; rw [if_neg (by omega), if_pos rfl, if_pos (by omega)]
        · rw [if_neg hc]
          by_cases hh : r.current + 1 ≤ h ∧ h < r.current + 1 + n
          · rw [if_pos hh, if_pos (by omega)]
          · rw [if_neg hh, if_neg (by omega)]
      · rintro (_ | i) y hi hy
        · rw [Nat.add_zero, hg] at hy; cases hy
          exact ⟨_, rfl, hone⟩
        · have e : r.current + 1 + i = r.current + (i + 1) := by omega
          obtain ⟨ev, k1, k2⟩ := h6 i y (by omega) (by rw [hgr, e, if_neg (by omega)]; exact hy)
          refine ⟨ev, by simpa using k1, ?_⟩
          rw [e] at k2
          unfold IsEventFor at k2 ⊢
          rw [hw, htx] at k2; exact k2
      · intro h k
        simp only [List.mem_append]
        rw [h7 h k, hw, htx]
        have hm1 : (h, k) ∈ (r.processOne p r.current x).1 ↔
            h = r.current ∧ x.2.1 = k ∧ Matches p r.watch r.transactions x.1 k := by
          simp only [Rescan.processOne]
          by_cases hM : (r.matchFilter p x.1 x.2.1).getD false = true
          · rw [if_pos hM]
            have := (matchFilter_spec p r x.1 x.2.1).1.1 hM
            simp only [List.mem_singleton, Prod.mk.injEq]
            constructor
            · rintro ⟨rfl, rfl⟩; exact ⟨rfl, rfl, this⟩
            · rintro ⟨rfl, rfl, _⟩; exact ⟨rfl, rfl⟩
          · rw [if_neg hM]
            simp only [List.not_mem_nil, false_iff]
            rintro ⟨_, rfl, h⟩
            exact hM ((matchFilter_spec p r x.1 x.2.1).1.2 h)
        rw [hm1]
        constructor
        · rintro (⟨rfl, rfl, hM⟩ | ⟨ha, hb, y, hy, hk, hM⟩)
          · exact ⟨by omega, by omega, x, hg, rfl, hM⟩
          · rw [hgr, if_neg (by omega)] at hy
            exact ⟨by omega, by omega, y, hy, hk, hM⟩
        · rintro ⟨ha, hb, y, hy, hk, hM⟩
          by_cases hc : h = r.current
          · subst hc; rw [hg] at hy; cases hy
            exact Or.inl ⟨rfl, hk, hM⟩
          · refine Or.inr ⟨by omega, by omega, y, ?_, hk, hM⟩
            rw [hgr, if_neg (by omega)]; exact hy
      · simp only
        rw [List.pairwise_append]
        refine ⟨?_, h8, ?_⟩
        · simp only [Rescan.processOne]; split <;> simp
        · intro a ha b hb
          have h9 := (h7 b.1 b.2).1 hb
          have h10 : a.1 = r.current := by
            simp only [Rescan.processOne] at ha
            split at ha
            · simp at ha; rw [ha]
            · simp at ha
          omega

/-- C29, one call.  Processing takes the queued filters at the current height, the next one, and so on, as long as there is one
(`n` of them): it emits one `FilterProcessed` event for each, in ascending order without gaps, telling whether the filter
matches; the matches returned are exactly the heights and block hashes of the matching ones, in ascending order; these filters
leave the queue, nothing else does; the current height moves on by `n`. -/
theorem C29_process (p : Params) (r : Rescan) :
    ∃ n r' ms es stop, r.process p = (r', ms, es ++ stop, n) ∧ r'.current = r.current + n ∧
      (∀ i < n, (r.received.get (r.current + i)).isSome) ∧ r.received.get (r.current + n) = none ∧
      es.length = n ∧
      (∀ i x, i < n → r.received.get (r.current + i) = some x →
        ∃ e, es[i]? = some e ∧ IsEventFor p r (r.current + i) x e) ∧
      (∀ h k, (h, k) ∈ ms ↔ r.current ≤ h ∧ h < r.current + n ∧
        ∃ x, r.received.get h = some x ∧ x.2.1 = k ∧ Matches p r.watch r.transactions x.1 k) ∧
      ms.Pairwise (fun x y => x.1 < y.1) ∧
      (∀ h, r'.received.get h = if r.current ≤ h ∧ h < r.current + n then none else r.received.get h) ∧
      (stop = [] ∧ r'.active = r.active ∧ r.end ≠ some (r.current + n) ∨
        stop = [.rescanStopped (r.current + n)] ∧ r'.active = false ∧ r.end = some (r.current + n)) ∧
      r' = { r with active := r'.active, current := r'.current, received := r'.received } := by
  obtain ⟨n, h1, h2, h3, h4, h5, h6, h7, h8⟩ := processLoop_spec p r.received.length r (Nat.le_refl _)
  generalize hq : r.processLoop p r.received.length = q at h1 h4 h5 h6 h7 h8
  obtain ⟨q1, q2, q3⟩ := q
  simp only at h1 h4 h5 h6 h7 h8
  have hend : q1.end = r.end := by rw [h1]
  have hcur : q1.current = r.current + n := by rw [h1]
  have hact : q1.active = r.active := by rw [h1]
  have hn : q1.current - r.current = n := by omega
  cases he : r.end with
  | none =>
    refine ⟨n, q1, q2, q3, [], ?_, hcur, h2, h3, h5, h6, h7, h8, h4, Or.inl ⟨rfl, hact, by simp⟩, ?_⟩
    · simp only [Rescan.process, hq, hend, he, hn, List.append_nil]
    · rw [h1]; simp [he]
  | some s =>
    by_cases hs : q1.current = s
    · refine ⟨n, { q1 with active := false }, q2, q3, [.rescanStopped s], ?_, hcur, h2, h3, h5, h6, h7, h8, h4,
        Or.inr ⟨by rw [← hs, hcur], rfl, by rw [← hs, hcur]⟩, ?_⟩
      · simp only [Rescan.process, hq, hend, he, hs, if_true]
        rw [← hs, hn]
      · rw [h1]; simp [he]
    · refine ⟨n, q1, q2, q3, [], ?_, hcur, h2, h3, h5, h6, h7, h8, h4,
        Or.inl ⟨rfl, hact, by rw [Ne, Option.some.injEq]; omega⟩, ?_⟩
      · simp only [Rescan.process, hq, hend, he, hs, if_false, hn, List.append_nil]
      · rw [h1]; simp [he]

end Verif.Cbf
