import Verif.Cbf.Spec
import Verif.Base.Sorted

/-!
# Properties C23, C24, C25, C27: filter-header verification and ranges, request tiling, filter cache
-/

set_option autoImplicit false

namespace Verif.Cbf

variable (p : Params)

/-! ## C23 -/

theorem filterChain_cons_iff (prev : Nat) (es : List Entry) (stop : Nat → Bool) (hs : ∀ h, stop h = false) (n : Nat) :
    verifyLoop p stop prev n es = .ok () ↔
      (∀ g, es[0]? = some g → g.2 = p.filterHeader g.1 prev) ∧
      (∀ h a b, es[h]? = some a → es[h + 1]? = some b → b.2 = p.filterHeader b.1 a.2) := by
  induction es generalizing prev n with
  | nil => simp [verifyLoop]
  | cons x es ih =>
    obtain ⟨hash, header⟩ := x
    unfold verifyLoop
    by_cases h : header = p.filterHeader hash prev
    · simp only [ne_eq, h, not_true, if_false, hs, Bool.false_eq_true]
      rw [ih]
      constructor
      · rintro ⟨h1, h2⟩
        refine ⟨by simp, ?_⟩
        rintro (_ | n) a b ha hb
        · simp only [List.getElem?_cons_zero, Option.some.injEq, List.getElem?_cons_succ] at ha hb
          subst ha; exact h1 _ (by simpa using hb)
        · simp only [List.getElem?_cons_succ] at ha hb
          exact h2 n a b ha hb
      · rintro ⟨_, h2⟩
        refine ⟨fun g hg => h2 0 (hash, p.filterHeader hash prev) g (by simp) (by simpa using hg), ?_⟩
        intro n a b ha hb
        exact h2 (n + 1) a b (by simpa using ha) (by simpa using hb)
    · simp only [ne_eq, h, not_false_eq_true, if_true]
      constructor
      · simp
      · rintro ⟨h1, _⟩; exact absurd (h1 (hash, header) (by simp)) h

theorem verifyLoop_sound (stop : Nat → Bool) : ∀ (es : List Entry) (prev n : Nat),
    (verifyLoop p stop prev n es = .ok () → verifyLoop p (fun _ => false) prev n es = .ok ()) ∧
    (verifyLoop p stop prev n es = .err .integrity → verifyLoop p (fun _ => false) prev n es = .err .integrity) ∧
    verifyLoop p stop prev n es ≠ .panic
  | [], _, _ => by simp [verifyLoop]
  | (hash, header) :: es, prev, n => by
    have ih := verifyLoop_sound stop es header (n + 1)
    unfold verifyLoop
    by_cases h1 : header = p.filterHeader hash prev
    · by_cases h2 : stop n = true
      · simp [← h1, h2]
      · simpa [← h1, h2] using ih
    · simp [h1]

/-- C23.  Verification (with a progress callback that does not interrupt) succeeds exactly on filter-header chains. -/
theorem C23_verify_iff (f : FilterHeaders) :
    verifyWith p (fun _ => false) f = .ok () ↔ FilterChain p f.all := by
  unfold verifyWith
  by_cases hg : f.head.2 = p.genHeader
  · simp only [ne_eq, hg, not_true, if_false]
    rw [filterChain_cons_iff p zeroHeader f.all (fun _ => false) (fun _ => rfl) 0]
    constructor
    · rintro ⟨h1, h2⟩
      exact ⟨⟨f.head, rfl, hg, h1 _ rfl⟩, h2⟩
    · rintro ⟨⟨g, h0, _, h1⟩, h2⟩
      exact ⟨fun g' hg' => by rw [h0] at hg'; cases hg'; exact h1, h2⟩
  · simp only [ne_eq, hg, not_false_eq_true, if_true]
    constructor
    · simp
    · rintro ⟨⟨g, h0, h1, _⟩, _⟩
      have : g = f.head := by simpa [FilterHeaders.all] using h0.symm
      rw [this] at h1; exact absurd h1 hg

/-- C23.  Whatever the progress callback, a verification that succeeds is right; one that fails for another reason than the
callback is right as well. -/
theorem C23_verify_interrupted (f : FilterHeaders) (stop : Nat → Bool) :
    (verifyWith p stop f = .ok () → FilterChain p f.all) ∧
    (verifyWith p stop f = .err .integrity → ¬ FilterChain p f.all) ∧ verifyWith p stop f ≠ .panic := by
  have key := verifyLoop_sound p stop f.all zeroHeader 0
  rw [← C23_verify_iff]
  unfold verifyWith
  by_cases h1 : f.head.2 = p.genHeader
  · simp only [h1, ne_eq, not_true, if_false]
    refine ⟨key.1, fun h => ?_, key.2.2⟩
    rw [key.2.1 h]; simp
  · simp [h1]

/-! ## C24 -/

/-- C24.  `get_headers(a..=b)` with `a ≤ b`: the entry number `i` of the answer is the stored entry at height `a + i`, up to
height `b` and cut at the tip. -/
theorem C24_get_headers {E : Type} (checked : Bool) (f : FilterHeaders) (a b : Nat) (hab : a ≤ b) (hb : b < u64 - 1) :
    ∃ l, (getHeaders checked f a b : Res E (List Entry)) = .ok l ∧
      (∀ i, l[i]? = if a + i ≤ b then getHeader f (a + i) else none) ∧
      l.length = min (b + 1) (f.height + 1) - a := by
  refine ⟨(f.all.drop a).take (b - a + 1), ?_, ?_, ?_⟩
  · have h1 : b - a + 1 < u64 := by omega
    rw [getHeaders, subUsize, if_pos hab, Res.ok_bind, addUsize, if_pos h1, Res.ok_bind]
  · intro i
    rw [List.getElem?_take]
    have : (i < b - a + 1) = (a + i ≤ b) := by apply propext; omega
    simp only [this, List.getElem?_drop, getHeader]
  · simp [FilterHeaders.all, FilterHeaders.height]; omega

/-- C24.  The header below a height. -/
theorem C24_prev_header (f : FilterHeaders) (h : Nat) : getPrevHeader f h = below f.all h := by
  cases h <;> simp [getPrevHeader, below, getHeader]

/-- C24.  Why `a ≤ b` is needed: with `a = b + 2` or more, debug builds panic and release builds return every entry from `a`
to the tip although the range is empty. -/
theorem C24_reversed_range (f : FilterHeaders) (a b : Nat) (hab : b + 1 < a) (ha : f.all.length + a < u64) :
    (getHeaders true f a b : Res Unit (List Entry)) = .panic ∧
    (getHeaders false f a b : Res Unit (List Entry)) = .ok (f.all.drop a) := by
  have h1 : ¬ a ≤ b := by omega
  refine ⟨?_, ?_⟩
  · rw [getHeaders, subUsize, if_neg h1, if_pos rfl, Res.panic_bind]
  · have h2 : b + u64 - a + 1 < u64 := by omega
    have h3 : ¬ (false = true) := by simp
    rw [getHeaders, subUsize, if_neg h1, if_neg h3, Res.ok_bind]
    have h4 : f.all.length - a ≤ b + u64 - a + 1 := by omega
    generalize b + u64 - a = n at h2 h4 ⊢
    rw [addUsize, if_pos h2, Res.ok_bind, List.take_of_length_le (by rw [List.length_drop]; exact h4)]

/-! ## C25 -/

theorem heightRanges_spec (step stop : Nat) (hs : 0 < step) : ∀ (fuel start : Nat), stop + 1 - start ≤ fuel →
    (heightRanges step stop fuel start).flatMap (fun x => List.range' x.1 (x.2 + 1 - x.1)) =
      List.range' start (stop + 1 - start) ∧
    (∀ x ∈ heightRanges step stop fuel start, start ≤ x.1 ∧ x.1 ≤ x.2 ∧ x.2 ≤ stop ∧ x.2 < x.1 + step) ∧
    (heightRanges step stop fuel start).Pairwise (fun x y => x.2 < y.1)
  | 0, start, h => by
    have : stop + 1 - start = 0 := by omega
    simp [heightRanges, this]
  | fuel + 1, start, h => by
    unfold heightRanges
    by_cases hle : start ≤ stop
    · simp only [hle, if_true]
      obtain ⟨h1, h2, h3⟩ := heightRanges_spec step stop hs fuel (min stop (start + step - 1) + 1) (by omega)
      refine ⟨?_, ?_, ?_⟩
      · rw [List.flatMap_cons, h1]
        have e1 : stop + 1 - start = (min stop (start + step - 1) + 1 - start) +
            (stop + 1 - (min stop (start + step - 1) + 1)) := by omega
        rw [e1, ← List.range'_append_1]
        have : start + (min stop (start + step - 1) + 1 - start) = min stop (start + step - 1) + 1 := by omega
        rw [this]
      · intro x hx
        rcases List.mem_cons.1 hx with rfl | hx
        · simp only; omega
        · have := h2 x hx; omega
      · rw [List.pairwise_cons]
        refine ⟨fun y hy => ?_, h3⟩
        have := h2 y hy; simp only; omega
    · have : stop + 1 - start = 0 := by omega
      simp [hle, this]

/-- C25.  Splitting the interval `a..=b` in steps: the heights of the parts, in order, are exactly `a, a+1, …, b` (so the parts
are consecutive, disjoint and cover the interval), and every part is non-empty and has at most `step` heights. -/
theorem C25_tiling (step a b : Nat) (hs : 0 < step) :
    (heightIter step a b).flatMap (fun x => List.range' x.1 (x.2 + 1 - x.1)) = List.range' a (b + 1 - a) ∧
    (∀ x ∈ heightIter step a b, a ≤ x.1 ∧ x.1 ≤ x.2 ∧ x.2 ≤ b ∧ x.2 + 1 - x.1 ≤ step) ∧
    (heightIter step a b).Pairwise (fun x y => x.2 < y.1) := by
  obtain ⟨h1, h2, h3⟩ := heightRanges_spec step b hs (b + 1 - a) a (Nat.le_refl _)
  exact ⟨h1, fun x hx => by have := h2 x hx; omega, h3⟩

/-! ## C27 -/

variable {T : Type} (len : T → Nat)

/-- What every reachable cache satisfies: sorted heights, bytes held at most the accounted size, which is at most the
capacity. -/
structure CacheOK (c : Cache T) : Prop where
  sorted : SSorted hlt c.cache
  bytes : c.bytes len ≤ c.size
  bounded : c.size ≤ c.capacity

theorem hlt_total : StrictTotal hlt := natLt_total

theorem evict_spec (cap : Nat) : ∀ (m : List (Nat × T)) (size extra : Nat),
    size = extra + (m.map (fun x => len x.2)).sum → extra ≤ cap →
    ∃ k size', evict len cap m size = .ok (m.drop k, size') ∧ k ≤ m.length ∧
      size' = extra + ((m.drop k).map (fun x => len x.2)).sum ∧ size' ≤ cap ∧
      (∀ j < k, cap < extra + ((m.drop j).map (fun x => len x.2)).sum)
  | [], size, extra, hs, he => by
    refine ⟨0, size, ?_, by simp, by simpa using hs, by simp at hs; omega, by simp⟩
    have : size ≤ cap := by simp at hs; omega
    simp [evict, this]
  | (h, f) :: m, size, extra, hs, he => by
    by_cases hle : size ≤ cap
    · exact ⟨0, size, by simp [evict, hle], by simp, by simpa using hs, hle, by simp⟩
    · simp only [List.map_cons, List.sum_cons] at hs
      obtain ⟨k, size', h1, h2, h3, h4, h5⟩ := evict_spec cap m (size - len f) extra (by omega) he
      refine ⟨k + 1, size', ?_, by simpa using h2, by simpa using h3, h4, ?_⟩
      · have : len f ≤ size := by omega
        simp [evict, hle, this, h1]
      · rintro (_ | j) hj
        · simp; omega
        · simpa using h5 j (by omega)

theorem sum_sinsert (m : List (Nat × T)) (hm : SSorted hlt m) (h : Nat) (f : T) :
    ((sinsert hlt h f m).map (fun x => len x.2)).sum +
      (m.find? (fun x => x.1 = h)).elim 0 (fun x => len x.2) = (m.map (fun x => len x.2)).sum + len f := by
  induction m with
  | nil => simp [sinsert]
  | cons x m ih =>
    obtain ⟨h', f'⟩ := x
    unfold SSorted at hm
    rw [List.pairwise_cons] at hm
    obtain ⟨hx, hm⟩ := hm
    unfold sinsert
    by_cases h1 : hlt h h' = true
    · have hne : ∀ y ∈ (h', f') :: m, ¬ (y.1 = h) := by
        intro y hy
        simp only [hlt, decide_eq_true_eq] at h1 hx
        rcases List.mem_cons.1 hy with rfl | hy
        · simp only; omega
        · have := hx y hy; omega
      have : List.find? (fun x => decide (x.1 = h)) ((h', f') :: m) = none := by
        rw [List.find?_eq_none]; intro y hy; simpa using hne y hy
      simp only [h1, if_true, this, Option.elim_none, List.map_cons, List.sum_cons]; omega
    · rw [if_neg h1]
      by_cases h2 : hlt h' h = true
      · have hne : ¬ (h' = h) := by simp [hlt] at h2; omega
        rw [if_pos h2]
        simp only [hne, List.map_cons, List.sum_cons, List.find?_cons, decide_false]
        have := ih hm
        omega
      · have he : h' = h := by simp [hlt] at h1 h2; omega
        rw [if_neg h2]; simp [he]; omega

theorem find_none_iff (m : List (Nat × T)) (h : Nat) :
    m.find? (fun x => x.1 = h) = none ↔ ∀ y ∈ m, y.1 ≠ h := by
  rw [List.find?_eq_none]; simp

theorem get_eq_some_iff {c : Cache T} (hc : SSorted hlt c.cache) (h : Nat) (f : T) :
    c.get h = some f ↔ (h, f) ∈ c.cache := by
  unfold Cache.get
  constructor
  · intro hg
    rw [Option.map_eq_some_iff] at hg
    obtain ⟨x, hx, rfl⟩ := hg
    have h1 := List.mem_of_find?_eq_some hx
    have h2 := List.find?_some hx
    simp at h2; subst h2; exact h1
  · intro hm
    generalize c.cache = m at hc hm
    induction m with
    | nil => simp at hm
    | cons x m ih =>
      unfold SSorted at hc
      rw [List.pairwise_cons] at hc
      rcases List.mem_cons.1 hm with rfl | hm
      · simp
      · have := hc.1 _ hm
        simp only [hlt, decide_eq_true_eq] at this
        have hne : ¬ (x.1 = h) := by omega
        rw [List.find?_cons]; simp only [hne, decide_false]
        exact ih hc.2 hm

theorem le_sum_of_mem {l : List Nat} {n : Nat} (h : n ∈ l) : n ≤ l.sum := by
  induction l with
  | nil => simp at h
  | cons a l ih =>
    rcases List.mem_cons.1 h with rfl | h
    · simp
    · have := ih h; simp; omega

/-- C27.  A push never panics or loops, keeps the invariant, refuses exactly filters larger than the whole cache, and otherwise
holds the old content with the new filter at its height, minus the lowest heights: as many as needed — and not one more — to
get the accounted size within the capacity. -/
theorem C27_push (c : Cache T) (hc : CacheOK len c) (h : Nat) (f : T) :
    ∃ ok c', c.push len h f = .ok (ok, c') ∧ CacheOK len c' ∧ c'.capacity = c.capacity ∧
      (ok = false ↔ c.capacity < len f) ∧ (ok = false → c' = c) ∧
      (ok = true → ∃ k, c'.cache = (sinsert hlt h f c.cache).drop k ∧
        (∀ j < k, c.capacity < (c.size - c.bytes len + ((c.get h).elim 0 len)) +
          (((sinsert hlt h f c.cache).drop j).map (fun x => len x.2)).sum) ∧
        (c.get h = none → c.bytes len = c.size → c'.bytes len = c'.size)) := by
  by_cases hcap : c.capacity < len f
  · exact ⟨false, c, by simp [Cache.push, hc.bounded, hcap], hc, rfl, by simp [hcap], by simp, by simp⟩
  · have hsum := sum_sinsert len c.cache hc.sorted h f
    have hget : (c.cache.find? (fun x => x.1 = h)).elim 0 (fun x => len x.2) = (c.get h).elim 0 len := by
      unfold Cache.get
      cases c.cache.find? (fun x => decide (x.1 = h)) <;> simp
    rw [hget] at hsum
    have hb := hc.bytes
    have hsz := hc.bounded
    unfold Cache.bytes at hb
    obtain ⟨k, size', h1, h2, h3, h4, h5⟩ := evict_spec len c.capacity (sinsert hlt h f c.cache) (c.size + len f)
      (c.size - c.bytes len + (c.get h).elim 0 len) (by unfold Cache.bytes; omega) (by
        have hle : (c.get h).elim 0 len ≤ c.bytes len := by
          cases hg : c.get h with
          | none => simp
          | some g =>
            rw [get_eq_some_iff hc.sorted] at hg
            have : len g ∈ c.cache.map (fun x => len x.2) := List.mem_map.2 ⟨_, hg, rfl⟩
            simpa [Cache.bytes] using le_sum_of_mem this
        unfold Cache.bytes at hle ⊢
        omega)
    refine ⟨true, { c with cache := (sinsert hlt h f c.cache).drop k, size := size' }, ?_, ⟨?_, ?_, h4⟩, rfl, by simp [hcap],
      by simp, ?_⟩
    · simp [Cache.push, hc.bounded, hcap, h1]
    · exact List.Pairwise.sublist (List.drop_sublist _ _) (sorted_sinsert hlt_total h f hc.sorted)
    · unfold Cache.bytes; simp only; omega
    · intro _
      refine ⟨k, rfl, h5, ?_⟩
      intro hn hbs
      unfold Cache.bytes at *
      rw [hn] at h3
      simp only [Option.elim_none] at h3 ⊢
      omega

theorem rollbackLoop_spec (height : Nat) : ∀ (m : List (Nat × T)) (size : Nat),
    (m.map (fun x => len x.2)).sum ≤ size → m.Pairwise (fun a b => hlt b.1 a.1 = true) →
    ∃ size', rollbackLoop len height m size = .ok (m.filter (fun x => x.1 ≤ height), size') ∧
      size' + (m.map (fun x => len x.2)).sum = size + ((m.filter (fun x => x.1 ≤ height)).map (fun x => len x.2)).sum
  | [], size, _, _ => ⟨size, by simp [rollbackLoop]⟩
  | (h, f) :: m, size, hs, hp => by
    rw [List.pairwise_cons] at hp
    simp only [List.map_cons, List.sum_cons] at hs
    by_cases hh : height < h
    · obtain ⟨size', h1, h2⟩ := rollbackLoop_spec height m (size - len f) (by omega) hp.2
      refine ⟨size', ?_, ?_⟩
      · have h3 : len f ≤ size := by omega
        have h4 : ¬ (h ≤ height) := by omega
        simp [rollbackLoop, hh, h3, h1, h4]
      · have h4 : ¬ (h ≤ height) := by omega
        simp only [List.filter_cons, h4, decide_false, Bool.false_eq_true, if_false, List.map_cons, List.sum_cons]
        omega
    · have h4 : h ≤ height := by omega
      have hall : m.filter (fun x => x.1 ≤ height) = m := by
        rw [List.filter_eq_self]
        intro x hx
        have := hp.1 x hx
        simp only [hlt, decide_eq_true_eq] at this ⊢; omega
      refine ⟨size, ?_, ?_⟩
      · simp [rollbackLoop, hh, h4, hall]
      · simp [h4, hall]

theorem sum_sublist {l l' : List Nat} (h : l.Sublist l') : l.sum ≤ l'.sum := by
  induction h with
  | slnil => simp
  | cons a _ ih => simp; omega
  | cons_cons a _ ih => simp; omega

/-- C27.  A rollback never panics, keeps the invariant and removes exactly the heights above the given one; the accounted size
goes down by exactly the bytes freed. -/
theorem C27_rollback (c : Cache T) (hc : CacheOK len c) (h : Nat) :
    ∃ c', c.rollback len h = .ok c' ∧ CacheOK len c' ∧ c'.capacity = c.capacity ∧
      c'.cache = c.cache.filter (fun x => x.1 ≤ h) ∧ c'.size + c.bytes len = c.size + c'.bytes len := by
  have hsum : ∀ l : List (Nat × T), (l.reverse.map (fun x => len x.2)).sum = (l.map (fun x => len x.2)).sum := by
    intro l; rw [List.map_reverse, List.sum_reverse]
  obtain ⟨size', h1, h2⟩ := rollbackLoop_spec len h c.cache.reverse c.size
    (by rw [hsum]; exact hc.bytes) (by rw [List.pairwise_reverse]; exact hc.sorted)
  rw [List.filter_reverse] at h1 h2
  rw [hsum, hsum] at h2
  have hle : ((c.cache.filter (fun x => x.1 ≤ h)).map (fun x => len x.2)).sum ≤ c.bytes len :=
    sum_sublist (List.Sublist.map _ List.filter_sublist)
  refine ⟨{ c with cache := c.cache.filter (fun x => x.1 ≤ h), size := size' }, ?_, ⟨?_, ?_, ?_⟩, rfl, rfl, ?_⟩
  · simp [Cache.rollback, h1]
  · exact List.Pairwise.sublist List.filter_sublist hc.sorted
  · have := hc.bytes; unfold Cache.bytes at *; simp only; omega
  · have := hc.bounded; have h3 := hc.bytes; unfold Cache.bytes at *; simp only; omega
  · unfold Cache.bytes; simp only; omega

theorem cacheStep_ok (c : Cache T) (hc : CacheOK len c) (op : CacheOp T) :
    ∃ c', cacheStep len c op = .ok c' ∧ CacheOK len c' ∧ c'.capacity = c.capacity := by
  cases op with
  | push h f =>
    obtain ⟨ok, c', h1, h2, h3, _⟩ := C27_push len c hc h f
    exact ⟨c', by simp [cacheStep, h1], h2, h3⟩
  | rollback h =>
    obtain ⟨c', h1, h2, h3, _⟩ := C27_rollback len c hc h
    exact ⟨c', h1, h2, h3⟩

theorem cacheRun_append (c : Cache T) (ops ops' : List (CacheOp T)) :
    cacheRun len c (ops ++ ops') = (cacheRun len c ops >>= fun c => cacheRun len c ops') := by
  induction ops generalizing c with
  | nil => simp [cacheRun]
  | cons op ops ih =>
    simp only [List.cons_append, cacheRun]
    cases cacheStep len c op <;> simp [ih]

/-- C27.  After any sequence of pushes and rollbacks on a new cache: no call panics or loops for ever, heights are strictly
ascending, the bytes held never exceed the accounted size, the accounted size never exceeds the capacity, and a height that is
found holds the filter last pushed at that height, not rolled back since. -/
theorem C27_history (cap : Nat) (ops : List (CacheOp T)) :
    ∃ c, cacheRun len ⟨[], 0, cap⟩ ops = .ok c ∧ c.capacity = cap ∧
      c.cache.Pairwise (fun a b => a.1 < b.1) ∧ c.bytes len ≤ c.size ∧ c.size ≤ cap ∧
      ∀ h f, c.get h = some f → lastPushed len cap h ops.reverse = some f := by
  suffices H : ∀ ops' : List (CacheOp T), ∃ c, cacheRun len ⟨[], 0, cap⟩ ops'.reverse = .ok c ∧ c.capacity = cap ∧
      CacheOK len c ∧ ∀ h f, c.get h = some f → lastPushed len cap h ops' = some f by
    obtain ⟨c, h1, h2, h3, h4⟩ := H ops.reverse
    rw [List.reverse_reverse] at h1
    refine ⟨c, h1, h2, ?_, h3.bytes, h2 ▸ h3.bounded, h4⟩
    exact List.Pairwise.imp (fun hab => by simpa [hlt] using hab) h3.sorted
  intro ops'
  induction ops' with
  | nil =>
    exact ⟨⟨[], 0, cap⟩, rfl, rfl, ⟨by simp [SSorted], by simp [Cache.bytes], by simp⟩, by simp [Cache.get]⟩
  | cons op ops' ih =>
    obtain ⟨c, h1, h2, h3, h4⟩ := ih
    rw [List.reverse_cons, cacheRun_append, h1]
    simp only [Res.ok_bind, cacheRun]
    cases op with
    | push h f =>
      obtain ⟨ok, c', g1, g2, g3, g4, g5, g6⟩ := C27_push len c h3 h f
      refine ⟨c', by simp [cacheStep, g1], by rw [g3, h2], g2, ?_⟩
      intro h' f' hg
      unfold lastPushed
      cases ok with
      | false =>
        have : ¬ (len f ≤ cap) := by have := g4.1 rfl; omega
        rw [if_neg (by tauto)]
        rw [g5 rfl] at hg; exact h4 h' f' hg
      | true =>
        have hle : len f ≤ cap := by
          have : ¬ (c.capacity < len f) := fun hh => by simpa using g4.2 hh
          omega
        obtain ⟨k, hk, _⟩ := g6 rfl
        rw [get_eq_some_iff g2.sorted, hk] at hg
        have := (mem_sinsert hlt_total h f h3.sorted _).1 (List.mem_of_mem_drop hg)
        rcases this with heq | ⟨hne, hmem⟩
        · cases heq; simp [hle]
        · rw [if_neg (by rintro ⟨rfl, _⟩; exact hne rfl)]
          exact h4 h' f' ((get_eq_some_iff h3.sorted h' f').2 hmem)
    | rollback h =>
      obtain ⟨c', g1, g2, g3, g4, _⟩ := C27_rollback len c h3 h
      refine ⟨c', by simp [cacheStep, g1], by rw [g3, h2], g2, ?_⟩
      intro h' f' hg
      unfold lastPushed
      rw [get_eq_some_iff g2.sorted, g4, List.mem_filter] at hg
      obtain ⟨hmem, hle⟩ := hg
      simp only [decide_eq_true_eq] at hle
      rw [if_neg (by omega)]
      exact h4 h' f' ((get_eq_some_iff h3.sorted h' f').2 hmem)

/-- C27.  A filter found before a push and not after it was evicted, and then every lower height is gone too (or it was the
height just pushed). -/
theorem C27_evicts_lowest (c : Cache T) (hc : CacheOK len c) (h : Nat) (f : T) (ok : Bool) (c' : Cache T)
    (hp : c.push len h f = .ok (ok, c')) (h1 : Nat) (hin : (c.get h1).isSome) (hout : c'.get h1 = none)
    (h2 : Nat) (hlt2 : h2 < h1) : c'.get h2 = none := by
  obtain ⟨ok', c'', e1, e2, _, e4, e5, e6⟩ := C27_push len c hc h f
  rw [hp] at e1; cases e1
  cases ok with
  | false => rw [e5 rfl] at hout; simp [hout] at hin
  | true =>
    obtain ⟨k, hk, _⟩ := e6 rfl
    by_contra hne
    obtain ⟨g, hg⟩ := Option.ne_none_iff_exists'.1 hne
    rw [get_eq_some_iff e2.sorted, hk] at hg
    have hs := sorted_sinsert hlt_total h f hc.sorted
    obtain ⟨g1, hg1⟩ := Option.isSome_iff_exists.1 hin
    rw [get_eq_some_iff hc.sorted] at hg1
    have hmem : ∃ g', (h1, g') ∈ sinsert hlt h f c.cache := by
      by_cases hh : h1 = h
      · exact ⟨f, (mem_sinsert hlt_total h f hc.sorted _).2 (Or.inl (by rw [hh]))⟩
      · exact ⟨g1, (mem_sinsert hlt_total h f hc.sorted _).2 (Or.inr ⟨hh, hg1⟩)⟩
    obtain ⟨g', hg'⟩ := hmem
    have hsplit := List.take_append_drop k (sinsert hlt h f c.cache)
    rw [← hsplit] at hg' hs
    rcases List.mem_append.1 hg' with ht | hd
    · have := (List.pairwise_append.1 hs).2.2 _ ht _ hg
      simp only [hlt, decide_eq_true_eq] at this; omega
    · rw [← hk, ← get_eq_some_iff e2.sorted] at hd
      rw [hd] at hout; cases hout

end Verif.Cbf

namespace Verif.Cbf.CacheScenario
open Verif.Cbf

/-- A small filter-header chain: header = hash + 10 * prev + 1. -/
def p : Params := ⟨fun f => f.sum, fun h prev => h + 10 * prev + 1, fun f _ w => some (w.any f.contains),
  fun f _ w => some (w.all f.contains), 5, 6, true⟩

def good : FilterHeaders := ⟨(5, 6), [(3, 64), (1, 642)], [(5, 6), (3, 64), (1, 642)]⟩
def bad : FilterHeaders := ⟨(5, 6), [(3, 64), (1, 641)], [(5, 6), (3, 64), (1, 641)]⟩

/-- Verification accepts a chain and refuses a broken one. -/
example : verifyWith p (fun _ => false) good = .ok () ∧ verifyWith p (fun _ => false) bad = .err .integrity := by decide

/-- Ranges. -/
example : (getHeaders true good 1 7 : Res Unit _) = .ok [(3, 64), (1, 642)] ∧ getPrevHeader good 2 = some 64 := by decide

/-- Tiling of 5..=11 in steps of 3. -/
example : heightIter 3 5 11 = [(5, 7), (8, 10), (11, 11)] := by decide

/-- The documented example of the filter cache, with an eviction and an accepted non-contiguous height. -/
example : cacheRun List.length ⟨[], 0, 8⟩
    [.push 3 [1, 2, 3], .push 4 [4, 5], .push 5 [6], .push 7 [7], .push 6 [8], .push 8 [9]] =
    .ok ⟨[(4, [4, 5]), (5, [6]), (6, [8]), (7, [7]), (8, [9])], 6, 8⟩ := by decide

/-- Cached heights need not be contiguous: pushing heights 3 and 9 caches both. -/
theorem C27_not_contiguous : cacheRun List.length ⟨[], 0, 8⟩ [.push 3 [1], .push 9 [2]] =
    .ok (⟨[(3, [1]), (9, [2])], 2, 8⟩ : Cache (List Nat)) := by decide

/-- Pushing a cached height again leaves the accounted size above the bytes held, and evicts too early. -/
theorem C27_repush_overcounts : cacheRun List.length ⟨[], 0, 4⟩ [.push 3 [1, 1], .push 3 [1, 1], .push 4 [2]] =
    .ok (⟨[(4, [2])], 3, 4⟩ : Cache (List Nat)) := by decide

end Verif.Cbf.CacheScenario
