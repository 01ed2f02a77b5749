import Verif.Cbf.Still

/-!
# C121: a rescan gets to the tip
-/

set_option autoImplicit false

namespace Verif.Cbf

/-- In the `j`th call, the filter of height `k` is asked for. -/
def AsksFilter (t : Tree) (f : Nat → Mgr) (j k : Nat) : Prop := ∃ d, (f (j + 1)).out = (f j).out ++ d ∧ Asked t d k

/-- In the `j`th call, the filter of the block at height `k` comes in. -/
def Brings (p : Params) (es : List Entry) (t : Tree) (op : Nat → Op) (j k : Nat) : Prop :=
  ∃ a b flt, op j = .cfilter a 0 b flt ∧ t.hashes[k]? = some b ∧ Committed p es k flt

/-- An endless execution as for C119 that begins with the command to rescan from some height on, without end; a filter asked for again and again comes in
again and again.  Any other filters may come in too, asked for or not, genuine or forged. -/
structure Delivers (p : Params) (t : Tree) (es : List Entry) (f : Nat → Mgr) (op : Nat → Op) (env : Nat → Env) (first : Bound) (w : List Nat) : Prop
    extends Serves p t es f op env where
  start : op 0 = .rescan first .unbounded w
  once : ∀ n a b w, op (n + 1) ≠ .rescan a b w
  filters : ∀ k, Often (fun j => AsksFilter t f j k) → Often (fun j => Brings p es t op j k)

variable {p : Params} {t : Tree} {es : List Entry} {f : Nat → Mgr} {op : Nat → Op} {env : Nat → Env} {first : Bound} {w : List Nat}

theorem Delivers.plain (d : Delivers p t es f op env first w) (n : Nat) : (op (n + 1)).plain = true := by
  cases h : op (n + 1) with
  | rescan a b w => exact absurd h (d.once n a b w)
  | headersImported r => rw [d.chain _ r h]; rfl
  | _ => rfl

/-- What holds at all times after the command. -/
structure Going (t : Tree) (m0 : Mgr) (first : Bound) (m : Mgr) : Prop where
  runs : Runs m
  cacheOK : CacheOK List.length m.rescan.cache
  queue : ∀ k, first.first t ≤ k → (m.rescan.received.get k).isSome → k ≤ t.height
  from_ : first.first t ≤ m.rescan.current
  upTo : m.rescan.current ≤ max (first.first t) (t.height + 1)
  scanned : processedHeights m.out = processedHeights m0.out ++ List.range' (first.first t) (m.rescan.current - first.first t)

theorem mem_processedHeights {o : List Out} {k : Nat} (h : k ∈ processedHeights o) : ∃ b v mt c, .filterProcessed b k v mt c ∈ eventsOf o := by
  unfold processedHeights at h
  rw [List.mem_filterMap] at h
  obtain ⟨ev, h1, h2⟩ := h
  cases ev with
  | filterProcessed b h v mt c => simp [processedHeight] at h2; subst h2; exact ⟨b, v, mt, c, h1⟩
  | _ => simp [processedHeight] at h2

theorem source_height (hn : t.hashes.Nodup) (hpos : 0 < t.hashes.length) {m0 m : Mgr} (g : Going t m0 first m) {o : Op} {k b : Nat} {flt : Filter} (hk : first.first t ≤ k)
    (hs : Source p t m o k flt b) : k ≤ t.height := by
  have hlt : ∀ {b : Nat}, t.hashes[k]? = some b → k ≤ t.height := fun h => by
    have := (List.getElem?_eq_some_iff.1 h).1
    unfold Tree.height; omega
  rcases hs with ⟨c, h⟩ | ⟨-, h⟩ | ⟨_, h⟩
  · exact g.queue k hk (by rw [h]; rfl)
  · exact hlt h
  · exact hlt ((heightOf_eq_some hn _ _).1 h.2.1)

theorem Going.step (hn : t.hashes.Nodup) (hpos : 0 < t.hashes.length) {m0 m m' : Mgr} (g : Going t m0 first m) {e : Env} {o : Op} (hp : o.plain = true)
    (h : m.step p e t o = .ok m') : Going t m0 first m' := by
  have sf := step_facts p e t m m' o h g.cacheOK
  obtain ⟨o1, o2⟩ := step_order p e t m m' o h hp
  refine ⟨(runs_step p g.runs g.cacheOK h hp).1, sf.cacheOK, ?_, Nat.le_trans g.from_ o1, ?_, ?_⟩
  · intro k hk hr
    obtain ⟨⟨flt, b, c⟩, hx⟩ := Option.isSome_iff_exists.1 hr
    exact source_height hn hpos g hk (sf.queue k flt b c hx)
  · by_cases heq : m'.rescan.current = m.rescan.current
    · rw [heq]; exact g.upTo
    · obtain ⟨d, d1, d2⟩ := sf.out
      rw [d1, processedHeights_append] at o2
      have o2 := List.append_cancel_left o2
      have hmem : m'.rescan.current - 1 ∈ processedHeights d := by
        rw [o2, List.mem_range'_1]; omega
      obtain ⟨b, v, mt, c, hev⟩ := mem_processedHeights hmem
      obtain ⟨flt, hsrc, -⟩ := d2 b _ v mt c hev
      have := source_height hn hpos g (by have := g.from_; omega) hsrc
      omega
  · rw [o2, g.scanned, List.append_assoc]
    congr 1
    have h1 := g.from_
    have e1 : m'.rescan.current - first.first t = (m.rescan.current - first.first t) + (m'.rescan.current - m.rescan.current) := by omega
    rw [e1, ← List.range'_append_1]
    have e2 : first.first t + (m.rescan.current - first.first t) = m.rescan.current := by omega
    rw [e2]

/-- **C121** (part): in every endless execution with a chain that stays as it is and has reached the last checkpoint, from any state whose filter headers are a beginning of the chain's, in which the user
asks for a rescan from some height on: if there is always some peer serving filters, timers go on, the peers' answers about filter headers are honest and filters asked
for again and again come in again and again, then at some time all heights from there up to the tip have been scanned, in order and each once — however many requests
and answers are lost, whatever else comes in or is asked for meanwhile, and even if no filter header was known when the user asked.  Condition: no filter from that
height on is in memory when the user asks (otherwise the rescan may stand still: `Scenario.C64_cached_rescan_stalls`). -/
theorem C121_rescan_arrives_partial (hc : FilterChain p es) (hn : t.hashes.Nodup) (hlen : es.length = t.hashes.length) (hsmall : t.hashes.length ≤ 2 ^ 32)
    (hcp : ∀ c, t.checkpoint = some c → c ≤ t.height) (h0 : (f 0).filters.all <+: es) (hst : (f 0).filters.store = (f 0).filters.all)
    (hcache : CacheOK List.length (f 0).rescan.cache)
    (hm : ∀ k, first.first t ≤ k → (f 0).rescan.received.get k = none ∧ (f 0).rescan.cache.get k = none)
    (d : Delivers p t es f op env first w) :
    ∃ n, ∀ j, n ≤ j → processedHeights (f j).out = processedHeights (f 0).out ++ List.range' (first.first t) (t.height + 1 - first.first t) := by
  have hpos : 0 < t.hashes.length := by
    rw [← hlen]
    have := h0.length_le
    simp only [FilterHeaders.all, List.length_cons] at this
    omega
  have hb : t.belowCheckpoint = false := belowCheckpoint_false hcp
  obtain ⟨n0, hn0, -⟩ := C119_filter_headers_arrive hc hn hlen hsmall hcp h0 hst d.toServes
  have hgen := d.toServes.genuine hc hn hlen ⟨h0, hst⟩
  have going : ∀ n, Going t (f 0) first (f (n + 1)) := by
    intro n
    induction n with
    | zero =>
      have hs := d.step 0
      rw [d.start] at hs
      obtain ⟨r1, r2, r3, r4⟩ := runs_rescan p hs hm
      refine ⟨r1, (step_facts p (env 0) t _ _ _ hs hcache).cacheOK, fun k hk h => ?_, by rw [r2], by rw [r2]; omega, by rw [r2, r3]; simp⟩
      rw [r4 k hk] at h; cases h
    | succ n ih => exact ih.step hn hpos (d.plain n) (d.step (n + 1))
  have hmono : ∀ n x, (f (n + 1)).rescan.current ≤ (f (n + 1 + x)).rescan.current := by
    intro n x
    induction x with
    | zero => exact Nat.le_refl _
    | succ x ih =>
      have := (step_order p (env (n + x + 1)) t _ _ _ (d.step (n + x + 1)) (d.plain (n + x))).1
      rw [show n + 1 + (x + 1) = n + x + 1 + 1 by omega]
      rw [show n + 1 + x = n + x + 1 by omega] at ih
      omega
  have hall : ∀ j, n0 ≤ j → (f j).filters.height = t.height := fun j hj => by
    have h1 := (hn0 j hj).1
    have : (f j).filters.all.length = es.length := by rw [h1]
    simp only [FilterHeaders.all, List.length_cons] at this
    unfold FilterHeaders.height Tree.height
    omega
  -- as long as heights are missing, some more are scanned at some time
  have progress : ∀ n, n0 ≤ n + 1 → (f (n + 1)).rescan.current ≤ t.height → ∃ j, n ≤ j ∧ (f (n + 1)).rescan.current < (f (j + 1)).rescan.current := by
    intro n hnn hle
    apply Classical.byContradiction
    intro hcon
    generalize hcur : (f (n + 1)).rescan.current = c at *
    have hc' : ∀ j, n ≤ j → (f (j + 1)).rescan.current = c := fun j hj => by
      have h1 := hmono n (j - n)
      rw [show n + 1 + (j - n) = j + 1 by omega] at h1
      have h2 : ¬ c < (f (j + 1)).rescan.current := fun h => hcon ⟨j, hj, h⟩
      omega
    have hl : ∀ x, (f (n + 1 + x)).lastProcessed = (f (n + 1)).lastProcessed := by
      intro x
      induction x with
      | zero => rfl
      | succ x ih =>
        have := (runs_step p (going (n + x)).runs (going (n + x)).cacheOK (d.step (n + x + 1)) (d.plain (n + x))).2
          (by rw [hc' (n + x) (by omega), hc' (n + x + 1) (by omega)])
        rw [show n + 1 + (x + 1) = n + x + 1 + 1 by omega, this, ← ih, show n + 1 + x = n + x + 1 by omega]
    have hsound : ∀ j, n ≤ j → Sound t (f (j + 1)) := fun j hj =>
      ⟨(going j).cacheOK, (hgen (j + 1)).2, by rw [hall (j + 1) (by omega)]; unfold Tree.height; omega⟩
    have hask : ∀ N, ∃ j, N ≤ j ∧ n ≤ j ∧ c ∈ (f (j + 1 + 1)).rescan.requested ∧ AsksFilter t f (j + 1) c := by
      intro N
      obtain ⟨j, hj, ho, hT⟩ := d.timer (requestTimeout + (f (n + 1)).lastProcessed.getD 0) (max (n + 1) (N + 1))
      obtain ⟨j, rfl⟩ : ∃ j', j = j' + 1 := ⟨j - 1, by omega⟩
      have hstp := d.step (j + 1)
      rw [ho] at hstp
      have hlj := hl (j - n)
      rw [show n + 1 + (j - n) = j + 1 by omega] at hlj
      have hcj := hc' j (by omega)
      obtain ⟨-, -, -, -, h5, o, h6, h7⟩ := timer_asks p (d.fair _) (hsound j (by omega)) (going j).runs.active (d.peers _)
        (by rw [hcj, hall (j + 1) (by omega)]; exact hle) (by rw [hlj]; omega) hstp
      have hreq := h5 c (by rw [hcj]) (by rw [hall (j + 1) (by omega)]; exact hle) (by rw [← hcj]; exact (going j).runs.next)
        (by rw [← hcj]; exact (going j).runs.missing)
      exact ⟨j, by omega, by omega, hreq, o, h6, h7 c hreq⟩
    obtain ⟨j1, -, hj1, hr1, -⟩ := hask 0
    have hstay : ∀ x, c ∈ (f (j1 + 1 + 1 + x)).rescan.requested := by
      intro x
      induction x with
      | zero => exact hr1
      | succ x ih =>
        rw [show j1 + 1 + 1 + x = j1 + 1 + x + 1 by omega] at ih
        have hcx := hc' (j1 + 1 + x) (by omega)
        have := asked_step p (d.fair _) (going (j1 + 1 + x)).runs (hsound (j1 + 1 + x) (by omega)) (d.peers _)
          (by rw [hcx, hall _ (by omega)]; exact hle) (d.step (j1 + 1 + x + 1)) (d.plain _)
          (by rw [hcx, hc' (j1 + 1 + x + 1) (by omega)]) (by rw [hcx]; exact ih)
        rw [hcx] at this
        rw [show j1 + 1 + 1 + (x + 1) = j1 + 1 + x + 1 + 1 by omega]
        exact this
    obtain ⟨j, hj, a, b, flt, ho, hb1, hcm⟩ := d.filters c (fun N => by
      obtain ⟨j, h1, -, -, h2⟩ := hask N
      exact ⟨j + 1, by omega, h2⟩) (j1 + 1 + 1)
    have hstp := d.step j
    rw [ho] at hstp
    have hnot := (cfilter_waits p (c := 1) (H := 0) (got := false) (env j) hn ⟨fun k h1 h2 => by omega, by simp⟩ hstp).2.2.2.1 c
      ⟨rfl, hb1, by rw [(hn0 j (by omega)).1]; exact hcm⟩
    refine hnot ?_
    have := hstay (j + 1 - (j1 + 1 + 1))
    rwa [show j1 + 1 + 1 + (j + 1 - (j1 + 1 + 1)) = j + 1 by omega] at this
  have reach : ∀ x n, n0 ≤ n + 1 → t.height + 1 - (f (n + 1)).rescan.current ≤ x → ∃ j, t.height < (f (j + 1)).rescan.current := by
    intro x
    induction x with
    | zero => intro n _ h; exact ⟨n, by omega⟩
    | succ x ih =>
      intro n h1 h2
      by_cases hle : (f (n + 1)).rescan.current ≤ t.height
      · obtain ⟨j, hj, hlt⟩ := progress n h1 hle
        exact ih j (by omega) (by omega)
      · exact ⟨n, by omega⟩
  obtain ⟨n, hlt⟩ := reach _ n0 (by omega) (Nat.le_refl _)
  refine ⟨n + 1, fun j hj => ?_⟩
  have h1 := hmono n (j - (n + 1))
  rw [show n + 1 + (j - (n + 1)) = j by omega] at h1
  have g := going (j - 1)
  rw [show j - 1 + 1 = j by omega] at g
  have h2 := g.upTo
  rw [g.scanned, show (f j).rescan.current - first.first t = t.height + 1 - first.first t by omega]

end Verif.Cbf
