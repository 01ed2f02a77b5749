import Verif.Chain.Batch

/-!
# Property theorems about batches: C01 (no panic), C06
-/

set_option autoImplicit false

namespace Verif.Chain
open AMap

variable {cfg : Cfg} {U : Header → Prop} {g : Header} {s : State} {fail : Bool}

/-! ## The report of a batch -/

theorem importBlocks_ok {s' : State} {hs : List (Header × Env)} {r : ImportResult}
    (h : importBlocks cfg s hs = (s', .ok r)) :
    ∃ a, importLoop cfg s ⟨[], [], [], s.height, cfg.hash s.last.header, s.last.header⟩ 0 hs = (s', .ok a) ∧
      ((a.connected = [] ∧ r = .tipUnchanged) ∨
       (a.connected ≠ [] ∧ r = .tipChanged a.bestHeader a.bestHash a.bestHeight
        (((a.reverted.filter (fun p => !(a.seen.contains p.1.2) && !(s'.contains p.1.2))).reverse).map
          (fun p => (p.1.1, p.2))) (a.connected.filter (fun p => s'.contains (cfg.hash p.2))))) := by
  unfold importBlocks at h
  simp only at h
  split at h
  · rename_i s1 a heq
    refine ⟨a, ?_⟩
    by_cases hc : a.connected.isEmpty = true
    · rw [if_pos hc] at h
      obtain ⟨rfl, h2⟩ := Prod.mk.inj h
      exact ⟨heq, .inl ⟨by simpa using hc, by simpa using h2.symm⟩⟩
    · rw [if_neg hc] at h
      split at h
      · simp at h
      · obtain ⟨rfl, h2⟩ := Prod.mk.inj h
        exact ⟨heq, .inr ⟨by simpa using hc, by simpa using h2.symm⟩⟩
  · simp at h
  · simp at h

theorem take_eq_of_agree {s s' : State} (hv : ConsistentView cfg g s) (hv' : ConsistentView cfg g s') {m : Nat}
    (h : ∀ n, n ≤ m → s'.getByHeight n = s.getByHeight n) : s'.iter.take (m + 1) = s.iter.take (m + 1) := by
  apply List.ext_getElem?
  intro i
  simp only [List.getElem?_take]
  split
  · rename_i hlt; rw [hv.iter, hv'.iter, h i (by omega)]
  · rfl

theorem contains_iff_mem {s : State} (hi : TreeInv cfg U g s) (ha : Acyclic cfg U) (cf : CollisionFree cfg U) {n : Nat}
    {h : Header} (hat : AtHeight cfg U g h n) : s.contains (cfg.hash h) = true ↔ s.getByHeight n = some h := by
  rw [(view_of_inv hi).contains]
  constructor
  · rintro ⟨j, x, hj, he⟩
    have := AtHeight.unique ha cf (atHeight_active hi hj) hat he
    rw [← this.1, ← this.2]; exact hj
  · intro hg; exact ⟨n, h, hg, rfl⟩

theorem batch_connected (ha : Acyclic cfg U) (cf : CollisionFree cfg U) {ex : Prop} {s0 : State} {a : Acc} {m : Nat}
    (hi : TreeInv cfg U g s) (hb : BatchInv cfg U g ex s0 s a m) :
    a.connected.filter (fun p => s.contains (cfg.hash p.2)) = s.iter.drop (m + 1) := by
  refine SSorted.ext natLt_total (List.Pairwise.sublist List.filter_sublist hb.conSorted)
    (iter_drop_sorted _ _) ?_
  intro p
  rw [List.mem_filter, mem_iter_drop (view_of_inv hi)]
  constructor
  · rintro ⟨h1, h2⟩
    have h3 := hb.conMem p h1
    exact ⟨h3.1, (contains_iff_mem hi ha cf h3.2).1 h2⟩
  · rintro ⟨h1, h2⟩
    have h3 := hb.con p.1 p.2 h1 h2
    exact ⟨h3, (contains_iff_mem hi ha cf (hb.conMem p h3).2).2 h2⟩

theorem batch_reverted_mem {ex : Prop} {s0 : State} {a : Acc} {m : Nat}
    (hb : BatchInv cfg U g ex s0 s a m) {q : (Nat × Nat) × Header}
    (hq : q ∈ a.reverted.filter (fun p => !(a.seen.contains p.1.2) && !(s.contains p.1.2))) :
    q ∈ a.reverted ∧ q.1.2 = cfg.hash q.2 ∧ s0.getByHeight q.1.1 = some q.2 ∧ s.contains (cfg.hash q.2) = false := by
  rw [List.mem_filter] at hq
  obtain ⟨h1, h2⟩ := hq
  simp only [Bool.and_eq_true, Bool.not_eq_true', List.contains_eq_mem, decide_eq_false_iff_not] at h2
  obtain ⟨h3, h4, h5⟩ := hb.revMem q h1
  refine ⟨h1, h3, h5.resolve_left h2.1, by rw [← h3]; exact h2.2⟩

/-- The list of reverted blocks, in ascending order of height. -/
theorem batch_reverted_sorted {ex : Prop} {s0 : State} {a : Acc} {m : Nat}
    (hb : BatchInv cfg U g ex s0 s a m) :
    SSorted (fun a b : Nat => decide (a < b))
      ((a.reverted.filter (fun p => !(a.seen.contains p.1.2) && !(s.contains p.1.2))).map (fun p => (p.1.1, p.2))) := by
  unfold SSorted
  rw [List.pairwise_map]
  have h1 : List.Pairwise (fun a b => pairLt a.1 b.1 = true)
    (a.reverted.filter (fun p => !(a.seen.contains p.1.2) && !(s.contains p.1.2))) :=
    List.Pairwise.sublist List.filter_sublist hb.revSorted
  refine List.Pairwise.imp_of_mem ?_ h1
  intro x y hx hy hxy
  have hx' := batch_reverted_mem hb hx
  have hy' := batch_reverted_mem hb hy
  simp only [decide_eq_true_eq]
  by_contra hle
  simp only [pairLt, Bool.or_eq_true, Bool.and_eq_true, decide_eq_true_eq, beq_iff_eq] at hxy
  have h2 : x.1.1 = y.1.1 ∧ x.1.2 < y.1.2 := by
    rcases hxy with h | h
    · exact absurd h hle
    · exact h
  have h3 := hx'.2.2.1
  rw [h2.1, hy'.2.2.1] at h3
  have h4 := Option.some.inj h3
  rw [hx'.2.1, hy'.2.1, h4] at h2
  omega

/-- **C06 (what holds for every batch).** If a batch reports an unchanged tip, the active chain is unchanged.  If it reports
a changed tip, then `connected` is what `iter()` lists above some height `n` up to which the old and the new chain agree, and
it contains every header that became active; `reverted` lists, in descending order, only headers that were active before and
are not any more; the tip triple is the new tip.  (Missing from the full claim: `reverted` lists *all* of them, and
`connected` *only* newly active ones; see `C06_batch_report` for when that holds and `C06_incomplete_report` for a batch
where it does not.) -/
theorem C06_batch_report_partial (ha : Acyclic cfg U) (cf : CollisionFree cfg U) (hg : cfg.genesisHash = cfg.hash g)
    (hr : Reach cfg U g fail s) {hs : List (Header × Env)} (hu : ∀ p ∈ hs, U p.1 ∧ EnvOk fail p.2)
    {s' : State} {r : ImportResult} (hi : importBlocks cfg s hs = (s', .ok r)) :
    match r with
    | .tipUnchanged => s'.iter = s.iter
    | .tipChanged header hash height reverted connected =>
      (∃ n, n ≤ s.height ∧ n < s'.height ∧ s'.iter.take (n + 1) = s.iter.take (n + 1) ∧
        connected = s'.iter.drop (n + 1)) ∧
      (∀ p ∈ s'.iter, s.contains (cfg.hash p.2) = false → p ∈ connected) ∧
      (∀ p ∈ reverted, p ∈ s.iter ∧ s'.contains (cfg.hash p.2) = false) ∧
      reverted.Pairwise (fun a b => b.1 < a.1) ∧
      s'.tip cfg = (hash, header) ∧ s'.height = height := by
  have i0 := (reach_inv ha hg hr).1
  obtain ⟨a, hl, hcase⟩ := importBlocks_ok hi
  obtain ⟨i1, m, hb⟩ := batch_loop (ex := False) ha cf i0 hs i0 (batch_init i0 _)
    (fun p hp => ⟨(hu p hp).1, (hu p hp).2.1⟩) (fun h => h.elim) hl
  have hv0 := view_of_inv i0
  have hv1 := view_of_inv i1
  rcases hcase with ⟨hc, rfl⟩ | ⟨hc, rfl⟩
  · have hh := hb.empty hc
    show s'.iter = s.iter
    apply List.ext_getElem?
    intro i
    rw [hv1.iter, hv0.iter, getByHeight_headers, getByHeight_headers, hh]
  · simp only
    rw [batch_connected ha cf i1 hb]
    refine ⟨⟨m, hb.le0, hb.strict hc, take_eq_of_agree hv0 hv1 hb.agree, rfl⟩, ?_, ?_, ?_, ?_, hb.tip.1.symm⟩
    · intro p hp hn
      rw [mem_iter hv1] at hp
      rw [mem_iter_drop hv1]
      refine ⟨?_, hp⟩
      by_contra hle
      rw [hb.agree p.1 (by omega)] at hp
      exact not_contains i0 hn hp rfl
    · intro p hp
      rw [List.mem_map] at hp
      obtain ⟨q, hq, rfl⟩ := hp
      rw [List.mem_reverse] at hq
      have := batch_reverted_mem hb hq
      exact ⟨(mem_iter hv0 _).2 this.2.2.1, this.2.2.2⟩
    · rw [List.map_reverse, List.pairwise_reverse]
      have := batch_reverted_sorted hb
      unfold SSorted at this
      simpa using this
    · rw [hb.tip.2.1, hb.tip.2.2]; rfl

/-- **C06 (exact report).** If during the batch no header of the old chain is activated again after having left it (in
particular for single headers and for batches with at most one re-organisation), the report is exact: old and new chain
agree up to a height `n`, `connected` is the new chain above `n`, `reverted` is the old chain above `n` in descending order,
no connected header was active before and no reverted one is active now. -/
theorem C06_batch_report (ha : Acyclic cfg U) (cf : CollisionFree cfg U) (hg : cfg.genesisHash = cfg.hash g)
    (hr : Reach cfg U g fail s) {hs : List (Header × Env)} (hu : ∀ p ∈ hs, U p.1 ∧ EnvOk fail p.2)
    (hn : NeverReconnects cfg s s hs) {s' : State} {r : ImportResult} (hi : importBlocks cfg s hs = (s', .ok r)) :
    match r with
    | .tipUnchanged => s'.iter = s.iter
    | .tipChanged header hash height reverted connected =>
      (∃ n, n ≤ s.height ∧ n < s'.height ∧ s'.iter.take (n + 1) = s.iter.take (n + 1) ∧
        reverted = (s.iter.drop (n + 1)).reverse ∧ connected = s'.iter.drop (n + 1)) ∧
      (∀ p ∈ connected, s.contains (cfg.hash p.2) = false) ∧
      (∀ p ∈ reverted, s'.contains (cfg.hash p.2) = false) ∧
      s'.tip cfg = (hash, header) ∧ s'.height = height := by
  have i0 := (reach_inv ha hg hr).1
  have hpart := C06_batch_report_partial ha cf hg hr hu hi
  obtain ⟨a, hl, hcase⟩ := importBlocks_ok hi
  obtain ⟨i1, m, hb⟩ := batch_loop (ex := True) ha cf i0 hs i0 (batch_init i0 _)
    (fun p hp => ⟨(hu p hp).1, (hu p hp).2.1⟩) (fun _ => hn) hl
  have hv0 := view_of_inv i0
  have hv1 := view_of_inv i1
  rcases hcase with ⟨hc, rfl⟩ | ⟨hc, rfl⟩
  · exact hpart
  · obtain ⟨-, -, p3, -, p5, p6⟩ := hpart
    simp only
    refine ⟨⟨m, hb.le0, hb.strict hc, take_eq_of_agree hv0 hv1 hb.agree, ?_, batch_connected ha cf i1 hb⟩, ?_,
      fun p hp => (p3 p hp).2, p5, p6⟩
    · rw [List.map_reverse]
      congr 1
      refine SSorted.ext natLt_total (batch_reverted_sorted hb) (iter_drop_sorted _ _) ?_
      intro p
      rw [mem_iter_drop hv0, List.mem_map]
      constructor
      · rintro ⟨q, hq, rfl⟩
        obtain ⟨h1, h2, h3, h4⟩ := batch_reverted_mem hb hq
        refine ⟨?_, h3⟩
        by_contra hle
        have hle : q.1.1 ≤ m := by simp only at hle; omega
        rw [← hb.agree _ hle] at h3
        exact not_contains i1 h4 h3 rfl
      · rintro ⟨h1, h2⟩
        refine ⟨((p.1, cfg.hash p.2), p.2), ?_, rfl⟩
        rw [List.mem_filter]
        refine ⟨(hb.left p.1 p.2 h2).resolve_left (hb.gone trivial p.1 p.2 h1 h2), ?_⟩
        simp only [Bool.and_eq_true, Bool.not_eq_true', List.contains_eq_mem, decide_eq_false_iff_not]
        refine ⟨fun hs => hb.seenNew trivial _ hs _ _ h2 rfl, ?_⟩
        rw [Bool.eq_false_iff]
        intro hc
        exact hb.gone trivial p.1 p.2 h1 h2 ((contains_iff_mem i1 ha cf (atHeight_active i0 h2)).1 hc)
    · intro p hp
      rw [batch_connected ha cf i1 hb, mem_iter_drop hv1] at hp
      rw [Bool.eq_false_iff]
      intro hc
      have := (contains_iff_mem i0 ha cf (atHeight_active i1 hp.2)).1 hc
      exact hb.gone trivial p.1 p.2 hp.1 this hp.2

theorem Scenario.collisionFree_of (l : List Header) (h : ∀ a ∈ l, ∀ b ∈ l, Scenario.cfg.hash a = Scenario.cfg.hash b → a = b) :
    CollisionFree Scenario.cfg (fun x => x ∈ l) := fun a b ha hb he => h a ha b hb he

/-- Fourth block of branch B. -/
def Scenario.b4 : Header := Scenario.mk 24 23 501 10

/-- Non-vacuity: a batch of two headers, one completing the re-organisation of the example tree, one extending it; the
headers presented do not collide, and no header of the old chain is re-activated. -/
example : NeverReconnects Scenario.cfg Scenario.sAB Scenario.sAB [(Scenario.b3, Scenario.e), (Scenario.b4, Scenario.eRev)] ∧
    (importBlocks Scenario.cfg Scenario.sAB [(Scenario.b3, Scenario.e), (Scenario.b4, Scenario.eRev)]).2 =
      .ok (.tipChanged Scenario.b4 24 4 [(2, Scenario.a2), (1, Scenario.a1)]
        [(1, Scenario.b1), (2, Scenario.b2), (3, Scenario.b3), (4, Scenario.b4)]) ∧
    CollisionFree Scenario.cfg (fun x => x ∈ [Scenario.a1, Scenario.a2, Scenario.b1, Scenario.b2, Scenario.b3, Scenario.b4]) :=
  ⟨by decide, by decide, Scenario.collisionFree_of _ (by decide)⟩

/-- A single header can never re-activate a header of the old chain. -/
theorem neverReconnects_singleton (x : Header) (e : Env) : NeverReconnects cfg s s [(x, e)] :=
  ⟨fun _ h _ => h, trivial⟩

/-- Tree with the single block `a1` on top of genesis. -/
def Scenario.sA : State := (importBlocks Scenario.cfg (new Scenario.cfg Scenario.g [Scenario.g]) [(Scenario.a1, Scenario.e)]).1

/-- **C06 fails in general** (defect of the code): a batch that re-organises to B, back to A and to B again does not report
the reverted header `a1` of the old chain; and one that re-organises away and back reports the header `a1`, which was active
before and is active after, as connected. -/
theorem C06_incomplete_report :
    (∃ s' r c, importBlocks Scenario.cfg Scenario.sA ([Scenario.b1, Scenario.b2, Scenario.a2, Scenario.a3, Scenario.b3,
        Scenario.b4].map (fun h => (h, Scenario.e))) = (s', .ok (.tipChanged Scenario.b4 24 4 r c)) ∧
      (1, Scenario.a1) ∈ Scenario.sA.iter ∧ s'.contains 11 = false ∧ (1, Scenario.a1) ∉ r) ∧
    (∃ s' r c, importBlocks Scenario.cfg Scenario.sA ([Scenario.b1, Scenario.b2, Scenario.a2, Scenario.a3].map
        (fun h => (h, Scenario.e))) = (s', .ok (.tipChanged Scenario.a3 13 3 r c)) ∧
      (1, Scenario.a1) ∈ Scenario.sA.iter ∧ (1, Scenario.a1) ∈ c) :=
  ⟨⟨_, _, _, rfl, by decide, by decide, by decide⟩, ⟨_, _, _, rfl, by decide, by decide⟩⟩

/-! ## C01 — no panics -/

theorem importLoop_no_panic (hc : cfg.checked = false) (ha : Acyclic cfg U) :
    ∀ (hs : List (Header × Env)) {s : State} {a : Acc} {i : Nat}, TreeInv cfg U g s →
      (∀ p ∈ hs, U p.1 ∧ p.2.Fair) → (importLoop cfg s a i hs).2 ≠ .panic
  | [], s, a, i, _, _ => by simp [importLoop]
  | (x, e) :: hs, s, a, i, hi, hu => by
    have hue := hu _ List.mem_cons_self
    have hu' : ∀ p ∈ hs, U p.1 ∧ p.2.Fair := fun p hp => hu p (List.mem_cons_of_mem _ hp)
    obtain ⟨s1, r, e1, i1, o1⟩ := importBlock_spec ha hi hue.2 hue.1
    simp only [importLoop, e1]
    cases r with
    | panic =>
      cases o1 with
      | panic h => simp [hc] at h
      | selected _ _ _ _ _ o =>
        cases o with
        | panic h => simp [hc] at h
    | ok y => cases y <;> exact importLoop_no_panic hc ha hs i1 hu'
    | err er => cases er <;> first | exact importLoop_no_panic hc ha hs i1 hu' | simp

/-- **C01 (no panic).** With wrapping integer arithmetic (release build) no `import_blocks` call on a reachable tree panics,
whatever headers it is given: none of the `expect`, `unwrap`, `assert`, slice and `NonEmpty` operations on the way fails. -/
theorem C01_import_no_panic (hc : cfg.checked = false) (ha : Acyclic cfg U) (cf : CollisionFree cfg U)
    (hg : cfg.genesisHash = cfg.hash g) (hr : Reach cfg U g fail s) {hs : List (Header × Env)}
    (hu : ∀ p ∈ hs, U p.1 ∧ EnvOk fail p.2) : (importBlocks cfg s hs).2 ≠ .panic := by
  have i0 := (reach_inv ha hg hr).1
  have hu' : ∀ p ∈ hs, U p.1 ∧ p.2.Fair := fun p hp => ⟨(hu p hp).1, (hu p hp).2.1⟩
  unfold importBlocks
  simp only
  split
  · rename_i s1 a heq
    obtain ⟨i1, m, hb⟩ := batch_loop (ex := False) ha cf i0 hs i0 (batch_init i0 _) hu' (fun h => h.elim) heq
    split
    · simp
    · rename_i hne
      have hc : a.connected ≠ [] := by simpa using hne
      rw [batch_connected ha cf i1 hb]
      have hlt := hb.strict hc
      have hlen : s1.iter.drop (m + 1) ≠ [] := by
        obtain ⟨h, h1, -⟩ := (view_of_inv i1).tip
        intro hnil
        have : (s1.height, h) ∈ s1.iter.drop (m + 1) := (mem_iter_drop (view_of_inv i1) _ _).2 ⟨hlt, h1⟩
        rw [hnil] at this; simp at this
      simp only [List.isEmpty_iff, hlen, ite_false]
      simp
  · simp
  · rename_i s1 heq
    exact absurd (congrArg Prod.snd heq) (importLoop_no_panic hc ha hs i0 hu')

/-- **C01 (no panic).** The same for `extend_tip`. -/
theorem C01_extend_no_panic (hc : cfg.checked = false) (ha : Acyclic cfg U) (hg : cfg.genesisHash = cfg.hash g)
    (hr : Reach cfg U g fail s) {e : Env} {x : Header} (hu : U x) : (extendTip cfg e s x).2 ≠ .panic := by
  obtain ⟨s', r, e1, i1, ho⟩ := extendTip_spec ha (reach_inv ha hg hr).1 e hu
  rw [e1]
  rcases ho with ⟨-, h, -⟩ | ⟨_, rfl, -⟩ | ⟨rfl, -⟩ | ⟨rfl, -⟩ | ⟨rfl, -⟩
  · simp [hc] at h
  all_goals simp

/-- In a debug build (overflow checks on) a header can panic the node: a parent time close to `2^32` on a network with minimum
difficulty blocks. -/
theorem C01_debug_build_can_panic : ∃ (cfg : Cfg) (e : Env) (s : State) (h : Header), cfg.checked = true ∧
    (importBlock cfg e s h).2 = .panic :=
  ⟨{ Scenario.cfg with checked := true, allowMin := true }, Scenario.e,
    new { Scenario.cfg with checked := true, allowMin := true } (Scenario.mk 1 0 (2 ^ 32 - 1) 1) [],
    Scenario.mk 2 1 5 1, rfl, by decide⟩

end Verif.Chain
