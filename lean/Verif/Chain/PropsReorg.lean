import Verif.Chain.PropsHeaviest
import Verif.Chain.PropsOrder

/-!
# A heavier fork is followed: C124, over a whole delivery
-/

set_option autoImplicit false

namespace Verif.Chain
open AMap

variable {cfg : Cfg} {U : Header → Prop} {g : Header} {s : State} {fail : Bool}

/-! ## Paths -/

theorem path_prev_rank {hash : Header → Nat} {rank : Nat → Nat} : ∀ {l : List Header} {a b : Nat}, Path hash a l b →
    (∀ h ∈ l, rank h.prev < rank (hash h)) → ∀ y ∈ l, rank a ≤ rank y.prev
  | x :: l, a, b, hp, hr, y, hy => by
    have h1 : rank x.prev = rank a := by rw [hp.1]
    rcases List.mem_cons.1 hy with rfl | hy
    · omega
    · have := path_prev_rank hp.2 (fun z hz => hr z (List.mem_cons_of_mem _ hz)) y hy
      have := hr x List.mem_cons_self
      omega

/-- Linked headers out of a linked list are a beginning of it. -/
theorem prefix_of_path {hash : Header → Nat} {rank : Nat → Nat} : ∀ {hs L : List Header} {a t u : Nat}, Path hash a hs t →
    Path hash a L u → (∀ h ∈ hs, rank h.prev < rank (hash h)) → (∀ x ∈ L, x ∈ hs) → L <+: hs
  | _, [], _, _, _, _, _, _, _ => List.nil_prefix
  | [], y :: L, _, _, _, _, _, _, hm => absurd (hm y List.mem_cons_self) (by simp)
  | x :: hs, y :: L, a, t, u, hp, hq, hr, hm => by
    have hr' : ∀ h ∈ hs, rank h.prev < rank (hash h) := fun z hz => hr z (List.mem_cons_of_mem _ hz)
    have hx := hr x List.mem_cons_self
    have hxy : y = x := by
      rcases List.mem_cons.1 (hm y List.mem_cons_self) with h | h
      · exact h
      · have h1 := path_prev_rank hp.2 hr' y h
        rw [hq.1] at h1
        rw [hp.1] at hx
        omega
    subst hxy
    refine (List.cons_prefix_cons).2 ⟨rfl, prefix_of_path hp.2 hq.2 hr' ?_⟩
    intro z hz
    have hrL : ∀ h ∈ L, rank h.prev < rank (hash h) := fun w hw => hr w (hm w (List.mem_cons_of_mem _ hw))
    have h1 := ((path_rank hq.2 hrL).1 z hz).1
    rcases List.mem_cons.1 (hm z (List.mem_cons_of_mem _ hz)) with h | h
    · rw [h] at h1; omega
    · exact h

theorem path_mem_split {hash : Header → Nat} : ∀ {l : List Header} {a b : Nat} {x : Header}, Path hash a l b → x ∈ l →
    (x = l.head?.getD x ∧ x.prev = a) ∨ ∃ y ∈ l, x.prev = hash y
  | z :: l, a, b, x, hp, hx => by
    rcases List.mem_cons.1 hx with rfl | hx
    · exact .inl ⟨rfl, hp.1⟩
    · rcases path_mem_split hp.2 hx with ⟨-, h⟩ | ⟨y, hy, h⟩
      · exact .inr ⟨z, List.mem_cons_self, h⟩
      · exact .inr ⟨y, List.mem_cons_of_mem _ hy, h⟩

/-! ## The state while the fork is delivered -/

/-- What is delivered: on top of the block `b` at height `n` of the active chain of `s₀`, the headers `hs`; none of them is known,
and nothing else but the active chain is. -/
structure Delivery (cfg : Cfg) (U : Header → Prop) (s₀ : State) (n : Nat) (b : Header) (hs : List Header) : Prop where
  base : s₀.getByHeight n = some b
  checkpoint : ∀ p ∈ cfg.checkpoints, p.1 ≤ s₀.height → p.1 ≤ n
  noStale : ∀ k, s₀.orphans.get k = none
  unknown : ∀ x ∈ hs, s₀.isKnown (cfg.hash x) = false
  univ : ∀ x ∈ hs, U x
  work : ∀ x ∈ hs, 0 < cfg.work x.bits
  short : hs.length ≤ cfg.interval
  later : ∀ x ∈ hs, ∀ y ∈ s₀.headers.drop (n + 1), y.time < x.time

/-- The state after the headers `pre` of the fork have been delivered: still on the old chain, which has at least their work,
or on the fork. -/
def Midway (cfg : Cfg) (U : Header → Prop) (g : Header) (s₀ : State) (n : Nat) (s : State) (pre : List Header) : Prop :=
  TreeInv cfg U g s ∧
  ((s.headers = s₀.headers ∧ (∀ k x, s.orphans.get k = some x ↔ x ∈ pre ∧ cfg.hash x = k) ∧
      totalWork cfg pre ≤ totalWork cfg (s₀.headers.drop (n + 1))) ∨
    (s.headers = s₀.headers.take (n + 1) ++ pre ∧ (∀ k x, s.orphans.get k = some x → x ∈ s₀.headers.drop (n + 1)) ∧
      totalWork cfg (s₀.headers.drop (n + 1)) ≤ totalWork cfg pre))

theorem index_mem (hi : TreeInv cfg U g s) {x : Header} : s.index.get (cfg.hash x) ≠ none ↔ ∃ y ∈ s.headers, cfg.hash y = cfg.hash x := by
  constructor
  · intro h
    cases hq : s.index.get (cfg.hash x) with
    | none => exact absurd hq h
    | some m =>
      obtain ⟨b, hb, hh⟩ := (hi.index _ _).1 hq
      exact ⟨b.header, List.mem_map.2 ⟨b, List.mem_of_getElem? hb, rfl⟩, hh⟩
  · rintro ⟨y, hy, hh⟩ hn
    rw [hi.contains_iff] at hn
    exact hn y hy hh

theorem headers_get_unique (hi : TreeInv cfg U g s) {i j : Nat} {x y : Header} (hx : s.headers[i]? = some x)
    (hy : s.headers[j]? = some y) (he : cfg.hash x = cfg.hash y) : i = j := by
  rw [← getByHeight_headers] at hx hy
  have h1 := (hi.index (cfg.hash x) i).2 ⟨_, getByHeight_blk hi hx, rfl⟩
  have h2 := (hi.index (cfg.hash y) j).2 ⟨_, getByHeight_blk hi hy, rfl⟩
  rw [he, h2] at h1
  exact (Option.some.inj h1).symm

theorem totalWork_prefix {L hs : List Header} (h : L <+: hs) : totalWork cfg L ≤ totalWork cfg hs := by
  obtain ⟨r, rfl⟩ := h
  rw [totalWork_append]; omega

theorem prefix_eq_of_work {L hs : List Header} (h : L <+: hs) (hpos : ∀ x ∈ hs, 0 < cfg.work x.bits)
    (hw : totalWork cfg hs ≤ totalWork cfg L) : L = hs := by
  obtain ⟨r, rfl⟩ := h
  rw [totalWork_append] at hw
  cases r with
  | nil => simp
  | cons x r =>
    have := hpos x (by simp)
    simp only [totalWork, List.map_cons, List.sum_cons] at hw
    omega

theorem lostOf_eq (s : State) (c : Candidate) :
    lostOf cfg s c = totalWork cfg (s.headers.drop (c.forkHeight + 1)) := by
  simp [lostOf, branchWork, totalWork, State.headers, State.chain]

theorem switched_headers (hi : TreeInv cfg U g s) {s' : State} (hi' : TreeInv cfg U g s') {c : Candidate}
    (hsw : Switched cfg s c s') : s'.headers = s.headers.take (c.forkHeight + 1) ++ c.headers := by
  rw [hi'.headers_eq, hi.headers_eq, hsw.above, List.take_succ_cons, List.cons_append]

/-- One more header of the fork. -/
theorem midway_step (hc : cfg.checked = false) (hp : ParamsOK cfg) (hmin : cfg.allowMin = false) (ha : Acyclic cfg U)
    {s₀ : State} {n : Nat} {b : Header} {hs : List Header} (h0 : TreeInv cfg U g s₀)
    (hd : Delivery cfg U s₀ n b hs) {pre post : List Header} {h : Header}
    (heq : hs = pre ++ h :: post) (hm : Midway cfg U g s₀ n s pre) {e : Env} (he : EnvOk false e)
    (hv : ValidBeyond cfg e.clock (s₀.headers.take (n + 1)) hs) (hw : NoWrapBeyond cfg e.clock (s₀.headers.take (n + 1)) hs) :
    ∃ s' r, importBlock cfg e s h = (s', .ok r) ∧ Midway cfg U g s₀ n s' (pre ++ [h]) := by
  obtain ⟨hi, hm⟩ := hm
  have hmem : h ∈ hs := by rw [heq]; simp
  have hpm : ∀ x ∈ pre, x ∈ hs := by intro x hx; rw [heq]; simp [hx]
  have hu := hd.univ h hmem
  have hunk := isKnown_false.1 (hd.unknown h hmem)
  obtain ⟨hn, hbase⟩ := take_base hd.base
  obtain ⟨rank, hrank⟩ := id ha
  -- the fork is linked
  have hpath := hv.path hbase _ (by rw [List.getLast?_eq_getLast_of_ne_nil (by simp)])
  have hrk : ∀ x ∈ hs, rank x.prev < rank (cfg.hash x) := fun x hx => hrank x (hd.univ x hx)
  have hpath1 : ∃ t, Path cfg.hash (cfg.hash b) (pre ++ [h]) t := by
    have : hs = (pre ++ [h]) ++ post := by rw [heq]; simp
    rw [this, path_append] at hpath
    exact ⟨_, hpath.choose_spec.1⟩
  obtain ⟨t1, hpath1⟩ := hpath1
  have hpre : ∃ t, Path cfg.hash (cfg.hash b) pre t ∧ h.prev = t := by
    obtain ⟨t, h1, h2⟩ := path_append.1 hpath1
    exact ⟨t, h1, h2.1⟩
  obtain ⟨tp, hpathp, hprev⟩ := hpre
  have hnotpre : ∀ x ∈ pre, cfg.hash x ≠ cfg.hash h := by
    intro x hx hxe
    have h1 := ((path_rank hpathp (fun y hy => hrk y (hpm y hy))).1 x hx).2
    have h2 := hrk h hmem
    rw [hprev, ← hxe] at h2
    omega
  -- indices of the old chain
  have hS : ∀ x ∈ hs, ∀ y ∈ s₀.headers, cfg.hash y ≠ cfg.hash x := by
    intro x hx y hy hxy
    have := (isKnown_false.1 (hd.unknown x hx)).1
    exact (index_mem h0 (x := x)).2 ⟨y, hy, hxy⟩ this
  have hvp : ValidBeyond cfg e.clock (s₀.headers.take (n + 1)) (pre ++ [h]) := by
    intro i x hx
    have hle : i < (pre ++ [h]).length := (List.getElem?_eq_some_iff.1 hx).1
    have h1 : hs = (pre ++ [h]) ++ post := by rw [heq]; simp
    have h2 := hv i x (by rw [h1, List.getElem?_append_left hle]; exact hx)
    rwa [h1, List.take_append_of_le_length (by omega)] at h2
  have hwp : NoWrapBeyond cfg e.clock (s₀.headers.take (n + 1)) (pre ++ [h]) := by
    intro i hi'
    have h1 : hs = (pre ++ [h]) ++ post := by rw [heq]; simp
    have h2 := hw i (by rw [h1, List.length_append]; omega)
    rwa [h1, List.take_append_of_le_length (by omega)] at h2
  rcases hm with ⟨hh, ho, hwk⟩ | ⟨hh, ho, hwk⟩
  · -- still on the old chain
    have hb' : s.getByHeight n = some b := by rw [getByHeight_headers, hh, ← getByHeight_headers]; exact hd.base
    have hht : s.height = s₀.height := by
      have h1 := headers_length hi
      have h2 := headers_length h0
      rw [hh] at h1; omega
    have hcp : s.lastCheckpoint cfg ≤ n := by
      have : s.lastCheckpoint cfg = s₀.lastCheckpoint cfg := by unfold State.lastCheckpoint; rw [hht]
      rw [this]; exact lastCheckpoint_le_of hd.checkpoint
    have hnew : s.isKnown (cfg.hash h) = false := by
      rw [isKnown_false]
      constructor
      · by_contra hq
        obtain ⟨y, hy, hyh⟩ := (index_mem hi (x := h)).1 hq
        rw [hh] at hy
        exact hS h hmem y hy hyh
      · cases hq : s.orphans.get (cfg.hash h) with
        | none => rfl
        | some x =>
          have := (ho _ _).1 hq
          exact absurd this.2 (hnotpre x this.1)
    have hlen : (pre ++ [h]).length ≤ cfg.interval := by
      have := hd.short
      rw [heq] at this
      simp at this ⊢; omega
    rw [← hh] at hvp hwp
    have hlater : ∀ x ∈ pre ++ [h], ∀ y ∈ s.headers.drop (n + 1), y.time < x.time := by
      intro x hx y hy
      rw [hh] at hy
      refine hd.later x ?_ y hy
      rcases List.mem_append.1 hx with hx | hx
      · exact hpm x hx
      · rw [List.mem_singleton] at hx; rw [hx]; exact hmem
    obtain ⟨s', r, e1, i1, hbr, o⟩ := heaviest_step hc hp hmin ha hi he hu hb' hcp
      (fun x hx => (ho _ _).2 ⟨hx, rfl⟩) hnew hvp hwp hlen hlater
    refine ⟨s', r, e1, i1, ?_⟩
    have io : TreeInv cfg U g (s.withOrphan cfg h) := inv_insertOrphan hi hu (isKnown_false.1 hnew).1
    have hwo : ∀ k x, (s.withOrphan cfg h).orphans.get k = some x ↔ x ∈ pre ++ [h] ∧ cfg.hash x = k := by
      intro k x
      show (s.orphans.insert (cfg.hash h) h).get k = some x ↔ _
      rw [AMap.get_insert]
      by_cases hk : cfg.hash h = k
      · rw [if_pos hk]
        constructor
        · intro hx; cases hx; exact ⟨by simp, hk⟩
        · rintro ⟨hx, hxk⟩
          rcases List.mem_append.1 hx with hx | hx
          · exact absurd (hxk.trans hk.symm) (hnotpre x hx)
          · rw [List.mem_singleton] at hx; rw [hx]
      · rw [if_neg hk, ho]
        constructor
        · rintro ⟨hx, hxk⟩; exact ⟨by simp [hx], hxk⟩
        · rintro ⟨hx, hxk⟩
          rcases List.mem_append.1 hx with hx | hx
          · exact ⟨hx, hxk⟩
          · rw [List.mem_singleton] at hx; rw [hx] at hxk; exact absurd hxk hk
    have hlost : lostOf cfg (s.withOrphan cfg h) ⟨cfg.hash h, pre ++ [h], n, b⟩ = totalWork cfg (s₀.headers.drop (n + 1)) := by
      rw [lostOf_eq]
      show totalWork cfg (s.headers.drop (n + 1)) = _
      rw [hh]
    have hgain : gainOf cfg ⟨cfg.hash h, pre ++ [h], n, b⟩ = totalWork cfg (pre ++ [h]) := rfl
    cases o with
    | unchanged hall =>
      left
      refine ⟨hh, hwo, ?_⟩
      have := (hall _ hbr).1
      rw [hlost, hgain] at this
      exact this
    | changed c hvb f1 f2 hsw hlst hst hmax hbetter =>
      right
      have hbc := hvb.1
      have hin : ∀ x ∈ c.headers, x ∈ pre ++ [h] := fun x hx => ((hwo _ _).1 (hbc.stale x hx)).1
      -- the first header of the candidate is the first of the fork
      have hfork : c.forkHeight = n ∧ cfg.hash c.forkHeader = cfg.hash b := by
        cases hq : c.headers with
        | nil => exact absurd hq hbc.nonempty
        | cons x xs =>
          have hpq := hbc.path
          rw [hq] at hpq
          have hx := hin x (by rw [hq]; simp)
          have hidx : (s.withOrphan cfg h).index.get x.prev = some c.forkHeight := by
            rw [hpq.1]; exact (io.index _ _).2 ⟨_, hbc.forkBlk, rfl⟩
          rcases path_mem_split hpath1 hx with ⟨-, h1⟩ | ⟨y, hy, h1⟩
          · have h2 : (s.withOrphan cfg h).index.get (cfg.hash b) = some n := (hi.index _ _).2 ⟨_, getByHeight_blk hi hb', rfl⟩
            rw [h1, h2] at hidx
            refine ⟨(Option.some.inj hidx).symm, ?_⟩
            rw [← hpq.1, h1]
          · have h2 := (io.orphans _ _ ((hwo _ _).2 ⟨hy, rfl⟩)).2.2
            rw [h1, h2] at hidx
            cases hidx
      have hpc := hbc.path
      rw [hfork.2] at hpc
      have hpx := prefix_of_path (rank := rank) hpath1 hpc (fun x hx => hrk x (by
        rcases List.mem_append.1 hx with hx | hx
        · exact hpm x hx
        · rw [List.mem_singleton] at hx; rw [hx]; exact hmem)) hin
      have hlc : lostOf cfg (s.withOrphan cfg h) c = totalWork cfg (s₀.headers.drop (n + 1)) := by
        rw [lostOf_eq, hfork.1]
        show totalWork cfg (s.headers.drop (n + 1)) = _
        rw [hh]
      have hgc : gainOf cfg c = totalWork cfg c.headers := rfl
      have hmx := (hmax _ hbr).1
      rw [hlost, hlc, hgain, hgc] at hmx
      have hch : c.headers = pre ++ [h] := prefix_eq_of_work hpx (by
        intro x hx
        refine hd.work x ?_
        rcases List.mem_append.1 hx with hx | hx
        · exact hpm x hx
        · rw [List.mem_singleton] at hx; rw [hx]; exact hmem) (by omega)
      refine ⟨?_, ?_, ?_⟩
      · rw [switched_headers io i1 hsw, hch, hfork.1]
        show s.headers.take (n + 1) ++ _ = _
        rw [hh]
      · intro k x hx
        obtain ⟨h1, h2⟩ := (hsw.orphans k x).1 hx
        rcases h2 with ⟨bl, hbl, -, rfl⟩ | h2
        · rw [← hh]
          show bl.header ∈ (s.chain.map (·.header)).drop (n + 1)
          rw [← List.map_drop]
          refine List.mem_map.2 ⟨bl, ?_, rfl⟩
          rw [hfork.1] at hbl
          exact hbl
        · obtain ⟨h3, h4⟩ := (hwo k x).1 h2
          refine absurd ?_ h1
          rw [hch]
          exact List.mem_map.2 ⟨x, h3, h4⟩
      · rw [hlc, hgc, hch] at hbetter
        rcases hbetter with h | ⟨-, h, -⟩ <;> omega
  · -- on the fork
    have hlenp : (s₀.headers.take (n + 1)).length = n + 1 := by simp; omega
    have hnx : ValidNext cfg e.clock s.headers h := by
      have := hvp pre.length h (by simp)
      rw [List.take_left] at this
      rw [hh]; exact this
    have hnw : NoWrap cfg e.clock s.headers := by
      have := hwp pre.length (by simp)
      rw [List.take_left] at this
      rw [hh]; exact this
    have hok : s.orphans.get (cfg.hash h) = none := by
      cases hq : s.orphans.get (cfg.hash h) with
      | none => rfl
      | some x =>
        have h1 := ho _ _ hq
        exact absurd (hi.orphans _ _ hq).1 (hS h hmem x (List.mem_of_mem_drop h1))
    obtain ⟨s', c, e1, i1, hbc, hsw, hlst, hwk'⟩ := accept_outcome hc hp ha hi he hu hnw hnx hok (hd.work h hmem)
    refine ⟨s', _, e1, i1, .inr ?_⟩
    have hidxh : s.index.get (cfg.hash h) = none := by
      obtain ⟨l, hl, hlp⟩ := hnx.linked
      rw [headers_last] at hl
      cases hl
      exact not_active ha hi hu hlp
    have io : TreeInv cfg U g (s.withOrphan cfg h) := inv_insertOrphan hi hu hidxh
    have hin : ∀ x ∈ c.headers, x = h ∨ x ∈ s₀.headers.drop (n + 1) := by
      intro x hx
      have := hbc.stale x hx
      simp only [State.withOrphan, AMap.get_insert] at this
      split at this
      · exact .inl (Option.some.inj this).symm
      · exact .inr (ho _ _ this)
    have hforkmem : c.forkHeader ∈ s.headers := List.mem_map.2 ⟨_, List.mem_of_getElem? hbc.forkBlk, rfl⟩
    have hlastp : h.prev = cfg.hash s.last.header := by
      obtain ⟨l, hl, hlp⟩ := hnx.linked
      rw [headers_last] at hl
      cases hl
      exact hlp
    -- hashes of the old part are not active
    have hold : ∀ (i : Nat) (x : Header), n + 1 ≤ i → s₀.headers[i]? = some x → ∀ y ∈ s.headers, cfg.hash y ≠ cfg.hash x := by
      intro i x hin hx y hy hxy
      rw [hh] at hy
      rcases List.mem_append.1 hy with hy | hy
      · obtain ⟨j, hj⟩ := List.getElem?_of_mem hy
        rw [List.getElem?_take] at hj
        split at hj
        · have := headers_get_unique h0 hj hx hxy
          omega
        · cases hj
      · exact hS y (hpm y hy) x (List.mem_of_getElem? hx) hxy.symm
    by_cases hhc : h ∈ c.headers
    · -- the candidate is the new header alone
      have hone : c.headers = [h] ∧ c.forkHeight = n + pre.length := by
        cases hq : c.headers with
        | nil => exact absurd hq hbc.nonempty
        | cons x xs =>
          have hpq := hbc.path
          rw [hq] at hpq hhc
          have hxh : x = h := by
            by_contra hne
            have hmx : h ∈ xs := by
              rcases List.mem_cons.1 hhc with h1 | h1
              · exact absurd h1.symm hne
              · exact h1
            have : ∃ y ∈ x :: xs, h.prev = cfg.hash y := by
              rcases path_mem_split hpq.2 hmx with ⟨-, h1⟩ | ⟨y, hy, h1⟩
              · exact ⟨x, List.mem_cons_self, h1⟩
              · exact ⟨y, List.mem_cons_of_mem _ hy, h1⟩
            obtain ⟨y, hy, h1⟩ := this
            have h2 := (io.orphans _ _ (hbc.stale y (by rw [hq]; exact hy))).2.2
            rw [← h1, hlastp] at h2
            have h3 : (s.withOrphan cfg h).index.get (cfg.hash s.last.header) = some s.height := index_last io
            rw [h3] at h2
            cases h2
          subst hxh
          constructor
          · cases xs with
            | nil => rfl
            | cons y ys =>
              exfalso
              have hy := hin y (by rw [hq]; simp)
              rcases hy with rfl | hy
              · have := hrk y hmem
                rw [hpq.2.1] at this
                omega
              · obtain ⟨j, hj⟩ := List.getElem?_of_mem hy
                rw [List.getElem?_drop] at hj
                -- the parent of `y` is in the old chain
                have : ∃ z ∈ s₀.headers, y.prev = cfg.hash z := by
                  have hym : y ∈ s₀.above := by
                    rw [h0.headers_eq, List.drop_succ_cons] at hy
                    exact List.mem_of_mem_drop hy
                  rcases path_mem_split h0.path hym with ⟨-, h1⟩ | ⟨z, hz, h1⟩
                  · exact ⟨g, by rw [h0.headers_eq]; simp, h1⟩
                  · exact ⟨z, by rw [h0.headers_eq]; simp [hz], h1⟩
                obtain ⟨z, hz, h1⟩ := this
                rw [hpq.2.1] at h1
                exact hS x hmem z hz h1.symm
          · have h1 : (s.withOrphan cfg x).index.get (cfg.hash c.forkHeader) = some c.forkHeight :=
              (io.index _ _).2 ⟨_, hbc.forkBlk, rfl⟩
            have h2 : (s.withOrphan cfg x).index.get (cfg.hash s.last.header) = some s.height := index_last io
            rw [← hpq.1, hlastp, h2] at h1
            have h3 := headers_length hi
            rw [hh, List.length_append, hlenp] at h3
            have := Option.some.inj h1
            omega
      refine ⟨?_, ?_, ?_⟩
      · rw [switched_headers io i1 hsw, hone.1, hone.2]
        show s.headers.take (n + pre.length + 1) ++ [h] = _
        rw [hh, List.take_of_length_le (by rw [List.length_append, hlenp]; omega), List.append_assoc]
      · intro k x hx
        obtain ⟨h1, h2⟩ := (hsw.orphans k x).1 hx
        rcases h2 with ⟨bl, hbl, -, rfl⟩ | h2
        · exfalso
          have h3 : s.tail.drop c.forkHeight = [] := by
            apply List.drop_of_length_le
            have h4 := headers_length hi
            rw [hh, List.length_append, hlenp] at h4
            have h5 := hi.height_eq
            rw [hone.2]
            omega
          have h4 : bl ∈ s.tail.drop c.forkHeight := hbl
          rw [h3] at h4
          cases h4
        · simp only [State.withOrphan, AMap.get_insert] at h2
          split at h2
          · rename_i hk
            refine absurd ?_ h1
            rw [hone.1, ← hk]
            simp
          · exact ho _ _ h2
      · rw [totalWork_append]; omega
    · -- back to the old chain: less work
      exfalso
      have hin' : ∀ x ∈ c.headers, x ∈ s₀.headers.drop (n + 1) := by
        intro x hx
        rcases hin x hx with rfl | h1
        · exact absurd hx hhc
        · exact h1
      have hsplit : ∃ t, Path cfg.hash (cfg.hash b) (s₀.headers.drop (n + 1)) t := by
        have h1 := h0.path
        have h2 : s₀.headers.drop (n + 1) = s₀.above.drop n := by rw [h0.headers_eq, List.drop_succ_cons]
        rw [← List.take_append_drop n s₀.above, path_append] at h1
        obtain ⟨m, h3, h4⟩ := h1
        have h5 : m = cfg.hash b := by
          have h6 : (g :: s₀.above.take n).getLast? = some b := by
            rw [← List.take_succ_cons, ← h0.headers_eq]; exact hbase
          cases hq : s₀.above.take n with
          | nil =>
            rw [hq] at h3 h6
            simp only [List.getLast?_singleton, Option.some.injEq] at h6
            rw [← h6]; exact h3.symm
          | cons z zs =>
            rw [hq] at h3 h6
            rw [List.getLast?_cons_cons] at h6
            exact (path_last h3 h6).symm
        rw [h2, ← h5]
        exact ⟨_, h4⟩
      obtain ⟨t0, hpo⟩ := hsplit
      have hro : ∀ x ∈ s₀.headers.drop (n + 1), rank x.prev < rank (cfg.hash x) := by
        intro x hx
        rw [h0.headers_eq, List.drop_succ_cons] at hx
        exact hrank x (h0.tailU x (List.mem_of_mem_drop hx))
      have hfork : c.forkHeight = n ∧ cfg.hash c.forkHeader = cfg.hash b := by
        cases hq : c.headers with
        | nil => exact absurd hq hbc.nonempty
        | cons x xs =>
          have hpq := hbc.path
          rw [hq] at hpq
          have hx := hin' x (by rw [hq]; simp)
          rcases path_mem_split hpo hx with ⟨-, h1⟩ | ⟨y, hy, h1⟩
          · have hbn : s.headers[n]? = some b := by
              rw [hh, List.getElem?_append_left (by rw [hlenp]; omega), List.getElem?_take, if_pos (by omega),
                ← getByHeight_headers]
              exact hd.base
            have hcf : s.headers[c.forkHeight]? = some c.forkHeader := by
              show (s.chain.map (·.header))[c.forkHeight]? = _
              rw [List.getElem?_map]
              have : s.chain[c.forkHeight]? = some ⟨c.forkHeight, c.forkHeader⟩ := hbc.forkBlk
              rw [this]; rfl
            have h2 : cfg.hash c.forkHeader = cfg.hash b := by rw [← hpq.1, h1]
            exact ⟨headers_get_unique hi hcf hbn h2, h2⟩
          · exfalso
            obtain ⟨j, hj⟩ := List.getElem?_of_mem hy
            rw [List.getElem?_drop] at hj
            refine hold (n + 1 + j) y (by omega) hj c.forkHeader hforkmem ?_
            rw [← hpq.1, h1]
      have hpc := hbc.path
      rw [hfork.2] at hpc
      have hpx := prefix_of_path (rank := rank) hpo hpc hro hin'
      have h1 := totalWork_prefix (cfg := cfg) hpx
      have h2 := switched_work io i1 hsw
      have h3 : (s.withOrphan cfg h).chainwork = s.chainwork := rfl
      have h4 : lostOf cfg (s.withOrphan cfg h) c = totalWork cfg pre := by
        rw [lostOf_eq, hfork.1]
        show totalWork cfg (s.headers.drop (n + 1)) = _
        rw [hh, List.drop_left' hlenp]
      have h5 : gainOf cfg c = totalWork cfg c.headers := rfl
      rw [h3, h4, h5] at h2
      have := hd.work h hmem
      omega

/-- Any number of headers of the fork, in one batch. -/
theorem midway_loop (hc : cfg.checked = false) (hp : ParamsOK cfg) (hmin : cfg.allowMin = false) (ha : Acyclic cfg U)
    {s₀ : State} {n : Nat} {b : Header} {hs : List Header} (h0 : TreeInv cfg U g s₀) (hd : Delivery cfg U s₀ n b hs) :
    ∀ (l : List (Header × Env)) (s : State) (a : Acc) (i : Nat) (pre post : List Header), hs = pre ++ l.map (·.1) ++ post →
      (∀ p ∈ l, EnvOk false p.2 ∧ ValidBeyond cfg p.2.clock (s₀.headers.take (n + 1)) hs ∧
        NoWrapBeyond cfg p.2.clock (s₀.headers.take (n + 1)) hs) →
      Midway cfg U g s₀ n s pre → Midway cfg U g s₀ n (importLoop cfg s a i l).1 (pre ++ l.map (·.1))
  | [], s, a, i, pre, post, _, _, hm => by simpa [importLoop] using hm
  | (h, e) :: l, s, a, i, pre, post, heq, hl, hm => by
    obtain ⟨h1, h2, h3⟩ := hl (h, e) List.mem_cons_self
    obtain ⟨s', r, e1, hm'⟩ := midway_step hc hp hmin ha h0 hd (post := l.map (·.1) ++ post) (h := h)
      (by rw [heq]; simp) hm h1 h2 h3
    have ih := fun a i => midway_loop hc hp hmin ha h0 hd l s' a i (pre ++ [h]) post (by rw [heq]; simp)
      (fun p hp' => hl p (List.mem_cons_of_mem _ hp')) hm'
    have happ : pre ++ List.map (·.1) ((h, e) :: l) = pre ++ [h] ++ l.map (·.1) := by simp
    rw [happ]
    unfold importLoop
    cases r with
    | tipUnchanged => simp only [e1]; exact ih _ _
    | tipChanged => simp only [e1]; exact ih _ _

/-- Any number of batches. -/
theorem midway_all (hc : cfg.checked = false) (hp : ParamsOK cfg) (hmin : cfg.allowMin = false) (ha : Acyclic cfg U)
    {s₀ : State} {n : Nat} {b : Header} {hs : List Header} (h0 : TreeInv cfg U g s₀) (hd : Delivery cfg U s₀ n b hs) :
    ∀ (bs : List (List (Header × Env))) (s : State) (pre : List Header), hs = pre ++ bs.flatten.map (·.1) →
      (∀ p ∈ bs.flatten, EnvOk false p.2 ∧ ValidBeyond cfg p.2.clock (s₀.headers.take (n + 1)) hs ∧
        NoWrapBeyond cfg p.2.clock (s₀.headers.take (n + 1)) hs) →
      Midway cfg U g s₀ n s pre → Midway cfg U g s₀ n (importAll cfg s bs) hs
  | [], s, pre, heq, _, hm => by
    simp only [List.flatten_nil, List.map_nil, List.append_nil] at heq
    rw [heq]; exact hm
  | l :: bs, s, pre, heq, hl, hm => by
    show Midway cfg U g s₀ n (importAll cfg (importBlocks cfg s l).1 bs) hs
    simp only [List.flatten_cons, List.map_append] at heq
    refine midway_all hc hp hmin ha h0 hd bs _ (pre ++ l.map (·.1)) (by rw [heq]; simp)
      (fun p hp' => hl p (by simp only [List.flatten_cons]; exact List.mem_append_right _ hp')) ?_
    rw [importBlocks_fst]
    exact midway_loop hc hp hmin ha h0 hd l s _ _ pre (bs.flatten.map (·.1)) (by rw [heq]; simp)
      (fun p hp' => hl p (by simp only [List.flatten_cons]; exact List.mem_append_left _ hp')) hm

/-- **C124.** (With the restrictions of `C124_heaviest_partial`.)  A tree that knows its active chain only is given, in order and in batches of any sizes,
the headers `hs` of a fork off the active block at height `n`; each obeys the rules of the chain it is on.  If they carry more work than
the part of the active chain above the fork, the active chain ends up being the one of the fork; if they carry less, the chain
does not change. -/
theorem C124_reorg_partial (hc : cfg.checked = false) (hp : ParamsOK cfg) (hmin : cfg.allowMin = false) (ha : Acyclic cfg U)
    (hg : cfg.genesisHash = cfg.hash g) (hr : Reach cfg U g fail s) {n : Nat} {b : Header} {hs : List Header}
    (hd : Delivery cfg U s n b hs) {bs : List (List (Header × Env))} (hbs : bs.flatten.map (·.1) = hs)
    (hl : ∀ p ∈ bs.flatten, EnvOk false p.2 ∧ ValidBeyond cfg p.2.clock (s.headers.take (n + 1)) hs ∧
      NoWrapBeyond cfg p.2.clock (s.headers.take (n + 1)) hs) :
    (totalWork cfg (s.headers.drop (n + 1)) < totalWork cfg hs →
      (importAll cfg s bs).headers = s.headers.take (n + 1) ++ hs) ∧
    (totalWork cfg hs < totalWork cfg (s.headers.drop (n + 1)) → (importAll cfg s bs).headers = s.headers) := by
  have hi := (reach_inv ha hg hr).1
  have hm := midway_all hc hp hmin ha hi hd bs s [] (by simp [hbs]) hl ⟨hi, .inl ⟨rfl, by simp [hd.noStale], by
    simp [totalWork]⟩⟩
  rcases hm.2 with ⟨h1, -, h2⟩ | ⟨h1, -, h2⟩
  · exact ⟨fun h => absurd h (by omega), fun _ => h1⟩
  · exact ⟨fun _ => h1, fun h => absurd h (by omega)⟩

end Verif.Chain
