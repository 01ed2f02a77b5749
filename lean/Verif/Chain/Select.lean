import Verif.Chain.Lemmas

/-!
# Helper lemmas: validation cannot panic, chain selection, import of one header
-/

set_option autoImplicit false

namespace Verif.Chain
open AMap

variable {cfg : Cfg} {U : Header → Prop} {g : Header} {s : State}

/-! ## Validation -/

theorem medianTimePast_ok (s : State) {n : Nat} (hn : n ≠ 0) : ∃ m, medianTimePast s n = .ok m := by
  have h1 : n - medianTimeSpan ≤ n := by omega
  have hb : (n != 0) = true := by simp [hn]
  simp only [medianTimePast, hb, Res.assert_true, Res.ok_bind, State.range, h1, ite_true]
  generalize hbl : (List.take (n - (n - medianTimeSpan)) (List.drop (n - medianTimeSpan) s.chain)) = blks
  have hlen : blks.length ≤ n - (n - medianTimeSpan) := by rw [← hbl]; simp
  generalize hl : ((List.take (n - (n - medianTimeSpan))
      (List.map (fun x => x.header.time) blks ++ List.replicate (medianTimeSpan - blks.length) 0)).insertionSort
        (· ≤ ·)) = l
  have hll : (n - (n - medianTimeSpan)) / 2 < l.length := by
    rw [← hl, List.length_insertionSort]
    simp [medianTimeSpan] at *
    omega
  rw [List.getElem?_eq_getElem hll]
  exact ⟨_, rfl⟩

theorem addU32_ok (hc : cfg.checked = false) (a b : Nat) : ∃ c, addU32 cfg a b = .ok c := by
  unfold addU32
  split
  · exact ⟨_, rfl⟩
  · simp [hc]

theorem subU32_ok (hc : cfg.checked = false) (a b : Nat) : ∃ c, subU32 cfg a b = .ok c := by
  unfold subU32
  split
  · exact ⟨_, rfl⟩
  · simp [hc]

theorem requiredBits_ok (hc : cfg.checked = false) (s : State) (tip : Blk) (h : Header) :
    ∃ b, requiredBits cfg s tip h = .ok b := by
  unfold requiredBits
  split
  · rename_i hm
    simp only [Bool.and_eq_true] at hm
    obtain ⟨c, e⟩ := addU32_ok hc tip.header.time (cfg.spacing * 2)
    simp only [e, Res.ok_bind]
    split
    · exact ⟨_, rfl⟩
    · simp only [nextMinDifficultyTarget, hm.1, Res.assert_true, Res.ok_bind]
      split <;> exact ⟨_, rfl⟩
  · unfold nextDifficultyTarget
    split
    · exact ⟨_, rfl⟩
    · split
      · exact ⟨_, rfl⟩
      · obtain ⟨c, e⟩ := subU32_ok hc tip.header.time
          ((s.getByHeight (tip.height - (cfg.interval - 1))).getD s.head.header).time
        simp only [e, Res.ok_bind]
        exact ⟨_, rfl⟩

theorem validate_no_panic (hc : cfg.checked = false) (clock : Nat) (s : State) {tip : Blk} {h : Header}
    (hp : cfg.hash tip.header = h.prev) : validate cfg clock s tip h ≠ .panic := by
  have hb : (cfg.hash tip.header == h.prev) = true := by simp [hp]
  obtain ⟨b, e⟩ := requiredBits_ok hc s tip h
  obtain ⟨m, em⟩ := medianTimePast_ok s (n := tip.height + 1) (by omega)
  obtain ⟨f, ef⟩ := addU32_ok hc clock maxFutureBlockTime
  simp only [validate, hb, Res.assert_true, Res.ok_bind, e, em, ef]
  split
  · simp
  · simp
  · split
    · split
      · simp
      · simp only [Res.pure_eq]
        split
        · simp
        · split <;> simp
    · simp only [Res.pure_eq]
      split
      · simp
      · split <;> simp

/-- The only error of a validation is an error about the header itself. -/
def Err.aboutHeader : Err → Prop
  | .invalidPoW | .invalidTarget | .invalidHash _ _ | .timeTooOld _ | .timeTooNew _ => True
  | _ => False

theorem addU32_err {cfg : Cfg} {a b : Nat} {e : Err} : addU32 cfg a b ≠ .err e := by
  unfold addU32; split
  · simp
  · split <;> simp

theorem subU32_err {cfg : Cfg} {a b : Nat} {e : Err} : subU32 cfg a b ≠ .err e := by
  unfold subU32; split
  · simp
  · split <;> simp

theorem requiredBits_err {s : State} {tip : Blk} {h : Header} {e : Err} :
    requiredBits cfg s tip h ≠ .err e := by
  unfold requiredBits
  split
  · rename_i hm
    simp only [Bool.and_eq_true] at hm
    cases ha : addU32 cfg tip.header.time (cfg.spacing * 2) with
    | err e => exact absurd ha addU32_err
    | panic => simp
    | ok c =>
      simp only [Res.ok_bind]
      split
      · simp
      · simp only [nextMinDifficultyTarget, hm.1, Res.assert_true, Res.ok_bind]
        split <;> simp
  · unfold nextDifficultyTarget
    split
    · simp
    · split
      · simp
      · simp only
        cases ha : subU32 cfg tip.header.time
          ((s.getByHeight (tip.height - (cfg.interval - 1))).getD s.head.header).time with
        | err e => exact absurd ha subU32_err
        | panic => simp
        | ok c => simp

theorem validate_err {clock : Nat} {s : State} {tip : Blk} {h : Header} {e : Err}
    (hv : validate cfg clock s tip h = .err e) : e.aboutHeader := by
  unfold validate at hv
  cases h1 : (Res.assert (cfg.hash tip.header == h.prev) : Res Err Unit) with
  | err e => unfold Res.assert at h1; split at h1 <;> simp at h1
  | panic => simp [h1] at hv
  | ok _ =>
    simp only [h1, Res.ok_bind] at hv
    cases h2 : requiredBits cfg s tip h with
    | err e => exact absurd h2 requiredBits_err
    | panic => simp [h2] at hv
    | ok b =>
      simp only [h2, Res.ok_bind] at hv
      obtain ⟨m, em⟩ := medianTimePast_ok s (n := tip.height + 1) (by omega)
      have tail : ∀ {e : Err}, (if h.time ≤ m then (Res.err (Err.timeTooOld h.time) : Res Err Unit) else do
          let future ← addU32 cfg clock maxFutureBlockTime
          if h.time > future then .err (.timeTooNew h.time) else pure ()) = .err e → e.aboutHeader := by
        intro e he
        split at he
        · simp at he; subst he; trivial
        · cases h3 : addU32 cfg clock maxFutureBlockTime with
          | err e => exact absurd h3 addU32_err
          | panic => simp [h3] at he
          | ok f =>
            simp only [h3, Res.ok_bind] at he
            split at he
            · simp at he; subst he; trivial
            · simp at he
      simp only [em, Res.ok_bind] at hv
      split at hv
      · simp at hv; subst hv; trivial
      · simp at hv; subst hv; trivial
      · split at hv
        · split at hv
          · simp at hv; subst hv; trivial
          · simp only [Res.pure_eq] at hv
            exact tail hv
        · simp only [Res.pure_eq] at hv
          exact tail hv

theorem validateHeaders_no_panic (hc : cfg.checked = false) (clock : Nat) (s : State) :
    ∀ (hs : List Header) {tip : Blk} {t : Nat}, Path cfg.hash (cfg.hash tip.header) hs t →
      validateHeaders cfg clock s tip hs ≠ .panic
  | [], _, _, _ => by simp [validateHeaders]
  | h :: hs, tip, t, hp => by
    have h1 := validate_no_panic hc clock s hp.1.symm
    simp only [validateHeaders]
    cases hv : validate cfg clock s tip h with
    | panic => exact absurd hv h1
    | err e => simp
    | ok _ =>
      simp only [Res.ok_bind]
      exact validateHeaders_no_panic hc clock s hs (tip := ⟨tip.height + 1, h⟩) hp.2

/-! ## Candidates -/

/-- The candidates returned are exactly the branches that validate. -/
theorem candidatesLoop_spec (ha : Acyclic cfg U) (hi : TreeInv cfg U g s) {clock : Nat} :
    ∀ {tips : List Nat} {cs : List Candidate}, (∀ t ∈ tips, s.index.get t = none) →
      candidatesLoop cfg clock s tips = .ok cs →
      ∀ c, c ∈ cs ↔ ∃ t ∈ tips, IsBranch cfg s t c ∧ validateBranch cfg clock s c = .ok ()
  | [], cs, _, h, c => by
    simp only [candidatesLoop, Res.ok.injEq] at h
    subst h; simp
  | t :: tips, cs, ht, h, c => by
    have ht' : ∀ t ∈ tips, s.index.get t = none := fun x hx => ht x (List.mem_cons_of_mem _ hx)
    rcases fork_spec ha hi (ht t List.mem_cons_self) with ⟨c0, hf, hb⟩ | ⟨hf, hno⟩
    · simp only [candidatesLoop, hf, Res.ok_bind] at h
      cases hv : validateBranch cfg clock s c0 with
      | panic => simp [hv] at h
      | err e =>
        simp only [hv] at h
        rw [candidatesLoop_spec ha hi ht' h]
        constructor
        · rintro ⟨x, hx, h1⟩; exact ⟨x, List.mem_cons_of_mem _ hx, h1⟩
        · rintro ⟨x, hx, h1, h2⟩
          rcases List.mem_cons.1 hx with rfl | hx
          · rw [branch_unique hi h1 hb, hv] at h2; simp at h2
          · exact ⟨x, hx, h1, h2⟩
      | ok u =>
        simp only [hv] at h
        obtain ⟨rest, h1, h2⟩ := Res.bind_eq_ok.1 h
        simp only [Res.ok.injEq] at h2
        subst h2
        rw [List.mem_cons, candidatesLoop_spec ha hi ht' h1]
        constructor
        · rintro (rfl | ⟨x, hx, h1⟩)
          · exact ⟨t, List.mem_cons_self, hb, hv⟩
          · exact ⟨x, List.mem_cons_of_mem _ hx, h1⟩
        · rintro ⟨x, hx, h1, h2⟩
          rcases List.mem_cons.1 hx with rfl | hx
          · exact .inl (branch_unique hi h1 hb)
          · exact .inr ⟨x, hx, h1, h2⟩
    · simp only [candidatesLoop, hf, Res.ok_bind] at h
      rw [candidatesLoop_spec ha hi ht' h]
      constructor
      · rintro ⟨x, hx, h1⟩; exact ⟨x, List.mem_cons_of_mem _ hx, h1⟩
      · rintro ⟨x, hx, h1, h2⟩
        rcases List.mem_cons.1 hx with rfl | hx
        · exact absurd h1 (hno c)
        · exact ⟨x, hx, h1, h2⟩

theorem candidatesLoop_not_err (ha : Acyclic cfg U) (hi : TreeInv cfg U g s) {clock : Nat} :
    ∀ {tips : List Nat} {e : Err}, (∀ t ∈ tips, s.index.get t = none) →
      candidatesLoop cfg clock s tips ≠ .err e
  | [], e, _ => by simp [candidatesLoop]
  | t :: tips, e, ht => by
    have ht' : ∀ t ∈ tips, s.index.get t = none := fun x hx => ht x (List.mem_cons_of_mem _ hx)
    rcases fork_spec ha hi (ht t List.mem_cons_self) with ⟨c0, hf, hb⟩ | ⟨hf, hno⟩
    · simp only [candidatesLoop, hf, Res.ok_bind]
      cases hv : validateBranch cfg clock s c0 with
      | panic => simp
      | err e => exact candidatesLoop_not_err ha hi ht'
      | ok u =>
        simp only
        cases hr : candidatesLoop cfg clock s tips with
        | err e => exact absurd hr (candidatesLoop_not_err ha hi ht')
        | ok _ => simp
        | panic => simp
    · simp only [candidatesLoop, hf, Res.ok_bind]
      exact candidatesLoop_not_err ha hi ht'

theorem candidatesLoop_no_panic (hc : cfg.checked = false) (ha : Acyclic cfg U) (hi : TreeInv cfg U g s)
    {clock : Nat} : ∀ {tips : List Nat}, (∀ t ∈ tips, s.index.get t = none) →
      candidatesLoop cfg clock s tips ≠ .panic
  | [], _ => by simp [candidatesLoop]
  | t :: tips, ht => by
    have ht' : ∀ t ∈ tips, s.index.get t = none := fun x hx => ht x (List.mem_cons_of_mem _ hx)
    rcases fork_spec ha hi (ht t List.mem_cons_self) with ⟨c0, hf, hb⟩ | ⟨hf, hno⟩
    · simp only [candidatesLoop, hf, Res.ok_bind]
      cases hv : validateBranch cfg clock s c0 with
      | panic => exact absurd hv (validateHeaders_no_panic hc _ _ _ hb.path)
      | err e => exact candidatesLoop_no_panic hc ha hi ht'
      | ok u =>
        simp only
        cases hr : candidatesLoop cfg clock s tips with
        | panic => exact absurd hr (candidatesLoop_no_panic hc ha hi ht')
        | ok _ => simp
        | err _ => simp
    · simp only [candidatesLoop, hf, Res.ok_bind]
      exact candidatesLoop_no_panic hc ha hi ht'

theorem orphan_keys (hi : TreeInv cfg U g s) {e : Env} (he : e.Fair) :
    ∀ t ∈ e.order s.orphans.keys, s.index.get t = none := by
  intro t ht
  have := ((he _).mem_iff).1 ht
  rw [← AMap.get_isSome_iff, Option.isSome_iff_exists] at this
  obtain ⟨x, hx⟩ := this
  exact (hi.orphans _ _ hx).2.2

/-- A valid branch off the active chain, ending anywhere. -/
def ValidBranch (cfg : Cfg) (clock : Nat) (s : State) (c : Candidate) : Prop :=
  IsBranch cfg s c.tip c ∧ validateBranch cfg clock s c = .ok ()

theorem IsBranch.tip_orphan {tip : Nat} {c : Candidate} (hb : IsBranch cfg s tip c) :
    tip ∈ s.orphans.keys := by
  obtain ⟨M, x, hx⟩ := (List.eq_nil_or_concat c.headers).resolve_left hb.nonempty
  rw [List.concat_eq_append] at hx
  have h1 : cfg.hash x = tip := path_last hb.path (by rw [hx]; exact List.getLast?_concat)
  have h2 := hb.stale x (by rw [hx]; simp)
  rw [← AMap.get_isSome_iff, ← h1, h2]; rfl

theorem chainCandidates_spec (ha : Acyclic cfg U) (hi : TreeInv cfg U g s) {e : Env} (he : e.Fair)
    {cs : List Candidate} (h : chainCandidates cfg e s = .ok cs) (c : Candidate) :
    c ∈ cs ↔ ValidBranch cfg e.clock s c := by
  rw [candidatesLoop_spec ha hi (orphan_keys hi he) h]
  constructor
  · rintro ⟨t, ht, hb, hv⟩
    have := hb.tip_eq
    subst this
    exact ⟨hb, hv⟩
  · rintro ⟨hb, hv⟩
    exact ⟨c.tip, ((he _).mem_iff).2 hb.tip_orphan, hb, hv⟩

/-! ## Selection -/

/-- Work the candidate carries. -/
abbrev gainOf (cfg : Cfg) (c : Candidate) : Nat := branchWork cfg c.headers

/-- Work of the active blocks above the candidate's fork point. -/
abbrev lostOf (cfg : Cfg) (s : State) (c : Candidate) : Nat :=
  branchWork cfg ((s.tail.drop c.forkHeight).map (·.header))

theorem IsBranch.fork_le {tip : Nat} {c : Candidate} (hb : IsBranch cfg s tip c) : c.forkHeight ≤ s.tail.length := by
  have := (List.getElem?_eq_some_iff.1 hb.forkBlk).1
  simp [State.chain] at this; omega

theorem selectStep_ok (cfg : Cfg) (s : State) (b : Best) (c : Candidate) (hl : c.forkHeight ≤ s.tail.length) :
    ∃ b', selectStep cfg s b c = .ok b' ∧
      (b' = b ∨ (b'.branch = some c ∧ b'.hash = c.tip ∧ gainOf cfg c = lostOf cfg s c + b'.work ∧
        (b.work < b'.work ∨ (cfg.mainnet = false ∧ b'.work = b.work ∧ c.tip < b.hash)))) ∧
      gainOf cfg c ≤ lostOf cfg s c + b'.work ∧
      (cfg.mainnet = false → gainOf cfg c = lostOf cfg s c + b'.work → b'.hash ≤ c.tip) := by
  simp only [selectStep, State.suffix, hl, ite_true, Res.ok_bind, gainOf, lostOf]
  generalize branchWork cfg c.headers = G
  generalize branchWork cfg ((s.tail.drop c.forkHeight).map (·.header)) = L
  by_cases h : G < L
  · exact ⟨b, if_pos h, .inl rfl, by omega, by intro _ h2; omega⟩
  · rw [if_neg h]
    by_cases h2 : G - L > b.work
    · rw [if_pos h2]
      exact ⟨_, rfl, .inr ⟨rfl, rfl, by simp only; omega, .inl h2⟩, by simp only; omega, fun _ _ => Nat.le_refl _⟩
    · rw [if_neg h2]
      cases hm : cfg.mainnet with
      | true => exact ⟨b, rfl, .inl rfl, by omega, by simp⟩
      | false =>
        simp only [Bool.not_false, ite_true, true_and]
        by_cases h3 : G - L = b.work
        · rw [if_pos h3]
          by_cases h4 : c.tip < b.hash
          · rw [if_pos h4]
            exact ⟨_, rfl, .inr ⟨rfl, rfl, by simp only; omega, .inr ⟨rfl, h4⟩⟩, by simp only; omega,
              fun _ _ => Nat.le_refl _⟩
          · rw [if_neg h4]
            exact ⟨b, rfl, .inl rfl, by omega, fun _ _ => by omega⟩
        · rw [if_neg h3]
          exact ⟨b, rfl, .inl rfl, by omega, fun _ h5 => by omega⟩

theorem selectLoop_ok (cfg : Cfg) (s : State) : ∀ (cs : List Candidate) (b : Best),
    (∀ c ∈ cs, c.forkHeight ≤ s.tail.length) →
    ∃ b', selectLoop cfg s b cs = .ok b' ∧
      (b' = b ∨ ∃ c ∈ cs, b'.branch = some c ∧ b'.hash = c.tip ∧ gainOf cfg c = lostOf cfg s c + b'.work ∧
        (b.work < b'.work ∨ (cfg.mainnet = false ∧ b'.work = b.work ∧ c.tip < b.hash))) ∧
      b.work ≤ b'.work ∧ (cfg.mainnet = false → b'.work = b.work → b'.hash ≤ b.hash) ∧
      ∀ c ∈ cs, gainOf cfg c ≤ lostOf cfg s c + b'.work ∧
        (cfg.mainnet = false → gainOf cfg c = lostOf cfg s c + b'.work → b'.hash ≤ c.tip)
  | [], b, _ => ⟨b, rfl, .inl rfl, Nat.le_refl _, fun _ _ => Nat.le_refl _, by simp⟩
  | c :: cs, b, hl => by
    obtain ⟨b1, e1, d1, g1, t1⟩ := selectStep_ok cfg s b c (hl c List.mem_cons_self)
    obtain ⟨b2, e2, d2, w2, h2, a2⟩ := selectLoop_ok cfg s cs b1 (fun x hx => hl x (List.mem_cons_of_mem _ hx))
    have hw1 : b.work ≤ b1.work := by
      rcases d1 with rfl | ⟨_, _, _, h | ⟨_, h, _⟩⟩ <;> omega
    have hh1 : cfg.mainnet = false → b1.work = b.work → b1.hash ≤ b.hash := by
      intro _ hw
      rcases d1 with rfl | ⟨_, hh, _, h | ⟨_, _, h⟩⟩ <;> omega
    refine ⟨b2, ?_, ?_, by omega, ?_, ?_⟩
    · simp only [selectLoop, e1, Res.ok_bind]; exact e2
    · rcases d2 with rfl | ⟨c', hc', x1, x2, x3, x4⟩
      · rcases d1 with rfl | ⟨y1, y2, y3, y4⟩
        · exact .inl rfl
        · exact .inr ⟨c, List.mem_cons_self, y1, y2, y3, y4⟩
      · refine .inr ⟨c', List.mem_cons_of_mem _ hc', x1, x2, x3, ?_⟩
        rcases x4 with x4 | ⟨m, x4, x5⟩
        · left; omega
        · by_cases hw : b1.work = b.work
          · right
            refine ⟨m, by omega, ?_⟩
            have := hh1 m hw
            omega
          · left; omega
    · intro m hw
      have e3 : b1.work = b.work := by omega
      have := hh1 m e3
      have := h2 m (by omega)
      omega
    · intro x hx
      rcases List.mem_cons.1 hx with rfl | hx
      · refine ⟨by omega, ?_⟩
        intro m hg
        by_cases hw : b2.work = b1.work
        · have := h2 m hw
          have := t1 m (by omega)
          omega
        · omega
      · exact a2 x hx

/-! ## Activation of a branch -/

theorem zipIdx_heights : ∀ (l : List Blk) (k : Nat), (∀ (i : Nat) (b : Blk), l[i]? = some b → b.height = k + i) →
    l.zipIdx.map (fun p => (k + p.2, p.1.header)) = l.map (fun b => (b.height, b.header)) := by
  intro l k h
  apply List.ext_getElem?
  intro i
  simp only [List.getElem?_map, List.getElem?_zipIdx, Nat.zero_add]
  cases hl : l[i]? with
  | none => simp
  | some b => simp [h i b hl]

/-- The result of switching to branch `c`, as far as the cache is concerned. -/
structure Switched (cfg : Cfg) (s : State) (c : Candidate) (s' : State) : Prop where
  head : s'.head = s.head
  above : s'.above = s.above.take c.forkHeight ++ c.headers
  orphans : ∀ k x, s'.orphans.get k = some x ↔ k ∉ c.headers.map cfg.hash ∧
    ((∃ b ∈ s.tail.drop c.forkHeight, cfg.hash b.header = k ∧ b.header = x) ∨ s.orphans.get k = some x)

/-- What a store failure while switching to branch `c` may leave behind: the chain rolled back to the fork, with or without
the new branch on top; no header appears from nowhere. -/
structure Disturbed (s : State) (c : Candidate) (s' : State) : Prop where
  head : s'.head = s.head
  above : s'.above = s.above.take c.forkHeight ∨ s'.above = s.above.take c.forkHeight ++ c.headers
  orphans : ∀ k x, s'.orphans.get k = some x → x ∈ s.above ∨ s.orphans.get k = some x

theorem switchToFork_spec (ha : Acyclic cfg U) (hi : TreeInv cfg U g s) {c : Candidate}
    (hb : IsBranch cfg s c.tip c) (e : Env) :
    ∃ s' r, switchToFork cfg e s c = (s', r) ∧ TreeInv cfg U g s' ∧
      ((r = .err .store ∧ (e.failRollback = true ∨ e.failPut = true) ∧ Disturbed s c s') ∨
       (r = .ok ((s.chain.drop (c.forkHeight + 1)).map (fun b => (b.height, b.header))) ∧
        e.failRollback = false ∧ e.failPut = false ∧ Switched cfg s c s' ∧
        s'.store = s.store.take (c.forkHeight + 1) ++ c.headers)) := by
  have hle := hb.fork_le
  obtain ⟨s1, e1, i1, hd1, t1, st1, o1⟩ := inv_rollbackLoop ha hi c.forkHeight
  have hstale : (s.tail.drop c.forkHeight).zipIdx.map (fun p => (c.forkHeight + 1 + p.2, p.1.header)) =
      (s.chain.drop (c.forkHeight + 1)).map (fun b => (b.height, b.header)) := by
    have : s.tail.drop c.forkHeight = s.chain.drop (c.forkHeight + 1) := by simp [State.chain]
    rw [this]
    apply zipIdx_heights
    intro i b h
    rw [List.getElem?_drop] at h
    exact hi.heights _ _ h
  have hlast : s1.last = ⟨c.forkHeight, c.forkHeader⟩ := by
    have h1 := chain_last_get s1
    have h2 : s1.tail.length = c.forkHeight := by rw [t1]; simp; omega
    rw [h2] at h1
    have h3 : s1.chain = s.chain.take (c.forkHeight + 1) := by
      rw [State.chain, hd1, t1, chain_take]
    rw [h3, List.getElem?_take, if_pos (by omega), hb.forkBlk] at h1
    simpa using h1.symm
  have hU : ∀ h ∈ c.headers, U h := fun h hh => (hi.orphans _ _ (hb.stale h hh)).2.1
  -- same cache with the truncated store
  have i1' : TreeInv cfg U g { s1 with store := s1.store.take (c.forkHeight + 1) } :=
    ⟨i1.head, i1.heights, i1.path, i1.tailU, i1.index, i1.indexNodup, i1.orphans, i1.orphansNodup, i1.work⟩
  obtain ⟨s2, e2, i2, a2, st2, hd2, o2⟩ := inv_extendLoop (t := c.tip) (n := c.forkHeight + 1) ha c.headers i1' hU
    (by have : ({ s1 with store := s1.store.take (c.forkHeight + 1) } : State).last = s1.last := rfl
        rw [this, hlast]; exact hb.path)
    (by have : ({ s1 with store := s1.store.take (c.forkHeight + 1) } : State).height = s1.last.height := rfl
        rw [this, hlast])
  have hab1 : s1.above = s.above.take c.forkHeight := by simp [State.above, t1, List.map_take]
  have ho1 : ∀ k x, s1.orphans.get k = some x → x ∈ s.above ∨ s.orphans.get k = some x := by
    intro k x h
    rcases (o1 k x).1 h with ⟨b, hb, -, rfl⟩ | h
    · exact .inl (List.mem_map.2 ⟨b, List.mem_of_mem_drop hb, rfl⟩)
    · exact .inr h
  simp only [switchToFork, rollback, hle, ite_true, ← e1]
  by_cases hfr : e.failRollback = true
  · simp only [hfr, ite_true]
    exact ⟨_, _, rfl, i1, .inl ⟨rfl, .inl trivial, hd1, .inl hab1, ho1⟩⟩
  · simp only [hfr, Bool.false_eq_true, ite_false]
    rw [e2]
    by_cases hfp : e.failPut = true
    · simp only [hfp, ite_true]
      refine ⟨_, _, rfl, i2, .inl ⟨rfl, .inr trivial, hd2.trans hd1, .inr (by rw [a2]; congr 1), ?_⟩⟩
      intro k x h
      rw [o2] at h
      split at h
      · simp at h
      · exact ho1 k x h
    · simp only [hfp, Bool.false_eq_true, ite_false]
      refine ⟨_, _, rfl, ?_, .inr ⟨by rw [← hstale], trivial, trivial, ⟨hd2.trans hd1, ?_, ?_⟩, ?_⟩⟩
      · exact ⟨i2.head, i2.heights, i2.path, i2.tailU, i2.index, i2.indexNodup, i2.orphans, i2.orphansNodup, i2.work⟩
      · have : ({ s2 with store := s2.store ++ c.headers } : State).above = s2.above := rfl
        rw [this, a2]
        congr 1
      · intro k x
        show s2.orphans.get k = some x ↔ _
        rw [o2]
        by_cases hk : k ∈ c.headers.map cfg.hash
        · simp [hk]
        · simp only [hk, ite_false, not_false_eq_true, true_and]
          exact o1 k x
      · show s2.store ++ c.headers = _
        rw [st2]
        simp [st1]

theorem prune_eq (hi : TreeInv cfg U g s) : prune s = s := by
  have : s.orphans.filter (fun p => !(s.contains p.1)) = s.orphans := by
    rw [List.filter_eq_self]
    intro p hp
    have := (hi.orphans p.1 p.2 (AMap.get_of_mem hi.orphansNodup hp)).2.2
    simp [State.contains, AMap.contains, this]
  simp [prune, this]

theorem inv_insertOrphan (hi : TreeInv cfg U g s) {h : Header} (hu : U h)
    (hn : s.index.get (cfg.hash h) = none) :
    TreeInv cfg U g { s with orphans := s.orphans.insert (cfg.hash h) h } := by
  refine ⟨hi.head, hi.heights, hi.path, hi.tailU, hi.index, hi.indexNodup, ?_, AMap.nodup_insert hi.orphansNodup _ _,
    hi.work⟩
  intro k x hx
  simp only [AMap.get_insert] at hx
  split at hx
  · rename_i hk
    simp only [Option.some.injEq] at hx
    subst hx
    exact ⟨hk, hu, by rw [← hk]; exact hn⟩
  · exact hi.orphans k x hx

theorem activate_spec (ha : Acyclic cfg U) (hi : TreeInv cfg U g s) {c : Candidate}
    (hb : IsBranch cfg s c.tip c) (e : Env) :
    ∃ s' r, activate cfg e s c = (s', r) ∧ TreeInv cfg U g s' ∧
      ((r = .err .store ∧ (e.failRollback = true ∨ e.failPut = true) ∧ Disturbed s c s') ∨
       (r = .ok (.tipChanged s'.last.header c.tip s'.height
          ((s.chain.drop (c.forkHeight + 1)).map (fun b => (b.height, b.header)))
          ((s'.chain.drop (c.forkHeight + 1)).map (fun b => (b.height, b.header)))) ∧
        e.failRollback = false ∧ e.failPut = false ∧ Switched cfg s c s' ∧ cfg.hash s'.last.header = c.tip ∧
        s'.store = s.store.take (c.forkHeight + 1) ++ c.headers)) := by
  obtain ⟨s', r, e1, i1, h⟩ := switchToFork_spec ha hi hb e
  have hle := hb.fork_le
  rcases h with ⟨rfl, hf, hd⟩ | ⟨rfl, f1, f2, hs, hst⟩
  · exact ⟨s', _, by simp only [activate, e1], i1, .inl ⟨rfl, hf, hd⟩⟩
  · obtain ⟨M, x, hx⟩ := (List.eq_nil_or_concat c.headers).resolve_left hb.nonempty
    rw [List.concat_eq_append] at hx
    have hgl : c.headers.getLast? = some x := by rw [hx]; exact List.getLast?_concat
    have hxt : cfg.hash x = c.tip := path_last hb.path hgl
    have htl : s'.tail.length = c.forkHeight + c.headers.length := by
      have := congrArg List.length hs.above
      simp only [State.above, List.length_map, List.length_append, List.length_take] at this
      omega
    have hlast : s'.last.header = x := by
      have h1 : s'.above.getLast? = some x := by
        rw [hs.above, hx, ← List.append_assoc]; exact List.getLast?_concat
      have h2 := chain_last s'
      have h3 : s'.headers.getLast? = some s'.last.header := by
        simp only [State.headers, List.getLast?_map, h2, Option.map_some]
      rw [i1.headers_eq, List.getLast?_cons, h1] at h3
      simpa using h3.symm
    have hpos : 0 < c.headers.length := List.length_pos_of_ne_nil hb.nonempty
    have hh := i1.height_eq
    have hrange : s'.range (c.forkHeight + 1) (s'.height + 1) = .ok (s'.chain.drop (c.forkHeight + 1)) := by
      unfold State.range
      rw [if_pos (by omega), List.take_of_length_le]
      simp [State.chain]; omega
    have hne : (s'.chain.drop (c.forkHeight + 1)).isEmpty = false := by
      simp [State.chain, List.isEmpty_eq_false_iff]; omega
    refine ⟨s', _, ?_, i1, .inr ⟨rfl, f1, f2, hs, by rw [hlast]; exact hxt, hst⟩⟩
    simp only [activate, e1, hgl, hlast]
    rw [if_pos (by omega), hrange]
    simp [hne]

end Verif.Chain
