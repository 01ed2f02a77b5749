import Verif.Chain.Select

/-!
# Helper lemmas: import of one header, of a batch, reload
-/

set_option autoImplicit false

namespace Verif.Chain
open AMap

variable {cfg : Cfg} {U : Header → Prop} {g : Header} {s : State}

/-- The outcomes of chain selection. -/
inductive SelectOutcome (cfg : Cfg) (e : Env) (s : State) : State → Res Err ImportResult → Prop
  | panic : cfg.checked = true → SelectOutcome cfg e s s .panic
  | store {s' : State} (c : Candidate) : (e.failRollback = true ∨ e.failPut = true) →
      ValidBranch cfg e.clock s c → Disturbed s c s' → SelectOutcome cfg e s s' (.err .store)
  | unchanged : (∀ c, ValidBranch cfg e.clock s c → gainOf cfg c ≤ lostOf cfg s c ∧
        (cfg.mainnet = false → gainOf cfg c = lostOf cfg s c → cfg.hash s.last.header ≤ c.tip)) →
      SelectOutcome cfg e s s (.ok .tipUnchanged)
  | changed {s' : State} (c : Candidate) : ValidBranch cfg e.clock s c →
      e.failRollback = false → e.failPut = false → Switched cfg s c s' → cfg.hash s'.last.header = c.tip →
      s'.store = s.store.take (c.forkHeight + 1) ++ c.headers →
      (∀ c', ValidBranch cfg e.clock s c' → gainOf cfg c' + lostOf cfg s c ≤ gainOf cfg c + lostOf cfg s c' ∧
        (cfg.mainnet = false → gainOf cfg c' + lostOf cfg s c = gainOf cfg c + lostOf cfg s c' → c.tip ≤ c'.tip)) →
      (lostOf cfg s c < gainOf cfg c ∨
        (cfg.mainnet = false ∧ lostOf cfg s c = gainOf cfg c ∧ c.tip < cfg.hash s.last.header)) →
      SelectOutcome cfg e s s' (.ok (.tipChanged s'.last.header c.tip s'.height
          ((s.chain.drop (c.forkHeight + 1)).map (fun b => (b.height, b.header)))
          ((s'.chain.drop (c.forkHeight + 1)).map (fun b => (b.height, b.header)))))

theorem selectBest_spec (ha : Acyclic cfg U) (hi : TreeInv cfg U g s) {e : Env} (he : e.Fair) :
    ∃ s' r, selectBest cfg e s = (s', r) ∧ TreeInv cfg U g s' ∧ SelectOutcome cfg e s s' r := by
  unfold selectBest
  cases hc : chainCandidates cfg e s with
  | panic =>
    refine ⟨s, _, rfl, hi, .panic ?_⟩
    by_contra hch
    exact candidatesLoop_no_panic (by simpa using hch) ha hi (orphan_keys hi he) hc
  | err er => exact absurd hc (candidatesLoop_not_err ha hi (orphan_keys hi he))
  | ok cs =>
    have hspec := chainCandidates_spec ha hi he hc
    simp only
    by_cases hemp : cs.isEmpty = true
    · rw [if_pos hemp]
      refine ⟨s, _, rfl, hi, .unchanged ?_⟩
      intro c hv
      rw [← hspec] at hv
      simp at hemp; simp [hemp] at hv
    · rw [if_neg hemp]
      obtain ⟨b, e1, d1, w1, h1, a1⟩ := selectLoop_ok cfg s cs ⟨none, cfg.hash s.last.header, 0⟩
        (fun c hcs => ((hspec c).1 hcs).1.fork_le)
      simp only [e1, prune_eq hi]
      rcases d1 with rfl | ⟨c, hcs, b1, b2, b3, b4⟩
      · refine ⟨s, _, rfl, hi, .unchanged ?_⟩
        intro c hv
        have := a1 c ((hspec c).2 hv)
        simpa using this
      · simp only [b1]
        have hv := (hspec c).1 hcs
        obtain ⟨s', r, e2, i2, ho⟩ := activate_spec ha hi hv.1 e
        refine ⟨s', r, e2, i2, ?_⟩
        rcases ho with ⟨rfl, hf, hd⟩ | ⟨rfl, f1, f2, hsw, hl, hst⟩
        · exact .store c hf hv hd
        · refine .changed c hv f1 f2 hsw hl hst ?_ ?_
          · intro c' hv'
            have := a1 c' ((hspec c').2 hv')
            refine ⟨by omega, ?_⟩
            intro hm heq
            rw [← b2]
            exact this.2 hm (by omega)
          · rcases b4 with b4 | ⟨m, b4, b5⟩
            · left; simp only at b4; omega
            · right; simp only at b4 b5; exact ⟨m, by omega, b5⟩

/-- The state with a header added to the set of stale / unconnected headers. -/
def State.withOrphan (cfg : Cfg) (s : State) (h : Header) : State :=
  { s with orphans := s.orphans.insert (cfg.hash h) h }

/-- The outcomes of importing one header. -/
inductive ImportOutcome (cfg : Cfg) (e : Env) (s : State) (h : Header) :
    State → Res Err ImportResult → Prop
  | panic : cfg.checked = true → ImportOutcome cfg e s h s .panic
  | duplicate : s.isKnown (cfg.hash h) = true → ImportOutcome cfg e s h s (.err (.duplicate (cfg.hash h)))
  | invalid (er : Err) : er.aboutHeader → s.isKnown (cfg.hash h) = false →
      ((h.prev = cfg.hash s.last.header ∧ validate cfg e.clock s s.last h = .err er) ∨
        cfg.target h.bits < cfg.hashInt (cfg.hash h) ∨ cfg.powLimit < cfg.target h.bits) →
      ImportOutcome cfg e s h s (.err er)
  | height (n : Nat) : s.isKnown (cfg.hash h) = false → s.index.get h.prev = some n → n < s.lastCheckpoint cfg →
      ImportOutcome cfg e s h s (.err (.invalidHeight (n + 1)))
  | missing : s.isKnown (cfg.hash h) = false → s.isKnown h.prev = false →
      cfg.hashInt (cfg.hash h) ≤ cfg.target h.bits → cfg.target h.bits ≤ cfg.powLimit →
      ImportOutcome cfg e s h (s.withOrphan cfg h) (.err (.missing h.prev))
  | selected {s' : State} {r : Res Err ImportResult} : s.isKnown (cfg.hash h) = false →
      cfg.hashInt (cfg.hash h) ≤ cfg.target h.bits → cfg.target h.bits ≤ cfg.powLimit →
      (h.prev = cfg.hash s.last.header → validate cfg e.clock s s.last h = .ok ()) →
      (∀ n, s.index.get h.prev = some n → s.lastCheckpoint cfg ≤ n) →
      SelectOutcome cfg e (s.withOrphan cfg h) s' r → ImportOutcome cfg e s h s' r

theorem isKnown_false {k : Nat} : s.isKnown k = false ↔ s.index.get k = none ∧ s.orphans.get k = none := by
  simp [State.isKnown, AMap.contains]

theorem importChecked_spec (ha : Acyclic cfg U) (hi : TreeInv cfg U g s) {e : Env} (he : e.Fair) {h : Header}
    (hu : U h) (hk : s.isKnown (cfg.hash h) = false)
    (hv : h.prev = cfg.hash s.last.header → validate cfg e.clock s s.last h = .ok ()) :
    ∃ s' r, importChecked cfg e s h = (s', r) ∧ TreeInv cfg U g s' ∧ ImportOutcome cfg e s h s' r := by
  have hk' := isKnown_false.1 hk
  have io : TreeInv cfg U g (s.withOrphan cfg h) := inv_insertOrphan hi hu hk'.1
  obtain ⟨s', r, e1, i1, o1⟩ := selectBest_spec ha io he
  by_cases hp : cfg.hashInt (cfg.hash h) ≤ cfg.target h.bits
  swap
  · refine ⟨s, .err .invalidPoW, ?_, hi, .invalid _ trivial hk (.inr (.inl (by omega)))⟩
    simp [importChecked, validatePow, hp]
  by_cases hl : cfg.target h.bits ≤ cfg.powLimit
  swap
  · refine ⟨s, .err .invalidTarget, ?_, hi, .invalid _ trivial hk (.inr (.inr (by omega)))⟩
    have : cfg.powLimit < cfg.target h.bits := by omega
    simp [importChecked, validatePow, hp, this]
  have hl' : ¬ cfg.target h.bits > cfg.powLimit := by omega
  have hbase : importChecked cfg e s h = (match s.index.get h.prev with
      | some height =>
        if height < s.lastCheckpoint cfg then (s, .err (.invalidHeight (height + 1)))
        else selectBest cfg e (s.withOrphan cfg h)
      | none =>
        if (s.withOrphan cfg h).orphans.contains h.prev then selectBest cfg e (s.withOrphan cfg h)
        else (s.withOrphan cfg h, .err (.missing h.prev))) := by
    unfold importChecked
    simp only [validatePow, ne_eq, not_true_eq_false, ite_false, hp, ite_true, hl', State.withOrphan]
    cases s.index.get h.prev <;> rfl
  rw [hbase]
  cases hg : s.index.get h.prev with
  | some n =>
    simp only
    by_cases hcp : n < s.lastCheckpoint cfg
    · rw [if_pos hcp]
      exact ⟨s, _, rfl, hi, .height n hk hg hcp⟩
    · rw [if_neg hcp]
      refine ⟨s', r, e1, i1, .selected hk hp hl hv ?_ o1⟩
      intro m hm
      rw [hg] at hm
      simp at hm
      omega
  | none =>
    simp only
    by_cases ho : (s.withOrphan cfg h).orphans.contains h.prev = true
    · rw [if_pos ho]
      refine ⟨s', r, e1, i1, .selected hk hp hl hv ?_ o1⟩
      intro m hm; rw [hg] at hm; simp at hm
    · rw [if_neg ho]
      refine ⟨_, _, rfl, io, .missing hk ?_ hp hl⟩
      rw [isKnown_false]
      refine ⟨hg, ?_⟩
      have : ((s.withOrphan cfg h).orphans).get h.prev = none := by
        simpa [AMap.contains] using ho
      simp only [State.withOrphan, AMap.get_insert] at this
      split at this
      · simp at this
      · exact this

theorem importBlock_spec (ha : Acyclic cfg U) (hi : TreeInv cfg U g s) {e : Env} (he : e.Fair) {h : Header}
    (hu : U h) :
    ∃ s' r, importBlock cfg e s h = (s', r) ∧ TreeInv cfg U g s' ∧ ImportOutcome cfg e s h s' r := by
  unfold importBlock
  simp only
  by_cases hk : (s.index.contains (cfg.hash h) || s.orphans.contains (cfg.hash h)) = true
  · rw [if_pos hk]
    exact ⟨s, _, rfl, hi, .duplicate hk⟩
  · rw [if_neg hk]
    have hk' : s.isKnown (cfg.hash h) = false := by simpa [State.isKnown] using hk
    by_cases hp : h.prev = cfg.hash s.last.header
    · rw [if_pos hp]
      cases hv : validate cfg e.clock s s.last h with
      | panic =>
        refine ⟨s, _, rfl, hi, .panic ?_⟩
        by_contra hc
        exact validate_no_panic (by simpa using hc) _ _ hp.symm hv
      | err er => exact ⟨s, _, rfl, hi, .invalid er (validate_err hv) hk' (.inl ⟨hp, hv⟩)⟩
      | ok u => exact importChecked_spec ha hi he hu hk' (fun _ => hv)
    · rw [if_neg hp]
      exact importChecked_spec ha hi he hu hk' (fun h => absurd h hp)

theorem extendTip_spec (ha : Acyclic cfg U) (hi : TreeInv cfg U g s) (e : Env) {h : Header} (hu : U h) :
    ∃ s' r, extendTip cfg e s h = (s', r) ∧ TreeInv cfg U g s' ∧
      ((r = .panic ∧ cfg.checked = true ∧ s' = s) ∨
       (∃ er, r = .err er ∧ er.aboutHeader ∧ s' = s) ∨
       (r = .err .store ∧ e.failPut = true ∧
        h.prev = cfg.hash s.last.header ∧ validate cfg e.clock s s.last h = .ok () ∧
        s'.above = s.above ++ [h] ∧ s'.head = s.head ∧ s'.orphans = s.orphans.erase (cfg.hash h)) ∨
       (r = .ok .tipUnchanged ∧ s' = s ∧ h.prev ≠ cfg.hash s.last.header) ∨
       (r = .ok (.tipChanged h (cfg.hash h) (s.height + 1) [] [(s.height + 1, h)]) ∧ e.failPut = false ∧
        h.prev = cfg.hash s.last.header ∧ validate cfg e.clock s s.last h = .ok () ∧
        s'.above = s.above ++ [h] ∧ s'.head = s.head ∧ s'.store = s.store ++ [h] ∧
        s'.orphans = s.orphans.erase (cfg.hash h))) := by
  unfold extendTip
  simp only
  by_cases hp : h.prev = cfg.hash s.last.header
  · rw [if_pos hp]
    cases hv : validate cfg e.clock s s.last h with
    | panic =>
      refine ⟨s, _, rfl, hi, .inl ⟨rfl, ?_, rfl⟩⟩
      by_contra hc
      exact validate_no_panic (by simpa using hc) _ _ hp.symm hv
    | err er => exact ⟨s, _, rfl, hi, .inr (.inl ⟨er, rfl, validate_err hv, rfl⟩)⟩
    | ok u =>
      obtain ⟨s1, e1, i1, t1, st1, hd1, o1⟩ := inv_extend (n := s.last.height + 1) ha hi hu hp rfl
      simp only [e1]
      by_cases hf : e.failPut = true
      · simp only [hf, ite_true]
        exact ⟨s1, _, rfl, i1, .inr (.inr (.inl ⟨rfl, trivial, hp, trivial, by simp [State.above, t1], hd1, o1⟩))⟩
      · simp only [hf, Bool.false_eq_true, ite_false]
        refine ⟨_, _, rfl, ?_, .inr (.inr (.inr (.inr ⟨rfl, trivial, hp, trivial, ?_, hd1, ?_, o1⟩)))⟩
        · exact ⟨i1.head, i1.heights, i1.path, i1.tailU, i1.index, i1.indexNodup, i1.orphans, i1.orphansNodup, i1.work⟩
        · show s1.above = _
          simp [State.above, t1]
        · show s1.store ++ [h] = _
          rw [st1]
  · rw [if_neg hp]
    exact ⟨s, _, rfl, hi, .inr (.inr (.inr (.inl ⟨rfl, rfl, hp⟩)))⟩

/-! ## Batches -/

/-- A property of states preserved by every single import is preserved by the batch. -/
theorem importLoop_induct (P : State → Prop)
    (hstep : ∀ s h e, P s → U h → e.Fair → P (importBlock cfg e s h).1) :
    ∀ (hs : List (Header × Env)) (s : State) (a : Acc) (i : Nat), P s → (∀ p ∈ hs, U p.1 ∧ p.2.Fair) →
      P (importLoop cfg s a i hs).1
  | [], s, a, i, hP, _ => hP
  | (h, e) :: hs, s, a, i, hP, hu => by
    have h1 := hstep s h e hP (hu _ List.mem_cons_self).1 (hu _ List.mem_cons_self).2
    have hu' : ∀ p ∈ hs, U p.1 ∧ p.2.Fair := fun p hp => hu p (List.mem_cons_of_mem _ hp)
    simp only [importLoop]
    split
    · rename_i s' _ _ _ _ _ heq; rw [heq] at h1; exact importLoop_induct P hstep hs _ _ _ h1 hu'
    · rename_i s' heq; rw [heq] at h1; exact importLoop_induct P hstep hs _ _ _ h1 hu'
    · rename_i s' _ heq; rw [heq] at h1; exact importLoop_induct P hstep hs _ _ _ h1 hu'
    · rename_i s' _ heq; rw [heq] at h1; exact importLoop_induct P hstep hs _ _ _ h1 hu'
    · rename_i s' _ _ _ heq; rw [heq] at h1; exact h1
    · rename_i s' heq; rw [heq] at h1; exact h1

theorem importBlocks_fst (cfg : Cfg) (s : State) (hs : List (Header × Env)) :
    (importBlocks cfg s hs).1 =
      (importLoop cfg s ⟨[], [], [], s.height, cfg.hash s.last.header, s.last.header⟩ 0 hs).1 := by
  unfold importBlocks
  simp only
  split
  · rename_i s' a heq
    rw [heq]
    split
    · rfl
    · split <;> rfl
  · rename_i s' a heq; rw [heq]
  · rename_i s' heq; rw [heq]

theorem inv_importBlocks (ha : Acyclic cfg U) (hi : TreeInv cfg U g s) (hs : List (Header × Env))
    (hu : ∀ p ∈ hs, U p.1 ∧ p.2.Fair) : TreeInv cfg U g (importBlocks cfg s hs).1 := by
  rw [importBlocks_fst]
  refine importLoop_induct (U := U) (TreeInv cfg U g) ?_ hs s _ 0 hi hu
  intro s h e hi hu he
  obtain ⟨s', r, e1, i1, -⟩ := importBlock_spec ha hi he hu
  rw [e1]; exact i1

/-! ## The store mirrors the chain when it does not fail -/

theorem TreeInv.headers_take (hi : TreeInv cfg U g s) (n : Nat) :
    s.headers.take (n + 1) = g :: s.above.take n := by
  rw [hi.headers_eq]; rfl

theorem mirror_selected (hi : TreeInv cfg U g s) {e : Env} {s' : State} {r : Res Err ImportResult}
    (hi' : TreeInv cfg U g s') (hm : s.store = s.headers)
    (hf : e.failRollback = false ∧ e.failPut = false) (ho : SelectOutcome cfg e s s' r) :
    s'.store = s'.headers := by
  cases ho with
  | panic => exact hm
  | store c h => simp [hf.1, hf.2] at h
  | unchanged => exact hm
  | changed c hv f1 f2 hsw hl hst _ _ =>
    rw [hst, hm, hi.headers_take, hi'.headers_eq, hsw.above]; rfl

theorem mirror_import (hi : TreeInv cfg U g s) {e : Env} {h : Header} {s' : State} {r : Res Err ImportResult}
    (hu : U h) (hi' : TreeInv cfg U g s') (hm : s.store = s.headers)
    (hf : e.failRollback = false ∧ e.failPut = false) (ho : ImportOutcome cfg e s h s' r) :
    s'.store = s'.headers := by
  cases ho with
  | panic => exact hm
  | duplicate => exact hm
  | invalid => exact hm
  | height => exact hm
  | missing => exact hm
  | selected hk _ _ _ _ ho =>
    have io : TreeInv cfg U g (s.withOrphan cfg h) := inv_insertOrphan hi hu (isKnown_false.1 hk).1
    exact mirror_selected io hi' hm hf ho

/-! ## Reloading -/

theorem indexLoop_get (hash : Header → Nat) : ∀ (l : List Blk) (m : AMap Nat Nat) (a k b : Nat),
    Path hash a (l.map (·.header)) b → (∀ (i : Nat) (x : Blk), l[i]? = some x → x.height = k + 1 + i) →
    (a :: l.map (fun x => hash x.header)).Nodup → ∀ j n : Nat,
    (((l.foldl (fun (m : AMap Nat Nat) x => m.insert x.header.prev (x.height - 1)) m).insert b
        (k + l.length)).get j = some n ↔
      (∃ i, (a :: l.map (fun x => hash x.header))[i]? = some j ∧ n = k + i) ∨
      (j ∉ a :: l.map (fun x => hash x.header) ∧ m.get j = some n))
  | [], m, a, k, b, hp, _, _, j, n => by
    have : a = b := hp
    subst this
    simp only [List.foldl_nil, List.length_nil, Nat.add_zero, AMap.get_insert, List.map_nil, List.mem_singleton]
    by_cases h : a = j
    · subst h
      simp only [ite_true, Option.some.injEq, not_true_eq_false, false_and, or_false]
      constructor
      · rintro rfl; exact ⟨0, rfl, rfl⟩
      · rintro ⟨i, hi, rfl⟩
        cases i with
        | zero => rfl
        | succ i => simp at hi
    · simp only [h, ite_false, Ne.symm h, not_false_eq_true, true_and]
      constructor
      · exact .inr
      · rintro (⟨i, hi, rfl⟩ | h')
        · cases i with
          | zero => simp at hi; exact absurd hi h
          | succ i => simp at hi
        · exact h'
  | x :: l, m, a, k, b, hp, hh, hn, j, n => by
    have hx : x.height = k + 1 := hh 0 x rfl
    have hx' : x.height - 1 = k := by omega
    have hprev : x.header.prev = a := hp.1
    simp only [List.map_cons] at hn
    have ih := indexLoop_get hash l (m.insert x.header.prev (x.height - 1)) (hash x.header) (k + 1) b hp.2
      (fun i y hy => by have := hh (i + 1) y hy; omega) (List.nodup_cons.1 hn).2 j n
    have hlen : k + (x :: l).length = k + 1 + l.length := by simp; omega
    rw [hlen, List.foldl_cons, ih]
    simp only [List.map_cons, hprev, hx', AMap.get_insert]
    constructor
    · rintro (⟨i, h1, h2⟩ | ⟨h1, h2⟩)
      · exact .inl ⟨i + 1, h1, by omega⟩
      · by_cases ha : a = j
        · simp only [ha, ite_true, Option.some.injEq] at h2
          exact .inl ⟨0, by simp [ha], by omega⟩
        · simp only [ha, ite_false] at h2
          refine .inr ⟨?_, h2⟩
          rw [List.mem_cons]
          rintro (h | h)
          · exact ha h.symm
          · exact h1 h
    · rintro (⟨i, h1, h2⟩ | ⟨h1, h2⟩)
      · cases i with
        | zero =>
          simp at h1
          subst h1
          refine .inr ⟨(List.nodup_cons.1 hn).1, ?_⟩
          simp; omega
        | succ i => exact .inl ⟨i, h1, by omega⟩
      · refine .inr ⟨fun h => h1 (List.mem_cons_of_mem _ h), ?_⟩
        have : a ≠ j := fun h => h1 (by simp [h])
        simp [this, h2]

theorem foldl_insert_nodup : ∀ (l : List Blk) (m : AMap Nat Nat), m.keys.Nodup →
    (l.foldl (fun (m : AMap Nat Nat) x => m.insert x.header.prev (x.height - 1)) m).keys.Nodup
  | [], _, h => h
  | _ :: l, _, h => foldl_insert_nodup l _ (AMap.nodup_insert h _ _)

/-- Reloading a linked store gives back the chain it was written from. -/
theorem load_spec (ha : Acyclic cfg U) (hg : cfg.genesisHash = cfg.hash g) {hs : List Header}
    (hu : ∀ h ∈ hs, U h) {t : Nat} (hp : Path cfg.hash (cfg.hash g) hs t) :
    ∃ s', load cfg (new cfg g (g :: hs)) = .ok s' ∧ TreeInv cfg U g s' ∧ s'.headers = g :: hs ∧
      s'.orphans = [] ∧ s'.store = g :: hs := by
  obtain ⟨rank, hr⟩ := id ha
  have hbl : (((g :: hs).zipIdx.map (fun p => (⟨p.2, p.1⟩ : Blk))).drop 1) =
      (hs.zipIdx 1).map (fun p => (⟨p.2, p.1⟩ : Blk)) := by simp
  have hget : ∀ i : Nat, ((hs.zipIdx 1).map (fun p => (⟨p.2, p.1⟩ : Blk)))[i]? =
      (hs[i]?).map (fun h => ⟨1 + i, h⟩) := by
    intro i
    simp only [List.getElem?_map, List.getElem?_zipIdx, Option.map_map]
    rfl
  have hmap : ((hs.zipIdx 1).map (fun p => (⟨p.2, p.1⟩ : Blk))).map (·.header) = hs := by
    apply List.ext_getElem?
    intro i
    rw [List.getElem?_map, hget, Option.map_map]
    cases hs[i]? <;> rfl
  have hhash : ((hs.zipIdx 1).map (fun p => (⟨p.2, p.1⟩ : Blk))).map (fun b => cfg.hash b.header) =
      hs.map cfg.hash := by
    conv_rhs => rw [← hmap]
    rw [List.map_map, List.map_map, List.map_map]; rfl
  have hnd := path_nodup hp (fun h hh => hr h (hu h hh))
  generalize hbd : ((hs.zipIdx 1).map (fun p => (⟨p.2, p.1⟩ : Blk))) = blks at *
  have hlen : blks.length = hs.length := by rw [← hmap]; simp
  simp only [load, new, hbl, List.nil_append]
  -- the loaded state
  generalize hs1 : (State.mk ⟨0, g⟩ blks [(cfg.hash g, 0)] [] (cfg.work g.bits + branchWork cfg (blks.map (·.header)))
    (g :: hs)) = s1
  have hchk : genesisCheck cfg s1 = .ok () := by
    subst hs1
    cases blks with
    | nil => rfl
    | cons b bs =>
      simp only [genesisCheck, List.head?_cons]
      have : hs = b.header :: bs.map (·.header) := by rw [← hmap]; rfl
      rw [this] at hp
      have h1 := hp.1
      simp [h1, hg]
  have hlast : cfg.hash s1.last.header = t := by
    have h1 : Path cfg.hash (cfg.hash (⟨0, g⟩ : Blk).header) (blks.map (·.header)) t := by rw [hmap]; exact hp
    have := path_lastD h1
    subst hs1
    exact this.symm
  have hheight : s1.height = blks.length := by
    have h1 := chain_last_get s1
    have h2 : s1.chain = ⟨0, g⟩ :: blks := by subst hs1; rfl
    have h3 : s1.tail.length = blks.length := by subst hs1; rfl
    rw [h2, h3] at h1
    cases hb : blks.length with
    | zero => rw [hb] at h1; simp at h1; rw [State.height, ← h1]
    | succ n =>
      rw [hb, List.getElem?_cons_succ, hget] at h1
      cases h4 : hs[n]? with
      | none => simp [h4] at h1
      | some y =>
        simp only [h4, Option.map_some, Option.some.injEq] at h1
        rw [State.height, ← h1]; show 1 + n = n + 1; omega
  have hidx := indexLoop_get cfg.hash blks [(cfg.hash g, 0)] (cfg.hash g) 0 t (by rw [hmap]; exact hp)
    (by
      intro i x hx
      rw [hget] at hx
      cases h3 : hs[i]? with
      | none => simp [h3] at hx
      | some y => simp only [h3, Option.map_some, Option.some.injEq] at hx; rw [← hx])
    (by rw [hhash]; exact hnd)
  have hinv : TreeInv cfg U g (buildIndex cfg s1) := by
    have hb : (buildIndex cfg s1).index =
        (blks.foldl (fun (m : AMap Nat Nat) x => m.insert x.header.prev (x.height - 1)) [(cfg.hash g, 0)]).insert t
          (0 + blks.length) := by
      simp only [buildIndex, hlast, hheight, Nat.zero_add]
      subst hs1; rfl
    constructor
    · subst hs1; rfl
    · intro i b hbb
      have : (buildIndex cfg s1).chain = ⟨0, g⟩ :: blks := by subst hs1; rfl
      rw [this] at hbb
      cases i with
      | zero => simp at hbb; rw [← hbb]
      | succ i =>
        rw [List.getElem?_cons_succ, hget] at hbb
        cases h3 : hs[i]? with
        | none => simp [h3] at hbb
        | some y => simp only [h3, Option.map_some, Option.some.injEq] at hbb; rw [← hbb]; simp; omega
    · show Path cfg.hash (cfg.hash g) s1.above (cfg.hash s1.last.header)
      rw [hlast]
      have : s1.above = hs := by subst hs1; exact hmap
      rw [this]; exact hp
    · intro h hh
      have : (buildIndex cfg s1).above = hs := by subst hs1; exact hmap
      rw [this] at hh
      exact hu h hh
    · intro k n
      rw [hb, hidx]
      have hc : (buildIndex cfg s1).chain = ⟨0, g⟩ :: blks := by subst hs1; rfl
      rw [hc]
      have hm : ∀ i : Nat, (cfg.hash g :: blks.map (fun x => cfg.hash x.header))[i]? =
          (((⟨0, g⟩ : Blk) :: blks)[i]?).map (fun x => cfg.hash x.header) := by
        intro i
        rw [← List.getElem?_map]; rfl
      constructor
      · rintro (⟨i, h1, rfl⟩ | ⟨h1, h2⟩)
        · rw [hm] at h1
          cases h3 : ((⟨0, g⟩ : Blk) :: blks)[i]? with
          | none => simp [h3] at h1
          | some y =>
            simp only [h3, Option.map_some, Option.some.injEq] at h1
            exact ⟨y, by rw [Nat.zero_add]; exact h3, h1⟩
        · rw [AMap.get_cons] at h2
          split at h2
          · rename_i h4; exact absurd (by rw [← h4]; exact List.mem_cons_self) h1
          · simp at h2
      · rintro ⟨b, h1, h2⟩
        left
        refine ⟨n, ?_, by omega⟩
        rw [hm, h1]; simp [h2]
    · rw [hb]
      exact AMap.nodup_insert (foldl_insert_nodup _ _ (by simp [AMap.keys])) _ _
    · intro k h hk
      have : (buildIndex cfg s1).orphans = [] := by subst hs1; rfl
      rw [this] at hk; simp at hk
    · have : (buildIndex cfg s1).orphans = [] := by subst hs1; rfl
      rw [this]; simp [AMap.keys]
    · subst hs1
      show cfg.work g.bits + branchWork cfg (blks.map (·.header)) = totalWork cfg (g :: blks.map (·.header))
      simp [branchWork, totalWork]
  have hhd : (buildIndex cfg s1).headers = g :: hs := by
    rw [hinv.headers_eq]
    have : (buildIndex cfg s1).above = hs := by subst hs1; exact hmap
    rw [this]
  have hst : (buildIndex cfg s1).store = g :: hs := by subst hs1; rfl
  have hl1 : ((buildIndex cfg s1).store.length == (buildIndex cfg s1).chain.length) = true := by
    have : (buildIndex cfg s1).chain.length = (buildIndex cfg s1).headers.length := by simp [State.headers]
    rw [hst, this, hhd]; simp
  have hl2 : ((buildIndex cfg s1).store.length == (buildIndex cfg s1).index.length) = true := by
    have hperm : (buildIndex cfg s1).index.keys.Perm ((buildIndex cfg s1).headers.map cfg.hash) := by
      rw [List.perm_ext_iff_of_nodup hinv.indexNodup (hinv.nodup ha)]
      intro k
      rw [← AMap.get_isSome_iff]
      constructor
      · intro h
        by_contra hne
        have : (buildIndex cfg s1).index.get k = none := by
          rw [hinv.contains_iff]
          intro x hx he
          exact hne (List.mem_map.2 ⟨x, hx, he⟩)
        rw [this] at h; simp at h
      · intro h
        obtain ⟨x, hx, he⟩ := List.mem_map.1 h
        cases h3 : (buildIndex cfg s1).index.get k with
        | some _ => rfl
        | none => rw [hinv.contains_iff] at h3; exact absurd he (h3 x hx)
    have := hperm.length_eq
    simp only [AMap.keys, List.length_map] at this
    rw [this, hst, hhd]; simp
  refine ⟨buildIndex cfg s1, ?_, hinv, hhd, by subst hs1; rfl, hst⟩
  rw [hchk]
  simp [hl1, hl2]

/-! ## The invariant of reachable states -/

/-- So does the beginning of it. -/
theorem load_prefix (ha : Acyclic cfg U) (hg : cfg.genesisHash = cfg.hash g) (hi : TreeInv cfg U g s) {hs : List Header} (hp : hs <+: s.headers) (hne : hs ≠ []) :
    ∃ s', load cfg (new cfg g hs) = .ok s' ∧ TreeInv cfg U g s' ∧ s'.headers = hs ∧ s'.orphans = [] ∧ s'.store = hs := by
  rw [hi.headers_eq] at hp
  cases hs with
  | nil => exact absurd rfl hne
  | cons x hs =>
    obtain ⟨rfl, t, ht⟩ := List.cons_prefix_cons.1 hp
    have hpath := hi.path
    rw [← ht] at hpath
    obtain ⟨b, h1, -⟩ := path_append.1 hpath
    exact load_spec ha hg (fun h hh => hi.tailU h (by rw [← ht]; exact List.mem_append_left _ hh)) h1

theorem reach_inv (ha : Acyclic cfg U) (hg : cfg.genesisHash = cfg.hash g) {fail : Bool}
    (h : Reach cfg U g fail s) : TreeInv cfg U g s ∧ (fail = false → s.store = s.headers) := by
  induction h with
  | init => exact ⟨inv_new _ _ _ _, fun _ => rfl⟩
  | importBlocks hs hr hu _ ih =>
    rw [importBlocks_fst]
    refine ⟨?_, ?_⟩
    · rw [← importBlocks_fst]
      exact inv_importBlocks ha ih.1 hs (fun p hp => ⟨(hu p hp).1, (hu p hp).2.1⟩)
    · intro hf
      subst hf
      have hstep : ∀ (hs : List (Header × Env)) (s : State) (a : Acc) (i : Nat),
          TreeInv cfg U g s → s.store = s.headers → (∀ p ∈ hs, U p.1 ∧ EnvOk false p.2) →
          (importLoop cfg s a i hs).1.store = (importLoop cfg s a i hs).1.headers := by
        intro hs
        induction hs with
        | nil => intro s a i _ hm _; exact hm
        | cons p hs ih =>
          obtain ⟨h, e⟩ := p
          intro s a i hi hm hu
          have hue := hu _ List.mem_cons_self
          obtain ⟨s', r, e1, i1, o1⟩ := importBlock_spec ha hi hue.2.1 hue.1
          have hm' := mirror_import hi hue.1 i1 hm (hue.2.2 rfl) o1
          have hu' : ∀ p ∈ hs, U p.1 ∧ EnvOk false p.2 := fun p hp => hu p (List.mem_cons_of_mem _ hp)
          simp only [importLoop, e1]
          cases r with
          | panic => exact hm'
          | ok x => cases x <;> exact ih _ _ _ i1 hm' hu'
          | err x => cases x <;> first | exact ih _ _ _ i1 hm' hu' | exact hm'
      exact hstep hs _ _ _ ih.1 (ih.2 rfl) hu
  | extendTip h e hr hu he _ ih =>
    obtain ⟨s', r, e1, i1, ho⟩ := extendTip_spec ha ih.1 e hu
    rw [e1]
    refine ⟨i1, ?_⟩
    intro hf
    have hm := ih.2 hf
    rcases ho with ⟨-, -, rfl⟩ | ⟨-, -, -, rfl⟩ | ⟨-, hp, -⟩ | ⟨-, rfl, -⟩ | ⟨-, -, -, -, h1, h2, h3, -⟩
    · exact hm
    · exact hm
    · simp [(he.2 hf).2] at hp
    · exact hm
    · simp only
      rw [h3, hm, i1.headers_eq, ih.1.headers_eq, h1]; rfl
  | restart hf hr hp hne hl ih =>
    have hm := ih.2 hf
    rw [hm] at hp
    obtain ⟨s', e1, i1, h1, -, h2⟩ := load_prefix ha hg ih.1 hp hne
    rw [e1] at hl
    simp only [Res.ok.injEq] at hl
    subst hl
    exact ⟨i1, fun _ => by rw [h2, h1]⟩

end Verif.Chain
