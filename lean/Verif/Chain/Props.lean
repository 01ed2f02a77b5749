import Verif.Chain.Import
import Verif.Chain.Scenario

/-!
# Property theorems about the header tree: C01, C02, C03, C05, C07, C11, C13, C14
-/

set_option autoImplicit false

namespace Verif.Chain
open AMap

variable {cfg : Cfg} {U : Header → Prop} {g : Header} {s : State} {fail : Bool}

/-! ## C01 — one linked chain, seen consistently by every query -/

/-- What every query of the API must agree on.  `getByHeight` is `get_block_by_height`, `getBlock` is `get_block`. -/
structure ConsistentView (cfg : Cfg) (g : Header) (s : State) : Prop where
  genesis : s.getByHeight 0 = some g
  linked : ∀ n h h', s.getByHeight n = some h → s.getByHeight (n + 1) = some h' → h'.prev = cfg.hash h
  defined : ∀ n, (s.getByHeight n).isSome ↔ n ≤ s.height
  tip : ∃ h, s.getByHeight s.height = some h ∧ s.tip cfg = (cfg.hash h, h)
  byHash : ∀ k n h, s.getBlock k = some (n, h) ↔ s.getByHeight n = some h ∧ cfg.hash h = k
  contains : ∀ k, s.contains k = true ↔ ∃ n h, s.getByHeight n = some h ∧ cfg.hash h = k
  iter : ∀ n, s.iter[n]? = (s.getByHeight n).map (fun h => (n, h))

theorem path_linked {hash : Header → Nat} : ∀ {l : List Header} {a b : Nat}, Path hash a l b →
    (∀ h, l[0]? = some h → h.prev = a) ∧
    ∀ (n : Nat) (h h' : Header), l[n]? = some h → l[n + 1]? = some h' → h'.prev = hash h
  | [], _, _, _ => by simp
  | x :: l, a, b, hp => by
    have ih := path_linked hp.2
    refine ⟨by rintro h hh; simp at hh; subst hh; exact hp.1, ?_⟩
    intro n h h' h1 h2
    cases n with
    | zero =>
      simp at h1; subst h1
      exact ih.1 h' (by simpa using h2)
    | succ n => exact ih.2 n h h' (by simpa using h1) (by simpa using h2)

theorem getByHeight_headers (s : State) (n : Nat) : s.getByHeight n = s.headers[n]? := by
  simp [State.getByHeight, State.headers]

theorem isSome_getElem?_iff {α : Type} (l : List α) (n : Nat) : (l[n]?).isSome ↔ n < l.length := by
  simp

theorem view_of_inv (hi : TreeInv cfg U g s) : ConsistentView cfg g s := by
  have hh := hi.height_eq
  refine ⟨?_, ?_, ?_, ?_, ?_, ?_, ?_⟩
  · rw [getByHeight_headers, hi.headers_eq]; rfl
  · intro n h h' h1 h2
    rw [getByHeight_headers, hi.headers_eq] at h1 h2
    have hp : Path cfg.hash g.prev (g :: s.above) (cfg.hash s.last.header) := ⟨rfl, hi.path⟩
    exact (path_linked hp).2 n h h' h1 h2
  · intro n
    rw [getByHeight_headers, hi.headers_eq, hh]
    rw [isSome_getElem?_iff]
    simp [State.above]; omega
  · refine ⟨s.last.header, ?_, rfl⟩
    rw [State.getByHeight, hh, chain_last_get]; rfl
  · intro k n h
    constructor
    · intro h1
      obtain ⟨a, b, c⟩ := hi.getBlock h1
      exact ⟨by rw [State.getByHeight, c]; rfl, a⟩
    · rintro ⟨h1, h2⟩
      rw [State.getByHeight] at h1
      cases hb : s.chain[n]? with
      | none => simp [hb] at h1
      | some b =>
        simp only [hb, Option.map_some, Option.some.injEq] at h1
        have := (hi.index k n).2 ⟨b, hb, by rw [h1]; exact h2⟩
        simp only [State.getBlock, this, hb, Option.map_some, hi.heights n b hb, h1]
  · intro k
    simp only [State.contains, AMap.contains, Option.isSome_iff_exists]
    constructor
    · rintro ⟨n, hn⟩
      obtain ⟨b, hb, he⟩ := (hi.index k n).1 hn
      exact ⟨n, b.header, by rw [State.getByHeight, hb]; rfl, he⟩
    · rintro ⟨n, h, h1, h2⟩
      rw [State.getByHeight] at h1
      cases hb : s.chain[n]? with
      | none => simp [hb] at h1
      | some b =>
        simp only [hb, Option.map_some, Option.some.injEq] at h1
        exact ⟨n, (hi.index k n).2 ⟨b, hb, by rw [h1]; exact h2⟩⟩
  · intro n
    simp only [State.iter, State.getByHeight, List.getElem?_map, List.getElem?_zipIdx, Nat.zero_add, Option.map_map]
    rfl

/-- **C01.** In every state reachable through the API — including after store failures — the active chain is one linked
chain rooted at genesis and all queries agree on it. -/
theorem C01_consistent_view (ha : Acyclic cfg U) (hg : cfg.genesisHash = cfg.hash g) (h : Reach cfg U g fail s) :
    ConsistentView cfg g s := view_of_inv (reach_inv ha hg h).1

/-- Non-vacuity: a reachable tree with an active chain of three headers and two stale ones. -/
example : ConsistentView Scenario.cfg Scenario.g Scenario.sAB ∧ Scenario.sAB.height = 2 ∧
    Scenario.sAB.getBlock 12 = some (2, Scenario.a2) ∧ Scenario.sAB.getBlock 21 = none :=
  ⟨C01_consistent_view Scenario.acyclic rfl (Scenario.reachAB true), by decide⟩

/-! ## C02 — chain work -/

/-- **C02 (exactness).** `chain_work()` is the sum of the proof-of-work of all headers of the active chain. -/
theorem C02_chain_work_exact (ha : Acyclic cfg U) (hg : cfg.genesisHash = cfg.hash g) (h : Reach cfg U g fail s) :
    s.chainWork = totalWork cfg s.headers := (reach_inv ha hg h).1.work

/-- Non-vacuity: the work of the example tree is not trivial. -/
example : Scenario.sAB.chainWork = 21 := by decide

/-- Work before and after switching to a branch. -/
theorem switched_work (hi : TreeInv cfg U g s) {c : Candidate} {s' : State} (hi' : TreeInv cfg U g s')
    (hsw : Switched cfg s c s') : s'.chainwork + lostOf cfg s c = s.chainwork + gainOf cfg c := by
  rw [hi'.work, hi.work, hi'.headers_eq, hi.headers_eq, hsw.above]
  have : g :: s.above = (g :: s.above.take c.forkHeight) ++ s.above.drop c.forkHeight := by
    rw [List.cons_append, List.take_append_drop]
  rw [this, totalWork_append, ← List.cons_append, totalWork_append]
  have h2 : lostOf cfg s c = totalWork cfg (s.above.drop c.forkHeight) := by
    simp [lostOf, branchWork, totalWork, State.above]
  have h3 : gainOf cfg c = totalWork cfg c.headers := rfl
  omega

/-- How one import may change chain and work when the store does not fail. -/
theorem import_work (ha : Acyclic cfg U) (hi : TreeInv cfg U g s) {e : Env} {h : Header} (hu : U h)
    (he : EnvOk false e) :
    s.chainwork ≤ (importBlock cfg e s h).1.chainwork ∧
    (cfg.mainnet = true → (importBlock cfg e s h).1.headers ≠ s.headers →
      s.chainwork < (importBlock cfg e s h).1.chainwork) := by
  obtain ⟨s', r, e1, i1, o1⟩ := importBlock_spec ha hi he.1 hu
  rw [e1]
  have hf := he.2 rfl
  cases o1 with
  | selected hk _ _ _ _ o =>
    have io : TreeInv cfg U g (s.withOrphan cfg h) := inv_insertOrphan hi hu (isKnown_false.1 hk).1
    cases o with
    | panic => exact ⟨Nat.le_refl _, fun _ hne => absurd rfl hne⟩
    | store c h => simp [hf.1, hf.2] at h
    | unchanged => exact ⟨Nat.le_refl _, fun _ hne => absurd rfl hne⟩
    | changed c hv f1 f2 hsw hl hst hmax hbetter =>
      have hw := switched_work io i1 hsw
      have hc : (s.withOrphan cfg h).chainwork = s.chainwork := rfl
      rw [hc] at hw
      simp only
      rcases hbetter with hb | ⟨hm, hb, _⟩
      · exact ⟨by omega, fun _ _ => by omega⟩
      · exact ⟨by omega, fun hm' _ => by rw [hm] at hm'; simp at hm'⟩
  | panic => exact ⟨Nat.le_refl _, fun _ hne => absurd rfl hne⟩
  | duplicate => exact ⟨Nat.le_refl _, fun _ hne => absurd rfl hne⟩
  | invalid => exact ⟨Nat.le_refl _, fun _ hne => absurd rfl hne⟩
  | height => exact ⟨Nat.le_refl _, fun _ hne => absurd rfl hne⟩
  | missing => exact ⟨Nat.le_refl _, fun _ hne => absurd rfl hne⟩

/-- Induction principle for batches with environments satisfying `EnvOk fail`. -/
theorem importLoop_induct' (P : State → Prop)
    (hstep : ∀ s h e, P s → U h → EnvOk fail e → P (importBlock cfg e s h).1) :
    ∀ (hs : List (Header × Env)) (s : State) (a : Acc) (i : Nat), P s → (∀ p ∈ hs, U p.1 ∧ EnvOk fail p.2) →
      P (importLoop cfg s a i hs).1
  | [], s, a, i, hP, _ => hP
  | (h, e) :: hs, s, a, i, hP, hu => by
    have h1 := hstep s h e hP (hu _ List.mem_cons_self).1 (hu _ List.mem_cons_self).2
    have hu' : ∀ p ∈ hs, U p.1 ∧ EnvOk fail p.2 := fun p hp => hu p (List.mem_cons_of_mem _ hp)
    simp only [importLoop]
    split
    · rename_i s' _ _ _ _ _ heq; rw [heq] at h1; exact importLoop_induct' P hstep hs _ _ _ h1 hu'
    · rename_i s' heq; rw [heq] at h1; exact importLoop_induct' P hstep hs _ _ _ h1 hu'
    · rename_i s' _ heq; rw [heq] at h1; exact importLoop_induct' P hstep hs _ _ _ h1 hu'
    · rename_i s' _ heq; rw [heq] at h1; exact importLoop_induct' P hstep hs _ _ _ h1 hu'
    · rename_i s' _ _ _ heq; rw [heq] at h1; exact h1
    · rename_i s' heq; rw [heq] at h1; exact h1

/-- **C02 (monotone).** With a store that does not fail, a batch import never decreases the chain work, and on mainnet it
changes the active chain only if the chain work strictly increases. -/
theorem C02_import_monotone (ha : Acyclic cfg U) (hg : cfg.genesisHash = cfg.hash g) (h : Reach cfg U g false s)
    (hs : List (Header × Env)) (hu : ∀ p ∈ hs, U p.1 ∧ EnvOk false p.2) :
    s.chainWork ≤ (importBlocks cfg s hs).1.chainWork ∧
    (cfg.mainnet = true → (importBlocks cfg s hs).1.headers ≠ s.headers →
      s.chainWork < (importBlocks cfg s hs).1.chainWork) := by
  have hi := (reach_inv ha hg h).1
  rw [importBlocks_fst]
  have := importLoop_induct' (cfg := cfg) (U := U) (fail := false)
    (fun s' => TreeInv cfg U g s' ∧ s.chainwork ≤ s'.chainwork ∧
      (cfg.mainnet = true → s'.headers ≠ s.headers → s.chainwork < s'.chainwork))
    (by
      rintro s1 h e ⟨i1, w1, m1⟩ hu he
      obtain ⟨w2, m2⟩ := import_work ha i1 hu he
      obtain ⟨s', r, e1, i2, -⟩ := importBlock_spec ha i1 he.1 hu
      rw [e1] at w2 m2 ⊢
      simp only at w2 m2 ⊢
      refine ⟨i2, by omega, ?_⟩
      intro hm hne
      by_cases heq : s'.headers = s1.headers
      · rw [heq] at hne
        have := m1 hm hne
        omega
      · have := m2 hm heq
        omega)
    hs s ⟨[], [], [], s.height, cfg.hash s.last.header, s.last.header⟩ 0
    ⟨hi, Nat.le_refl _, fun _ hne => absurd rfl hne⟩ hu
  exact this.2

/-- Non-vacuity: the hypotheses hold for an import that re-organises the example tree and increases the work. -/
example : (∀ p ∈ [(Scenario.b3, Scenario.e)], Scenario.U p.1 ∧ EnvOk false p.2) ∧
    (importBlocks Scenario.cfg Scenario.sAB [(Scenario.b3, Scenario.e)]).1.headers =
      [Scenario.g, Scenario.b1, Scenario.b2, Scenario.b3] ∧
    (importBlocks Scenario.cfg Scenario.sAB [(Scenario.b3, Scenario.e)]).1.chainWork = 31 := by
  refine ⟨?_, by decide⟩
  intro p hp
  rw [List.mem_singleton] at hp
  subst hp
  exact ⟨by decide, Scenario.eOk _⟩

/-- **C02 (monotone).** `extend_tip` never decreases the chain work (even if the store fails). -/
theorem C02_extend_monotone (ha : Acyclic cfg U) (hg : cfg.genesisHash = cfg.hash g) (h : Reach cfg U g false s)
    (x : Header) (e : Env) (hu : U x) (he : EnvOk false e) :
    s.chainWork ≤ (extendTip cfg e s x).1.chainWork ∧
    ((extendTip cfg e s x).1.headers ≠ s.headers →
      (extendTip cfg e s x).1.chainWork = s.chainWork + cfg.work x.bits) := by
  have hi := (reach_inv ha hg h).1
  obtain ⟨s', r, e1, i1, ho⟩ := extendTip_spec ha hi e hu
  rw [e1]
  rcases ho with ⟨-, -, rfl⟩ | ⟨-, -, -, rfl⟩ | ⟨-, hp, -⟩ | ⟨-, rfl, -⟩ | ⟨-, -, -, -, h1, h2, h3, -⟩
  · exact ⟨Nat.le_refl _, fun hne => absurd rfl hne⟩
  · exact ⟨Nat.le_refl _, fun hne => absurd rfl hne⟩
  · simp [(he.2 rfl).2] at hp
  · exact ⟨Nat.le_refl _, fun hne => absurd rfl hne⟩
  · have : s'.chainwork = s.chainwork + cfg.work x.bits := by
      rw [i1.work, hi.work, i1.headers_eq, hi.headers_eq, h1, ← List.cons_append, totalWork_append]
      simp [totalWork]
    exact ⟨by simp only [State.chainWork]; omega, fun _ => this⟩

/-- Non-vacuity: extending the example tree. -/
example : (extendTip Scenario.cfg Scenario.e Scenario.sAB Scenario.a3).1.headers =
    [Scenario.g, Scenario.a1, Scenario.a2, Scenario.a3] ∧ Scenario.U Scenario.a3 := by decide

/-! ## C03 — the branch with most work is selected -/

/-- A chain of known stale headers on top of the active block `b` at height `n`, ending in hash `t`.  Known stale headers
are those in the orphan set, i.e. known to the tree and not active. -/
structure KnownFork (cfg : Cfg) (s : State) (n : Nat) (b : Header) (hs : List Header) (t : Nat) : Prop where
  base : s.getByHeight n = some b
  nonempty : hs ≠ []
  linked : Path cfg.hash (cfg.hash b) hs t
  known : ∀ h ∈ hs, s.orphans.get (cfg.hash h) = some h

theorem getByHeight_blk (hi : TreeInv cfg U g s) {n : Nat} {b : Header} (h : s.getByHeight n = some b) :
    s.chain[n]? = some ⟨n, b⟩ := by
  rw [State.getByHeight] at h
  cases hb : s.chain[n]? with
  | none => simp [hb] at h
  | some x =>
    simp only [hb, Option.map_some, Option.some.injEq] at h
    have := hi.heights n x hb
    cases x; simp_all

theorem KnownFork.isBranch (hi : TreeInv cfg U g s) {n : Nat} {b : Header} {hs : List Header} {t : Nat}
    (hf : KnownFork cfg s n b hs t) : IsBranch cfg s t ⟨t, hs, n, b⟩ :=
  ⟨rfl, hf.nonempty, getByHeight_blk hi hf.base, hf.linked, hf.known⟩

theorem IsBranch.knownFork {t : Nat} {c : Candidate} (hb : IsBranch cfg s t c) :
    KnownFork cfg s c.forkHeight c.forkHeader c.headers t :=
  ⟨by rw [State.getByHeight, hb.forkBlk]; rfl, hb.nonempty, hb.path, hb.stale⟩

/-- Work of the chain obtained by switching to a fork. -/
theorem fork_total (hi : TreeInv cfg U g s) (c : Candidate) :
    totalWork cfg (s.headers.take (c.forkHeight + 1) ++ c.headers) + lostOf cfg s c = s.chainwork + gainOf cfg c := by
  rw [hi.work, totalWork_append]
  have h1 : s.headers = s.headers.take (c.forkHeight + 1) ++ s.headers.drop (c.forkHeight + 1) :=
    (List.take_append_drop _ _).symm
  have h2 : lostOf cfg s c = totalWork cfg (s.headers.drop (c.forkHeight + 1)) := by
    simp [lostOf, branchWork, totalWork, State.headers, State.chain]
  have h3 : gainOf cfg c = totalWork cfg c.headers := rfl
  have h4 : totalWork cfg s.headers = totalWork cfg (s.headers.take (c.forkHeight + 1)) +
      totalWork cfg (s.headers.drop (c.forkHeight + 1)) := by rw [← totalWork_append, ← h1]
  omega

/-- **C03.** If importing a header `h` succeeds, then — with `s₁` the old tree plus `h` as a known header — the resulting
chain carries at least the work of the old active chain and of every chain made of a prefix of the old active chain followed
by a known valid fork; off mainnet, among those of equal work it has the lowest tip hash.  If the chain changed, it is
such a chain. -/
theorem C03_most_work (ha : Acyclic cfg U) (hg : cfg.genesisHash = cfg.hash g) (hr : Reach cfg U g false s)
    {e : Env} (he : EnvOk false e) {h : Header} (hu : U h) {s' : State} {r : ImportResult}
    (hi : importBlock cfg e s h = (s', .ok r)) :
    s.chainWork ≤ s'.chainWork ∧
    (∀ n b hs t, KnownFork cfg (s.withOrphan cfg h) n b hs t →
      validateHeaders cfg e.clock (s.withOrphan cfg h) ⟨n, b⟩ hs = .ok () →
      totalWork cfg (s.headers.take (n + 1) ++ hs) ≤ s'.chainWork ∧
      (cfg.mainnet = false → totalWork cfg (s.headers.take (n + 1) ++ hs) = s'.chainWork → (s'.tip cfg).1 ≤ t)) ∧
    (s'.headers = s.headers ∨ ∃ n b hs t, KnownFork cfg (s.withOrphan cfg h) n b hs t ∧
      validateHeaders cfg e.clock (s.withOrphan cfg h) ⟨n, b⟩ hs = .ok () ∧
      s'.headers = s.headers.take (n + 1) ++ hs ∧ (s'.tip cfg).1 = t) := by
  have i0 := (reach_inv ha hg hr).1
  obtain ⟨s2, r2, e1, i1, o1⟩ := importBlock_spec ha i0 he.1 hu
  rw [hi] at e1
  obtain ⟨rfl, rfl⟩ := Prod.mk.inj e1
  cases o1 with
  | selected hk _ _ _ _ o =>
    have io : TreeInv cfg U g (s.withOrphan cfg h) := inv_insertOrphan i0 hu (isKnown_false.1 hk).1
    have hhd : (s.withOrphan cfg h).headers = s.headers := rfl
    have hcw : (s.withOrphan cfg h).chainwork = s.chainwork := rfl
    have hvb : ∀ {n b hs t}, KnownFork cfg (s.withOrphan cfg h) n b hs t →
        validateHeaders cfg e.clock (s.withOrphan cfg h) ⟨n, b⟩ hs = .ok () →
        ValidBranch cfg e.clock (s.withOrphan cfg h) ⟨t, hs, n, b⟩ :=
      fun hf hv => ⟨hf.isBranch io, hv⟩
    cases o with
    | unchanged hall =>
      refine ⟨Nat.le_refl _, ?_, .inl rfl⟩
      intro n b hs t hf hv
      have h1 := hall _ (hvb hf hv)
      have h2 : totalWork cfg (s.headers.take (n + 1) ++ hs) + lostOf cfg (s.withOrphan cfg h) ⟨t, hs, n, b⟩ =
          s.chainwork + gainOf cfg ⟨t, hs, n, b⟩ := fork_total io ⟨t, hs, n, b⟩
      simp only [State.chainWork, hcw]
      refine ⟨by omega, ?_⟩
      intro hm heq
      have := h1.2 hm (by omega)
      exact this
    | changed c hv f1 f2 hsw hl hst hmax hbetter =>
      have hw := switched_work io i1 hsw
      rw [hcw] at hw
      simp only [State.chainWork]
      refine ⟨by rcases hbetter with hb | ⟨_, hb, _⟩ <;> omega, ?_, .inr ⟨c.forkHeight, c.forkHeader, c.headers, c.tip,
        hv.1.knownFork, hv.2, ?_, hl⟩⟩
      · intro n b hs t hf hv'
        have h1 := hmax _ (hvb hf hv')
        have h2 : totalWork cfg (s.headers.take (n + 1) ++ hs) + lostOf cfg (s.withOrphan cfg h) ⟨t, hs, n, b⟩ =
            s.chainwork + gainOf cfg ⟨t, hs, n, b⟩ := fork_total io ⟨t, hs, n, b⟩
        refine ⟨by omega, ?_⟩
        intro hm heq
        have := h1.2 hm (by omega)
        simp only [State.tip, hl]
        exact this
      · rw [i1.headers_eq, hsw.above, ← hhd, io.headers_take]; rfl

/-- Non-vacuity: importing `b3` into the example tree succeeds, and `[b1, b2, b3]` is then a known valid fork at genesis. -/
example : (∃ r, (importBlock Scenario.cfg Scenario.e Scenario.sAB Scenario.b3).2 = .ok r) ∧
    KnownFork Scenario.cfg (Scenario.sAB.withOrphan Scenario.cfg Scenario.b3) 0 Scenario.g
      [Scenario.b1, Scenario.b2, Scenario.b3] 23 ∧
    validateHeaders Scenario.cfg Scenario.e.clock (Scenario.sAB.withOrphan Scenario.cfg Scenario.b3) ⟨0, Scenario.g⟩
      [Scenario.b1, Scenario.b2, Scenario.b3] = .ok () :=
  ⟨⟨_, rfl⟩, ⟨by decide, by decide, by decide, by decide⟩, by decide⟩

/-! ## C05 — a single import reports exactly what changed -/

/-- `iter()` as a list of (height, header). -/
theorem iter_eq (hi : TreeInv cfg U g s) : s.iter = s.chain.map (fun b => (b.height, b.header)) := by
  have := zipIdx_heights s.chain 0 (fun i b h => by rw [hi.heights i b h]; omega)
  simp only [Nat.zero_add] at this
  exact this

/-- The report of a single import, from the invariant. -/
theorem import_report (ha : Acyclic cfg U) (i0 : TreeInv cfg U g s)
    {e : Env} (he : e.Fair) {h : Header} (hu : U h) {s' : State} {r : ImportResult}
    (hi : importBlock cfg e s h = (s', .ok r)) :
    match r with
    | .tipUnchanged => s'.iter = s.iter
    | .tipChanged header hash height reverted connected =>
      (∃ n, n ≤ s.height ∧ n < s'.height ∧ s'.iter.take (n + 1) = s.iter.take (n + 1) ∧
        reverted = s.iter.drop (n + 1) ∧ connected = s'.iter.drop (n + 1)) ∧
      (∀ p ∈ connected, s.contains (cfg.hash p.2) = false) ∧
      (∀ p ∈ reverted, s'.contains (cfg.hash p.2) = false) ∧
      s'.tip cfg = (hash, header) ∧ s'.height = height := by
  obtain ⟨s2, r2, e1, i1, o1⟩ := importBlock_spec ha i0 he hu
  rw [hi] at e1
  obtain ⟨rfl, rfl⟩ := Prod.mk.inj e1
  cases o1 with
  | selected hk _ _ _ _ o =>
    have io : TreeInv cfg U g (s.withOrphan cfg h) := inv_insertOrphan i0 hu (isKnown_false.1 hk).1
    have hhd : (s.withOrphan cfg h).headers = s.headers := rfl
    cases o with
    | unchanged => exact rfl
    | changed c hv f1 f2 hsw hl hst hmax hbetter =>
      have hle : c.forkHeight ≤ s.tail.length := hv.1.fork_le
      have hpos : 0 < c.headers.length := List.length_pos_of_ne_nil hv.1.nonempty
      have habove : s'.above = s.above.take c.forkHeight ++ c.headers := hsw.above
      have htl : s'.tail.length = c.forkHeight + c.headers.length := by
        have := congrArg List.length habove
        simp only [State.above, List.length_map, List.length_append, List.length_take] at this
        omega
      have hdrop : s'.headers.drop (c.forkHeight + 1) = c.headers := by
        rw [i1.headers_eq, List.drop_succ_cons, habove]
        exact List.drop_left' (by simp [State.above]; omega)
      have htake : s'.headers.take (c.forkHeight + 1) = s.headers.take (c.forkHeight + 1) := by
        rw [i1.headers_take, i0.headers_take, habove]
        congr 1
        exact List.take_left' (by simp [State.above]; omega)
      have hget : ∀ i, i < c.forkHeight + 1 → s'.getByHeight i = s.getByHeight i := by
        intro i hlt
        have := congrArg (fun l : List Header => l[i]?) htake
        simp only [List.getElem?_take, hlt, ite_true] at this
        rw [getByHeight_headers, getByHeight_headers]; exact this
      have hv0 := view_of_inv i0
      have hv1 := view_of_inv i1
      simp only
      refine ⟨⟨c.forkHeight, by rw [i0.height_eq]; exact hle, by rw [i1.height_eq]; omega, ?_, ?_, ?_⟩, ?_, ?_,
        by rw [← hl]; rfl, trivial⟩
      · apply List.ext_getElem?
        intro i
        simp only [List.getElem?_take]
        split
        · rename_i hlt; rw [hv1.iter, hv0.iter, hget i hlt]
        · rfl
      · rw [iter_eq i0, List.map_drop]; rfl
      · rw [iter_eq i1, List.map_drop]
      · intro p hp
        obtain ⟨b, hb, rfl⟩ := List.mem_map.1 hp
        have : b.header ∈ s'.headers.drop (c.forkHeight + 1) := by
          simp only [State.headers, ← List.map_drop]
          exact List.mem_map.2 ⟨b, hb, rfl⟩
        rw [hdrop] at this
        have h1 := (io.orphans _ _ (hv.1.stale _ this)).2.2
        simpa [State.contains, AMap.contains, State.withOrphan] using h1
      · intro p hp
        obtain ⟨b, hb, rfl⟩ := List.mem_map.1 hp
        have h1 : b ∈ s.tail.drop c.forkHeight := by simpa [State.chain, State.withOrphan] using hb
        have hne : cfg.hash b.header ∉ c.headers.map cfg.hash := by
          intro hm
          obtain ⟨x, hx, hxe⟩ := List.mem_map.1 hm
          have h2 := (io.orphans _ _ (hv.1.stale _ hx)).2.2
          rw [hxe, io.contains_iff] at h2
          exact h2 b.header (List.mem_map.2 ⟨b, List.mem_cons_of_mem _ (List.mem_of_mem_drop h1), rfl⟩) rfl
        have h3 := (hsw.orphans (cfg.hash b.header) b.header).2 ⟨hne, .inl ⟨b, h1, rfl, rfl⟩⟩
        have h4 := (i1.orphans _ _ h3).2.2
        simpa [State.contains, AMap.contains] using h4

/-- **C05.** A changed tip is reported with the exact lists: there is a fork height `n` up to which old and new chain agree;
`reverted` / `connected` are what `iter()` lists above it before / after; none of the connected headers was active before,
none of the reverted headers is active after; the tip triple is the new tip.  If the tip is reported unchanged, so is the
chain. -/
theorem C05_single_import_report (ha : Acyclic cfg U) (hg : cfg.genesisHash = cfg.hash g) (hr : Reach cfg U g fail s)
    {e : Env} (he : EnvOk fail e) {h : Header} (hu : U h) {s' : State} {r : ImportResult}
    (hi : importBlock cfg e s h = (s', .ok r)) :
    match r with
    | .tipUnchanged => s'.iter = s.iter
    | .tipChanged header hash height reverted connected =>
      (∃ n, n ≤ s.height ∧ n < s'.height ∧ s'.iter.take (n + 1) = s.iter.take (n + 1) ∧
        reverted = s.iter.drop (n + 1) ∧ connected = s'.iter.drop (n + 1)) ∧
      (∀ p ∈ connected, s.contains (cfg.hash p.2) = false) ∧
      (∀ p ∈ reverted, s'.contains (cfg.hash p.2) = false) ∧
      s'.tip cfg = (hash, header) ∧ s'.height = height :=
  import_report ha (reach_inv ha hg hr).1 he.1 hu hi

/-- Non-vacuity: the re-org of the example tree reverts two headers and connects three. -/
example : (importBlock Scenario.cfg Scenario.e Scenario.sAB Scenario.b3).2 =
    .ok (.tipChanged Scenario.b3 23 3 [(1, Scenario.a1), (2, Scenario.a2)]
      [(1, Scenario.b1), (2, Scenario.b2), (3, Scenario.b3)]) := by decide

/-! ## C07 — rejected headers do not disturb the chain -/

/-- **C07 (single header).** If importing a header is rejected with any error other than a store failure, the active chain,
its work, its index and the store are unchanged.  The only trace a rejected header may leave is that it becomes known as an
unconnected header, and that only when its parent is unknown. -/
theorem C07_rejected_import (ha : Acyclic cfg U) (hg : cfg.genesisHash = cfg.hash g) (hr : Reach cfg U g fail s)
    {e : Env} (he : EnvOk fail e) {h : Header} (hu : U h) {s' : State} {er : Err}
    (hi : importBlock cfg e s h = (s', .err er)) (hns : er ≠ .store) :
    s'.iter = s.iter ∧ s'.chainWork = s.chainWork ∧ s'.index = s.index ∧ s'.store = s.store ∧
    (s' = s ∨ (er = .missing h.prev ∧ s.isKnown h.prev = false ∧ s.isKnown (cfg.hash h) = false ∧
      s' = s.withOrphan cfg h)) := by
  have i0 := (reach_inv ha hg hr).1
  obtain ⟨s2, r2, e1, i1, o1⟩ := importBlock_spec ha i0 he.1 hu
  rw [hi] at e1
  obtain ⟨rfl, rfl⟩ := Prod.mk.inj e1
  cases o1 with
  | duplicate => exact ⟨rfl, rfl, rfl, rfl, .inl rfl⟩
  | invalid => exact ⟨rfl, rfl, rfl, rfl, .inl rfl⟩
  | height => exact ⟨rfl, rfl, rfl, rfl, .inl rfl⟩
  | missing hk hp => exact ⟨rfl, rfl, rfl, rfl, .inr ⟨rfl, hp, hk, rfl⟩⟩
  | selected hk _ _ _ _ o =>
    cases o with
    | store => exact absurd rfl hns

/-- Non-vacuity: a header with a too old time stamp on top of the tip, and an unconnected header, are rejected. -/
example : (importBlock Scenario.cfg Scenario.e Scenario.sAB (Scenario.mk 13 12 150 10)).2 = .err (.timeTooOld 150) ∧
    (importBlock Scenario.cfg Scenario.e Scenario.sAB (Scenario.mk 33 32 150 10)).2 = .err (.missing 32) := by decide

/-- **C07 (extend_tip).** -/
theorem C07_rejected_extend (ha : Acyclic cfg U) (hg : cfg.genesisHash = cfg.hash g) (hr : Reach cfg U g fail s)
    {e : Env} {h : Header} (hu : U h) {s' : State} {er : Err}
    (hi : extendTip cfg e s h = (s', .err er)) (hns : er ≠ .store) : s' = s := by
  have i0 := (reach_inv ha hg hr).1
  obtain ⟨s2, r2, e1, i1, o1⟩ := extendTip_spec ha i0 e hu
  rw [hi] at e1
  obtain ⟨rfl, rfl⟩ := Prod.mk.inj e1
  rcases o1 with ⟨h, -, -⟩ | ⟨er, -, -, h⟩ | ⟨h, -⟩ | ⟨h, -⟩ | ⟨h, -⟩
  · simp at h
  · exact h
  · simp at h; exact absurd h hns
  · simp at h
  · simp at h

/-- Non-vacuity: a rejected extension. -/
example : (extendTip Scenario.cfg Scenario.e Scenario.sAB (Scenario.mk 13 12 150 10)).2 = .err (.timeTooOld 150) := by
  decide

theorem importLoop_abort (cfg : Cfg) : ∀ (hs : List (Header × Env)) (s : State) (a : Acc) (i : Nat) (s' : State)
    (er : Err), importLoop cfg s a i hs = (s', .err er) →
    ∃ k s1 a1 h e inner, k < hs.length ∧ er = .aborted inner (i + k) s'.height ∧
      importLoop cfg s a i (hs.take k) = (s1, .ok a1) ∧ hs[k]? = some (h, e) ∧
      importBlock cfg e s1 h = (s', .err inner) ∧ (∀ x, inner ≠ .duplicate x) ∧ ∀ x, inner ≠ .missing x
  | [], s, a, i, s', er, h => by simp [importLoop] at h
  | (hd, e) :: hs, s, a, i, s', er, h => by
    have key : ∀ s1 a1, importLoop cfg s1 a1 (i + 1) hs = (s', .err er) →
        (∀ tl, importLoop cfg s a i ((hd, e) :: tl) = importLoop cfg s1 a1 (i + 1) tl) →
        ∃ k s2 a2 h' e' inner, k < ((hd, e) :: hs).length ∧ er = .aborted inner (i + k) s'.height ∧
          importLoop cfg s a i (((hd, e) :: hs).take k) = (s2, .ok a2) ∧ ((hd, e) :: hs)[k]? = some (h', e') ∧
          importBlock cfg e' s2 h' = (s', .err inner) ∧ (∀ x, inner ≠ .duplicate x) ∧ ∀ x, inner ≠ .missing x := by
      intro s1 a1 h1 htl
      obtain ⟨k, s2, a2, h', e', inner, q1, q2, q3, q4, q5, q6⟩ := importLoop_abort cfg hs s1 a1 (i + 1) s' er h1
      refine ⟨k + 1, s2, a2, h', e', inner, by simp; omega, ?_, ?_, by simpa using q4, q5, q6⟩
      · rw [q2]; congr 1; omega
      · rw [List.take_succ_cons, htl]; exact q3
    simp only [importLoop] at h key
    cases hib : importBlock cfg e s hd with
    | mk s1 r =>
      rw [hib] at h
      simp only [hib] at key
      cases r with
      | panic => simp at h
      | ok x =>
        cases x with
        | tipUnchanged => exact key _ _ h (fun _ => rfl)
        | tipChanged => exact key _ _ h (fun _ => rfl)
      | err x =>
        cases x with
        | duplicate => exact key _ _ h (fun _ => rfl)
        | missing => exact key _ _ h (fun _ => rfl)
        | _ =>
          simp only [Prod.mk.injEq, Res.err.injEq] at h
          obtain ⟨rfl, rfl⟩ := h
          exact ⟨0, s, a, hd, e, _, by simp, by simp, rfl, rfl, hib, by simp, by simp⟩

/-- **C07 (batch).** If a batch aborts (and the store did not fail), there is a position `k` such that importing the first
`k` headers succeeds, the header at position `k` is rejected with the reported inner error, and the tree is exactly what
importing the first `k` headers gives. -/
theorem C07_aborted_batch (ha : Acyclic cfg U) (hg : cfg.genesisHash = cfg.hash g) (hr : Reach cfg U g false s)
    (hs : List (Header × Env)) (hu : ∀ p ∈ hs, U p.1 ∧ EnvOk false p.2) {s' : State} {er : Err}
    (hi : importBlocks cfg s hs = (s', .err er)) :
    ∃ k h e inner, hs[k]? = some (h, e) ∧ er = .aborted inner k s'.height ∧
      s' = (importBlocks cfg s (hs.take k)).1 ∧ (∀ x, (importBlocks cfg s (hs.take k)).2 ≠ .err x) ∧
      (importBlock cfg e (importBlocks cfg s (hs.take k)).1 h).2 = .err inner := by
  have hloop : importLoop cfg s ⟨[], [], [], s.height, cfg.hash s.last.header, s.last.header⟩ 0 hs = (s', .err er) := by
    unfold importBlocks at hi
    simp only at hi
    split at hi
    · split at hi
      · simp at hi
      · split at hi <;> simp at hi
    · rename_i s1 er1 heq
      simp only [Prod.mk.injEq, Res.err.injEq] at hi
      rw [← hi.1, ← hi.2]
      exact heq
    · simp at hi
  obtain ⟨k, s1, a1, h, e, inner, q1, q2, q3, q4, q5, q6, q7⟩ := importLoop_abort cfg hs s _ 0 s' er hloop
  have i0 := (reach_inv ha hg hr).1
  have hfst : (importBlocks cfg s (hs.take k)).1 = s1 := by rw [importBlocks_fst, q3]
  have i1 : TreeInv cfg U g s1 := by
    rw [← hfst]
    exact inv_importBlocks ha i0 _ (fun p hp => ⟨(hu p (List.mem_of_mem_take hp)).1, (hu p (List.mem_of_mem_take hp)).2.1⟩)
  have hmem : U h ∧ EnvOk false e := hu _ (List.mem_of_getElem? q4)
  have hss : s' = s1 := by
    obtain ⟨s2, r2, e1, -, o1⟩ := importBlock_spec ha i1 hmem.2.1 hmem.1
    rw [q5] at e1
    obtain ⟨rfl, rfl⟩ := Prod.mk.inj e1
    cases o1 with
    | duplicate => exact absurd rfl (q6 _)
    | invalid => rfl
    | height => rfl
    | missing => exact absurd rfl (q7 _)
    | selected hk _ _ _ _ o =>
      cases o with
      | store c hf => have := hmem.2.2 rfl; simp [this.1, this.2] at hf
  refine ⟨k, h, e, inner, q4, by rw [q2, Nat.zero_add], by rw [hfst]; exact hss, ?_, by rw [hfst, q5]⟩
  intro x
  unfold importBlocks
  simp only [q3]
  split
  · simp
  · split <;> simp

/-- Non-vacuity: a batch whose second header is rejected after the first re-organised the chain. -/
example : importBlocks Scenario.cfg Scenario.sAB
      [(Scenario.b3, Scenario.e), (Scenario.mk 24 23 150 10, Scenario.e), (Scenario.a3, Scenario.e)] =
    ((importBlocks Scenario.cfg Scenario.sAB [(Scenario.b3, Scenario.e)]).1, .err (.aborted (.timeTooOld 150) 1 3)) := by
  decide

/-! ## C11 — the store mirrors the chain; reloading restores it -/

/-- **C11.** With a store that never failed, the store holds exactly the active chain, and opening a new tree on it
succeeds and gives the same answers to every query about the active chain, with no stale headers. -/
theorem C11_store_mirror_reload (ha : Acyclic cfg U) (hg : cfg.genesisHash = cfg.hash g) (hr : Reach cfg U g false s) :
    s.store = s.headers ∧
    ∃ s', load cfg (new cfg g s.store) = .ok s' ∧ s'.store = s.store ∧ s'.headers = s.headers ∧ s'.iter = s.iter ∧
      s'.height = s.height ∧ s'.tip cfg = s.tip cfg ∧ s'.chainWork = s.chainWork ∧
      (∀ k, s'.getBlock k = s.getBlock k) ∧ (∀ k, s'.contains k = s.contains k) ∧
      (∀ n, s'.getByHeight n = s.getByHeight n) ∧ ∀ k, s'.isKnown k = s.contains k := by
  obtain ⟨i0, hm⟩ := reach_inv ha hg hr
  have hm := hm rfl
  refine ⟨hm, ?_⟩
  obtain ⟨s', e1, i1, h1, h2, h3⟩ := load_spec ha hg i0.tailU i0.path
  have hh : s'.headers = s.headers := by rw [h1, i0.headers_eq]
  have v0 := view_of_inv i0
  have v1 := view_of_inv i1
  have hgb : ∀ n, s'.getByHeight n = s.getByHeight n := by
    intro n; rw [getByHeight_headers, getByHeight_headers, hh]
  have hblk : ∀ k, s'.getBlock k = s.getBlock k := by
    intro k
    apply Option.ext
    rintro ⟨n, h⟩
    rw [v1.byHash, v0.byHash, hgb]
  have hcon : ∀ k, s'.contains k = s.contains k := by
    intro k
    rw [Bool.eq_iff_iff, v1.contains, v0.contains]
    simp only [hgb]
  have hlen : s'.height = s.height := by
    rw [i1.height_eq, i0.height_eq]
    have := congrArg List.length hh
    simpa [State.headers, State.chain] using this
  refine ⟨s', by rw [hm, i0.headers_eq]; exact e1, by rw [h3, hm, i0.headers_eq], hh, ?_, hlen, ?_, ?_, hblk, hcon, hgb,
    ?_⟩
  · apply List.ext_getElem?
    intro n; rw [v1.iter, v0.iter, hgb]
  · obtain ⟨x, hx, hx2⟩ := v1.tip
    obtain ⟨y, hy, hy2⟩ := v0.tip
    rw [hx2, hy2]
    rw [hgb, hlen, hy] at hx
    simp at hx; rw [hx]
  · simp only [State.chainWork]; rw [i1.work, i0.work, hh]
  · intro k
    have := hcon k
    simp only [State.contains] at this
    simp [State.isKnown, State.contains, h2, AMap.contains] at this ⊢
    exact this

/-- Non-vacuity: the store of the example tree and its reload. -/
example : Scenario.sAB.store = [Scenario.g, Scenario.a1, Scenario.a2] ∧
    ∃ s', load Scenario.cfg (new Scenario.cfg Scenario.g Scenario.sAB.store) = .ok s' ∧ s'.height = 2 :=
  ⟨by decide, _, rfl, by decide⟩

/-! ## C13 — answering getheaders -/

/-- The active headers at heights `a+1 … a+n`. -/
def segment (s : State) (a n : Nat) : List Header := (s.headers.drop (a + 1)).take n

/-- **C13.** `locate_headers` never panics.  Without locators it returns the stop header if active, else nothing.  With
locators it returns consecutive active headers starting right above the first locator that is active (above genesis if
none is), at most `max` of them, not beyond `stop` if that is active; and it stops early only at `stop`, the tip, or after
`max` headers. -/
theorem C13_locate_headers (ha : Acyclic cfg U) (hg : cfg.genesisHash = cfg.hash g) (hr : Reach cfg U g fail s)
    (locators : List Nat) (stop max : Nat) :
    ∃ hs, locateHeaders s locators stop max = .ok hs ∧
      (locators = [] → hs = ((s.getBlock stop).map (·.2)).toList) ∧
      (locators ≠ [] → ∃ start,
        ((∃ k, locators.find? (fun k => s.contains k) = some k ∧ ∃ h, s.getBlock k = some (start, h)) ∨
          ((∀ k ∈ locators, s.contains k = false) ∧ start = 0)) ∧
        ∃ last, ((∃ h, s.getBlock stop = some (last, h)) ∨ (s.contains stop = false ∧ last = s.height)) ∧
          hs = segment s start (min max (last - start))) := by
  have i0 := (reach_inv ha hg hr).1
  have v0 := view_of_inv i0
  unfold locateHeaders
  by_cases hl : locators = []
  · subst hl
    cases hb : s.getBlock stop with
    | none => exact ⟨[], by simp, by simp, by simp⟩
    | some p => exact ⟨[p.2], by simp, by simp, by simp⟩
  · have hne : locators.isEmpty = false := by simp [hl]
    simp only [hne, Bool.false_eq_true, ite_false]
    have hstart : ∃ start, locateStart s locators = .ok start ∧
        ((∃ k, locators.find? (fun k => s.contains k) = some k ∧ ∃ h, s.getBlock k = some (start, h)) ∨
          ((∀ k ∈ locators, s.contains k = false) ∧ start = 0)) := by
      unfold locateStart
      cases hf : locators.find? (fun h => s.contains h) with
      | none =>
        refine ⟨0, rfl, .inr ⟨?_, rfl⟩⟩
        rw [List.find?_eq_none] at hf
        intro k hk
        simpa using hf k hk
      | some k =>
        have hc := List.find?_some hf
        obtain ⟨n, h, h1, h2⟩ := (v0.contains k).1 hc
        have hb := (v0.byHash k n h).2 ⟨h1, h2⟩
        refine ⟨n, by simp [hb], .inl ⟨k, rfl, h, hb⟩⟩
    obtain ⟨start, e1, hs1⟩ := hstart
    have hlast : ∃ last, locateStop s stop = last ∧
        ((∃ h, s.getBlock stop = some (last, h)) ∨ (s.contains stop = false ∧ last = s.height)) ∧ last ≤ s.height := by
      unfold locateStop
      cases hb : s.getBlock stop with
      | none =>
        refine ⟨_, rfl, .inr ⟨?_, rfl⟩, Nat.le_refl _⟩
        have := i0.getBlock_none hb
        simpa [State.contains, AMap.contains] using this
      | some p =>
        refine ⟨_, rfl, .inl ⟨p.2, rfl⟩, ?_⟩
        have := (v0.byHash stop p.1 p.2).1 hb
        exact (v0.defined _).1 (by rw [this.1]; rfl)
    obtain ⟨last, e2, hs2, hle⟩ := hlast
    rw [e1]
    simp only [Res.ok_bind]
    by_cases hgt : start + 1 > min (start + 1 + max) (last + 1)
    · refine ⟨[], ?_, fun h => absurd h hl, fun _ => ⟨start, hs1, last, hs2, ?_⟩⟩
      · rw [e2, if_pos hgt]
      · have : min max (last - start) = 0 := by omega
        rw [this]; simp [segment]
    · refine ⟨segment s start (min max (last - start)), ?_, fun h => absurd h hl,
        fun _ => ⟨start, hs1, last, hs2, rfl⟩⟩
      rw [e2, if_neg hgt]
      simp only [State.range]
      rw [if_pos (by omega)]
      simp only [Res.ok_bind, segment, State.headers, List.map_drop, List.map_take]
      congr 2
      omega

/-- Non-vacuity: locators with an unknown first hash, and with a stop hash. -/
example : locateHeaders Scenario.sAB [99, 11, 1] 0 2000 = .ok [Scenario.a2] ∧
    locateHeaders Scenario.sAB [1] 11 2000 = .ok [Scenario.a1] ∧
    locateHeaders Scenario.sAB [1] 0 1 = .ok [Scenario.a1] ∧ locateHeaders Scenario.sAB [] 12 5 = .ok [Scenario.a2] := by
  decide

/-! ## C14 — find_branch -/

/-- **C14.** `find_branch` never panics; for an active block it returns just that block; for a known stale block connected to
the active chain it returns the active fork block with its height followed by the stale headers up to the block; and it
returns nothing otherwise. -/
theorem C14_find_branch (ha : Acyclic cfg U) (hg : cfg.genesisHash = cfg.hash g) (hr : Reach cfg U g fail s)
    (t : Nat) :
    ∃ r, findBranch s t = .ok r ∧
      ∀ n hs, r = some (n, hs) ↔
        (∃ h, s.getByHeight n = some h ∧ cfg.hash h = t ∧ hs = [h]) ∨
        (s.contains t = false ∧ ∃ b tl, hs = b :: tl ∧ KnownFork cfg s n b tl t) := by
  have i0 := (reach_inv ha hg hr).1
  have v0 := view_of_inv i0
  unfold findBranch
  cases hb : s.getBlock t with
  | some p =>
    obtain ⟨n0, h0⟩ := p
    refine ⟨_, rfl, ?_⟩
    intro n hs
    have hq := (v0.byHash _ _ _).1 hb
    have hcon : s.contains t = true := (v0.contains t).2 ⟨n0, h0, hq⟩
    constructor
    · intro h
      simp only [Option.some.injEq, Prod.mk.injEq] at h
      obtain ⟨rfl, rfl⟩ := h
      exact .inl ⟨h0, hq.1, hq.2, rfl⟩
    · rintro (⟨h, h1, h2, rfl⟩ | ⟨h, -⟩)
      · have := (v0.byHash _ _ _).2 ⟨h1, h2⟩
        rw [hb] at this
        simp at this; simp [this]
      · rw [hcon] at h; simp at h
  | none =>
    have hnone := i0.getBlock_none hb
    have hcon : s.contains t = false := by simpa [State.contains, AMap.contains] using hnone
    have hno : ∀ n h, ¬ (s.getByHeight n = some h ∧ cfg.hash h = t) := by
      intro n h hh
      have := (v0.byHash _ _ _).2 hh
      rw [hb] at this; simp at this
    rcases fork_spec ha i0 hnone with ⟨c, hf, hbr⟩ | ⟨hf, hnb⟩
    · refine ⟨some (c.forkHeight, c.forkHeader :: c.headers), by simp [hf], ?_⟩
      intro n hs
      constructor
      · intro h
        simp only [Option.some.injEq, Prod.mk.injEq] at h
        obtain ⟨rfl, rfl⟩ := h
        exact .inr ⟨hcon, _, _, rfl, hbr.knownFork⟩
      · rintro (⟨h, h1, h2, rfl⟩ | ⟨-, b, tl, rfl, hk⟩)
        · exact absurd ⟨h1, h2⟩ (hno n h)
        · have := branch_unique i0 hbr (hk.isBranch i0)
          rw [this]
    · refine ⟨none, by simp [hf], ?_⟩
      intro n hs
      constructor
      · simp
      · rintro (⟨h, h1, h2, rfl⟩ | ⟨-, b, tl, rfl, hk⟩)
        · exact absurd ⟨h1, h2⟩ (hno n h)
        · exact absurd (hk.isBranch i0) (hnb _)

/-- Non-vacuity: an active block, a connected stale block, an unknown block. -/
example : findBranch Scenario.sAB 11 = .ok (some (1, [Scenario.a1])) ∧
    findBranch Scenario.sAB 22 = .ok (some (0, [Scenario.g, Scenario.b1, Scenario.b2])) ∧
    findBranch Scenario.sAB 77 = .ok none := by decide

end Verif.Chain
