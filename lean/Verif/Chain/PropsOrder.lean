import Verif.Chain.PropsBatch
import Verif.Chain.Valid

/-!
# Property theorem about arrival order: C04
-/

set_option autoImplicit false

namespace Verif.Chain
open AMap

variable {cfg : Cfg} {U : Header → Prop} {g : Header} {s : State}

/-! ## Specification -/

/-- A chain of headers from `R` on top of genesis `g`. -/
structure ChainOf (cfg : Cfg) (g : Header) (R : Header → Prop) (hs : List Header) (tip : Nat) : Prop where
  linked : Path cfg.hash (cfg.hash g) hs tip
  mem : ∀ x ∈ hs, R x

/-- `hs` (with tip hash `tip`) is the best chain formable from the headers `R`: it has more work than any other, or the same
work and a tip hash that is not higher. -/
structure IsBest (cfg : Cfg) (g : Header) (R : Header → Prop) (hs : List Header) (tip : Nat) : Prop where
  chain : ChainOf cfg g R hs tip
  best : ∀ hs' tip', ChainOf cfg g R hs' tip' →
    totalWork cfg (g :: hs') < totalWork cfg (g :: hs) ∨ (totalWork cfg (g :: hs') = totalWork cfg (g :: hs) ∧ tip ≤ tip')

/-- The setting of C04: a network without checkpoints other than mainnet, release build, positive work, valid
proof-of-work, and every chain of presented headers on top of an active block passes contextual validation. -/
structure OrderSetting (cfg : Cfg) (U : Header → Prop) (g : Header) (clockOk : Nat → Prop) : Prop where
  notMainnet : cfg.mainnet = false
  noCheckpoints : cfg.checkpoints = []
  release : cfg.checked = false
  acyclic : Acyclic cfg U
  collisionFree : CollisionFree cfg U
  genesis : cfg.genesisHash = cfg.hash g
  work : ∀ h, U h → 0 < cfg.work h.bits
  pow : ∀ h, U h → cfg.hashInt (cfg.hash h) ≤ cfg.target h.bits ∧ cfg.target h.bits ≤ cfg.powLimit
  valid : ∀ s n b hs t clock, Reach cfg U g false s → clockOk clock → s.getByHeight n = some b →
    Path cfg.hash (cfg.hash b) hs t → (∀ x ∈ hs, U x) → validateHeaders cfg clock s ⟨n, b⟩ hs = .ok ()

/-- Importing batches one after the other. -/
def importAll (cfg : Cfg) (s : State) (bs : List (List (Header × Env))) : State :=
  bs.foldl (fun s b => (importBlocks cfg s b).1) s

/-! ## Lemmas -/

/-- Known headers: active or stale. -/
def Known (cfg : Cfg) (s : State) (x : Header) : Prop := x ∈ s.above ∨ s.orphans.get (cfg.hash x) = some x

theorem above_get {n : Nat} {x : Header} (h : s.above[n]? = some x) (hi : TreeInv cfg U g s) :
    s.index.get (cfg.hash x) = some (n + 1) := by
  have hg : s.getByHeight (n + 1) = some x := by
    rw [getByHeight_headers, hi.headers_eq, List.getElem?_cons_succ]; exact h
  exact (hi.index _ _).2 ⟨⟨n + 1, x⟩, getByHeight_blk hi hg, rfl⟩

theorem Known.isKnown {x : Header} (hi : TreeInv cfg U g s) (h : Known cfg s x) : s.isKnown (cfg.hash x) = true := by
  rcases h with h | h
  · obtain ⟨n, hn⟩ := List.getElem?_of_mem h
    simp [State.isKnown, AMap.contains, above_get hn hi]
  · simp [State.isKnown, AMap.contains, h]

theorem Known.ofU {x : Header} (hi : TreeInv cfg U g s) (h : Known cfg s x) : U x := by
  rcases h with h | h
  · exact hi.tailU x h
  · exact (hi.orphans _ _ h).2.1

/-- A chain of known headers follows the active chain up to some height and then consists of stale headers. -/
theorem chain_split (ha : Acyclic cfg U) (cf : CollisionFree cfg U) (hi : TreeInv cfg U g s) : ∀ {hs : List Header} {t : Nat},
    Path cfg.hash (cfg.hash g) hs t → (∀ x ∈ hs, Known cfg s x) →
    ∃ n rest, n ≤ s.above.length ∧ hs = s.above.take n ++ rest ∧ ∀ x ∈ rest, s.orphans.get (cfg.hash x) = some x := by
  intro hs
  induction hs using List.reverseRecOn with
  | nil => intro t _ _; exact ⟨0, [], by omega, by simp, by simp⟩
  | append_singleton hs x ih =>
    intro t hp hk
    obtain ⟨b, h1, h2, h3⟩ := path_append.1 hp
    rcases hk x (by simp) with hx | hx
    · obtain ⟨n, hn⟩ := List.getElem?_of_mem hx
      have hlt := (List.getElem?_eq_some_iff.1 hn).1
      have hpt := path_take (n + 1) hi.path x (by simpa using hn)
      have h3 : cfg.hash x = t := h3
      rw [h3] at hpt
      have := gpath_unique ha cf hp (fun y hy => (hk y hy).ofU hi) hpt
        (fun y hy => hi.tailU y (List.mem_of_mem_take hy))
      exact ⟨n + 1, [], by omega, by rw [this]; simp, by simp⟩
    · obtain ⟨n, rest, l1, l2, l3⟩ := ih h1 (fun y hy => hk y (by simp [hy]))
      refine ⟨n, rest ++ [x], l1, by rw [l2]; simp, ?_⟩
      intro y hy
      rcases List.mem_append.1 hy with hy | hy
      · exact l3 y hy
      · simp at hy; subst hy; exact hx

theorem totalWork_take_lt (hw : ∀ h, U h → 0 < cfg.work h.bits) {l : List Header} (hu : ∀ x ∈ l, U x) {n : Nat}
    (hn : n < l.length) : totalWork cfg (l.take n) < totalWork cfg l := by
  have : totalWork cfg l = totalWork cfg (l.take n) + totalWork cfg (l.drop n) := by
    rw [← totalWork_append, List.take_append_drop]
  have hpos : 0 < totalWork cfg (l.drop n) := by
    rw [List.drop_eq_getElem_cons hn]
    simp only [totalWork, List.map_cons, List.sum_cons]
    have := hw l[n] (hu _ (List.getElem_mem hn))
    omega
  omega

/-- The active chain is the best chain of the known headers. -/
def BestInv (cfg : Cfg) (g : Header) (s : State) : Prop := IsBest cfg g (Known cfg s) s.above (cfg.hash s.last.header)

theorem totalWork_cons (cfg : Cfg) (x : Header) (l : List Header) : totalWork cfg (x :: l) = cfg.work x.bits + totalWork cfg l := rfl

/-- Work of a chain of known headers compared with the active one, split at the fork. -/
theorem best_from_forks {C : Nat → Prop} (hc : OrderSetting cfg U g C) (hi : TreeInv cfg U g s) {s' : State}
    (hi' : TreeInv cfg U g s') (hmono : s.chainwork < s'.chainwork ∨
      (s.chainwork = s'.chainwork ∧ cfg.hash s'.last.header ≤ cfg.hash s.last.header))
    (hforks : ∀ n b hs t, KnownFork cfg s n b hs t →
      totalWork cfg (s.headers.take (n + 1) ++ hs) ≤ s'.chainwork ∧
      (totalWork cfg (s.headers.take (n + 1) ++ hs) = s'.chainwork → cfg.hash s'.last.header ≤ t))
    (hknown : ∀ x, Known cfg s' x → Known cfg s x) : BestInv cfg g s' := by
  refine ⟨⟨hi'.path, fun x hx => .inl hx⟩, ?_⟩
  intro hs t hch
  obtain ⟨n, rest, l1, l2, l3⟩ := chain_split hc.acyclic hc.collisionFree hi hch.linked
    (fun x hx => hknown x (hch.mem x hx))
  rw [← hi'.headers_eq, ← hi'.work]
  by_cases hr : rest = []
  · subst hr
    rw [List.append_nil] at l2
    subst l2
    by_cases hn : n < s.above.length
    · have := totalWork_take_lt hc.work hi.tailU hn
      left
      have h2 := hi.work
      rw [hi.headers_eq, totalWork_cons] at h2
      rw [totalWork_cons]
      omega
    · have hn : n = s.above.length := by omega
      subst hn
      rw [List.take_length] at hch ⊢
      have ht : t = cfg.hash s.last.header := path_end hch.linked hi.path
      rw [← hi.headers_eq, ← hi.work, ht]
      exact hmono
  · obtain ⟨b', p1, p2⟩ := path_append.1 (l2 ▸ hch.linked)
    have hex : ∃ b, s.getByHeight n = some b := by
      rw [← Option.isSome_iff_exists, (view_of_inv hi).defined, hi.height_eq]
      simpa [State.above] using l1
    obtain ⟨b, hb⟩ := hex
    have hb' := hb
    rw [getByHeight_headers, hi.headers_eq] at hb'
    have hbb := path_end (path_take n hi.path b hb') p1
    rw [← hbb] at p2
    have := hforks n b rest t ⟨hb, hr, p2, l3⟩
    have he : s.headers.take (n + 1) ++ rest = g :: hs := by
      rw [hi.headers_take, l2]; rfl
    rw [he] at this
    rcases Nat.lt_or_ge (totalWork cfg (g :: hs)) s'.chainwork with h | h
    · exact .inl h
    · right
      have he : totalWork cfg (g :: hs) = s'.chainwork := by omega
      exact ⟨he, this.2 he⟩

theorem known_withOrphan (h : Header) (x : Header) (hk : s.isKnown (cfg.hash h) = false) :
    Known cfg (s.withOrphan cfg h) x ↔ Known cfg s x ∨ x = h := by
  simp only [Known, State.withOrphan, AMap.get_insert]
  have ho := (isKnown_false.1 hk).2
  have e : ({ s with orphans := s.orphans.insert (cfg.hash h) h } : State).above = s.above := rfl
  rw [e]
  by_cases he : cfg.hash h = cfg.hash x
  · rw [if_pos he]
    rw [he] at ho
    simp only [ho, Option.some.injEq, reduceCtorEq, or_false]
    constructor
    · rintro (h1 | h1)
      · exact .inl h1
      · exact .inr h1.symm
    · rintro (h1 | h1)
      · exact .inl h1
      · exact .inr h1.symm
  · rw [if_neg he]
    constructor
    · intro h1; exact .inl h1
    · rintro (h1 | h1)
      · exact h1
      · subst h1; exact absurd rfl he

theorem known_switched (hi : TreeInv cfg U g s) {c : Candidate} {s' : State}
    (hb : ∀ h ∈ c.headers, s.orphans.get (cfg.hash h) = some h)
    (hsw : Switched cfg s c s') (x : Header) : Known cfg s' x ↔ Known cfg s x := by
  simp only [Known, hsw.above, hsw.orphans]
  constructor
  · rintro (h | ⟨h1, h | h⟩)
    · rcases List.mem_append.1 h with h | h
      · exact .inl (List.mem_of_mem_take h)
      · exact .inr (hb x h)
    · obtain ⟨b, hb, -, rfl⟩ := h
      exact .inl (List.mem_map.2 ⟨b, List.mem_of_mem_drop hb, rfl⟩)
    · exact .inr h
  · by_cases hm : cfg.hash x ∈ c.headers.map cfg.hash
    · rintro h
      left
      obtain ⟨y, hy, hxy⟩ := List.mem_map.1 hm
      have hoy := hb y hy
      rw [List.mem_append]
      right
      rcases h with h | h
      · -- active and stale at once
        obtain ⟨n, hn⟩ := List.getElem?_of_mem h
        have h1 := above_get hn hi
        have h2 := (hi.orphans _ _ hoy).2.2
        rw [hxy, h1] at h2
        simp at h2
      · rw [hxy, h] at hoy
        rw [Option.some.inj hoy]; exact hy
    · rintro (h | h)
      · rw [← List.take_append_drop c.forkHeight s.above] at h
        rcases List.mem_append.1 h with h | h
        · exact .inl (List.mem_append.2 (.inl h))
        · right
          refine ⟨hm, .inl ?_⟩
          rw [State.above, ← List.map_drop] at h
          obtain ⟨b, hb1, hb2⟩ := List.mem_map.1 h
          exact ⟨b, hb1, by rw [hb2], hb2⟩
      · exact .inr ⟨hm, .inr h⟩

theorem lastCheckpoint_nil (h : cfg.checkpoints = []) : s.lastCheckpoint cfg = 0 := by
  simp [State.lastCheckpoint, h]

/-- One import keeps the active chain best among the known headers and makes the header known. -/
theorem best_import {C : Nat → Prop} (hc : OrderSetting cfg U g C) (hr : Reach cfg U g false s) (hb : BestInv cfg g s)
    {h : Header} {e : Env} (hu : U h) (he : EnvOk false e) (hC : C e.clock) :
    ∃ s' r, importBlock cfg e s h = (s', r) ∧ TreeInv cfg U g s' ∧ BestInv cfg g s' ∧
      (∀ x, Known cfg s x → Known cfg s' x) ∧ (∀ x, Known cfg s' x → Known cfg s x ∨ x = h) ∧
      (Known cfg s' h ∨ cfg.hash h = cfg.hash g) ∧
      ((∃ y, r = .ok y) ∨ (∃ k, r = .err (.duplicate k)) ∨ ∃ k, r = .err (.missing k)) := by
  have hi := (reach_inv hc.acyclic hc.genesis hr).1
  obtain ⟨s', r, e1, i1, o1⟩ := importBlock_spec hc.acyclic hi he.1 hu
  refine ⟨s', r, e1, i1, ?_⟩
  have hf := he.2 rfl
  cases o1 with
  | panic h => rw [hc.release] at h; simp at h
  | duplicate hk =>
    refine ⟨hb, fun _ h => h, fun _ h => .inl h, ?_, .inr (.inl ⟨_, rfl⟩)⟩
    simp only [State.isKnown, AMap.contains, Bool.or_eq_true, Option.isSome_iff_exists] at hk
    rcases hk with ⟨n, hn⟩ | ⟨y, hy⟩
    · obtain ⟨b, hb1, hb2⟩ := (hi.index _ n).1 hn
      cases n with
      | zero =>
        right
        have : b = s.head := by simpa [State.chain] using hb1.symm
        rw [this, hi.head] at hb2
        exact hb2.symm
      | succ n =>
        left; left
        have hmem : b.header ∈ s.above := by
          rw [State.above]
          refine List.mem_map.2 ⟨b, ?_, rfl⟩
          simp only [State.chain, List.getElem?_cons_succ] at hb1
          exact List.mem_of_getElem? hb1
        have := hc.collisionFree _ _ (hi.tailU _ hmem) hu hb2
        rw [← this]; exact hmem
    · left; right
      have h3 := hi.orphans _ _ hy
      have := hc.collisionFree _ _ h3.2.1 hu h3.1
      rw [← this] at hy ⊢; exact hy
  | invalid er _ _ hreason =>
    have hp := hc.pow h hu
    rcases hreason with ⟨hprev, hv⟩ | h1 | h1
    · obtain ⟨b, hb1, hb2⟩ := (view_of_inv hi).tip
      have htip : s.last = ⟨s.height, b⟩ := by
        have h1 := getByHeight_blk hi hb1
        rw [hi.height_eq, chain_last_get] at h1
        rw [hi.height_eq]; exact Option.some.inj h1
      have := hc.valid s s.height b [h] (cfg.hash h) e.clock hr hC hb1 ⟨by rw [hprev, htip], rfl⟩ (by simpa using hu)
      simp only [validateHeaders, ← htip] at this
      rw [hv] at this
      simp at this
    · omega
    · omega
  | height n _ _ hlt => rw [lastCheckpoint_nil hc.noCheckpoints] at hlt; omega
  | missing hk hp =>
    have hkw := fun x => known_withOrphan (x := x) h hk
    refine ⟨?_, fun x hx => (hkw x).2 (.inl hx), fun x hx => (hkw x).1 hx, .inl ((hkw h).2 (.inr rfl)),
      .inr (.inr ⟨_, rfl⟩)⟩
    refine ⟨⟨i1.path, fun x hx => .inl hx⟩, ?_⟩
    intro hs t hch
    refine hb.best hs t ⟨hch.linked, ?_⟩
    -- the new header has no known parent, so it is in no chain
    have hno : h ∉ hs := by
      intro hmem
      obtain ⟨l1, l2, rfl⟩ := List.append_of_mem hmem
      obtain ⟨b, p1, p2⟩ := path_append.1 hch.linked
      have hprev : h.prev = b := p2.1
      rcases List.eq_nil_or_concat l1 with hl | ⟨M, y, hl⟩
      · subst hl
        have : cfg.hash g = b := p1
        have hidx : s.index.get h.prev = some 0 := by
          rw [hprev, ← this]
          exact (hi.index _ 0).2 ⟨⟨0, g⟩, by simp [State.chain, hi.head], rfl⟩
        rw [(isKnown_false.1 hp).1] at hidx
        simp at hidx
      · rw [List.concat_eq_append] at hl
        subst hl
        obtain ⟨b2, q1, q2⟩ := path_append.1 p1
        have hyb : cfg.hash y = b := q2.2
        have hky := (hkw y).1 (hch.mem y (by simp))
        rcases hky with hky | hky
        · have := hky.isKnown hi
          rw [hyb, ← hprev, hp] at this
          simp at this
        · subst hky
          obtain ⟨rank, hrank⟩ := hc.acyclic
          have := hrank y hu
          rw [hprev, hyb] at this
          omega
    intro x hx
    rcases (hkw x).1 (hch.mem x hx) with h1 | h1
    · exact h1
    · subst h1; exact absurd hx hno
  | selected hk _ _ _ _ o =>
    have io : TreeInv cfg U g (s.withOrphan cfg h) := inv_insertOrphan hi hu (isKnown_false.1 hk).1
    have hkw := fun x => known_withOrphan (x := x) h hk
    have hvalid : ∀ {n b hs t}, KnownFork cfg (s.withOrphan cfg h) n b hs t →
        ValidBranch cfg e.clock (s.withOrphan cfg h) ⟨t, hs, n, b⟩ := by
      intro n b hs t hfk
      refine ⟨hfk.isBranch io, ?_⟩
      unfold validateBranch
      rw [validateHeaders_withOrphan]
      exact hc.valid s n b hs t e.clock hr hC hfk.base hfk.linked
        (fun x hx => (io.orphans _ _ (hfk.known x hx)).2.1)
    cases o with
    | panic h => rw [hc.release] at h; simp at h
    | store c h => simp [hf.1, hf.2] at h
    | unchanged hall =>
      refine ⟨?_, fun x hx => (hkw x).2 (.inl hx), fun x hx => (hkw x).1 hx, .inl ((hkw h).2 (.inr rfl)), .inl ⟨_, rfl⟩⟩
      refine best_from_forks hc io io (.inr ⟨rfl, Nat.le_refl _⟩) ?_ (fun x hx => hx)
      intro n b hs t hfk
      have h1 := hall _ (hvalid hfk)
      have h2 : totalWork cfg ((s.withOrphan cfg h).headers.take (n + 1) ++ hs) +
          lostOf cfg (s.withOrphan cfg h) ⟨t, hs, n, b⟩ =
          (s.withOrphan cfg h).chainwork + gainOf cfg ⟨t, hs, n, b⟩ := fork_total io ⟨t, hs, n, b⟩
      refine ⟨by omega, ?_⟩
      intro heq
      exact h1.2 hc.notMainnet (by omega)
    | changed c hv f1 f2 hsw hl hst hmax hbetter =>
      have hks := fun x => known_switched (x := x) io hv.1.stale hsw
      refine ⟨?_, fun x hx => (hks x).2 ((hkw x).2 (.inl hx)), fun x hx => (hkw x).1 ((hks x).1 hx),
        .inl ((hks h).2 ((hkw h).2 (.inr rfl))), .inl ⟨_, rfl⟩⟩
      have hw := switched_work io i1 hsw
      refine best_from_forks hc io i1 ?_ ?_ (fun x hx => (hks x).1 hx)
      · rcases hbetter with h1 | ⟨_, h1, h2⟩
        · left; omega
        · right
          refine ⟨by omega, ?_⟩
          rw [hl]; exact Nat.le_of_lt h2
      · intro n b hs t hfk
        have h1 := hmax _ (hvalid hfk)
        have h2 : totalWork cfg ((s.withOrphan cfg h).headers.take (n + 1) ++ hs) +
            lostOf cfg (s.withOrphan cfg h) ⟨t, hs, n, b⟩ =
            (s.withOrphan cfg h).chainwork + gainOf cfg ⟨t, hs, n, b⟩ := fork_total io ⟨t, hs, n, b⟩
        refine ⟨by omega, ?_⟩
        intro heq
        rw [hl]
        exact h1.2 hc.notMainnet (by omega)

theorem reach_importBlock {C : Nat → Prop} (hc : OrderSetting cfg U g C) (hr : Reach cfg U g false s) {h : Header} {e : Env}
    (hu : U h) (he : EnvOk false e) : Reach cfg U g false (importBlock cfg e s h).1 := by
  have hu' : ∀ p ∈ [(h, e)], U p.1 ∧ EnvOk false p.2 := by simpa using ⟨hu, he⟩
  have := Reach.importBlocks [(h, e)] hr hu'
    (C01_import_no_panic hc.release hc.acyclic hc.collisionFree hc.genesis hr hu')
  rw [importBlocks_fst] at this
  have he : (importLoop cfg s ⟨[], [], [], s.height, cfg.hash s.last.header, s.last.header⟩ 0 [(h, e)]).1 =
      (importBlock cfg e s h).1 := by
    simp only [importLoop]
    split <;> (rename_i heq; rw [heq])
  rwa [he] at this

/-- What holds after importing the headers `R`. -/
structure OrderInv (cfg : Cfg) (U : Header → Prop) (g : Header) (R : List Header) (s : State) : Prop where
  reach : Reach cfg U g false s
  best : BestInv cfg g s
  sub : ∀ x, Known cfg s x → x ∈ R
  sup : ∀ x ∈ R, Known cfg s x ∨ cfg.hash x = cfg.hash g
  mem : ∀ x ∈ R, U x

theorem order_loop {C : Nat → Prop} (hc : OrderSetting cfg U g C) : ∀ (hs : List (Header × Env)) {s : State} {R : List Header}
    (a : Acc) (i : Nat), OrderInv cfg U g R s → (∀ p ∈ hs, U p.1 ∧ EnvOk false p.2 ∧ C p.2.clock) →
    OrderInv cfg U g (R ++ hs.map (·.1)) (importLoop cfg s a i hs).1
  | [], s, R, a, i, ho, _ => by simpa [importLoop] using ho
  | (h, e) :: hs, s, R, a, i, ho, hu => by
    obtain ⟨u1, u2, u3⟩ := hu (h, e) List.mem_cons_self
    have hu' : ∀ p ∈ hs, U p.1 ∧ EnvOk false p.2 ∧ C p.2.clock := fun p hp => hu p (List.mem_cons_of_mem _ hp)
    obtain ⟨s', r, e1, i1, b1, k1, k2, k3, hr⟩ := best_import hc ho.reach ho.best u1 u2 u3
    have hreach := reach_importBlock hc ho.reach u1 u2
    rw [e1] at hreach
    have ho' : OrderInv cfg U g (R ++ [h]) s' := by
      refine ⟨hreach, b1, ?_, ?_, ?_⟩
      · intro x hx
        rcases k2 x hx with h1 | h1
        · exact List.mem_append.2 (.inl (ho.sub x h1))
        · simp [h1]
      · intro x hx
        rcases List.mem_append.1 hx with h1 | h1
        · rcases ho.sup x h1 with h2 | h2
          · exact .inl (k1 x h2)
          · exact .inr h2
        · simp at h1; subst h1; exact k3
      · intro x hx
        rcases List.mem_append.1 hx with h1 | h1
        · exact ho.mem x h1
        · simp at h1; subst h1; exact u1
    have heq : R ++ ((h, e) :: hs).map (·.1) = (R ++ [h]) ++ hs.map (·.1) := by simp
    rw [heq]
    simp only [importLoop, e1]
    rcases hr with ⟨y, rfl⟩ | ⟨k, rfl⟩ | ⟨k, rfl⟩
    · cases y <;> exact order_loop hc hs _ _ ho' hu'
    · exact order_loop hc hs _ _ ho' hu'
    · exact order_loop hc hs _ _ ho' hu'

theorem order_all {C : Nat → Prop} (hc : OrderSetting cfg U g C) : ∀ (bs : List (List (Header × Env))) {s : State} {R : List Header},
    OrderInv cfg U g R s → (∀ b ∈ bs, ∀ p ∈ b, U p.1 ∧ EnvOk false p.2 ∧ C p.2.clock) →
    OrderInv cfg U g (R ++ (bs.flatten).map (·.1)) (importAll cfg s bs)
  | [], s, R, ho, _ => by simpa [importAll] using ho
  | b :: bs, s, R, ho, hu => by
    have h1 := order_loop hc b ⟨[], [], [], s.height, cfg.hash s.last.header, s.last.header⟩ 0 ho (hu b List.mem_cons_self)
    rw [← importBlocks_fst] at h1
    have h2 := order_all hc bs h1 (fun b' hb' => hu b' (List.mem_cons_of_mem _ hb'))
    have : R ++ ((b :: bs).flatten).map (·.1) = R ++ b.map (·.1) ++ (bs.flatten).map (·.1) := by simp
    rw [this]
    exact h2

/-! ## C04 -/

/-- **C04 (best chain).** After importing any batches of headers in any order and with any iteration orders, the active chain
is the best chain that can be formed from the headers received. -/
theorem C04_best_chain {C : Nat → Prop} (hc : OrderSetting cfg U g C) {bs : List (List (Header × Env))}
    (hu : ∀ b ∈ bs, ∀ p ∈ b, U p.1 ∧ EnvOk false p.2 ∧ C p.2.clock) :
    ∃ hs, (importAll cfg (new cfg g [g]) bs).headers = g :: hs ∧
      IsBest cfg g (fun x => x ∈ (bs.flatten).map (·.1)) hs ((importAll cfg (new cfg g [g]) bs).tip cfg).1 := by
  have hi0 : OrderInv cfg U g [] (new cfg g [g]) := by
    have hi := (reach_inv hc.acyclic hc.genesis (Reach.init (cfg := cfg) (U := U) (g := g) (fail := false))).1
    refine ⟨.init, ⟨⟨hi.path, fun x hx => .inl hx⟩, ?_⟩, ?_, by simp, by simp⟩
    · intro hs t hch
      have : hs = [] := by
        cases hs with
        | nil => rfl
        | cons x hs => have := hch.mem x List.mem_cons_self; simp [Known, new, State.above] at this
      subst this
      right
      refine ⟨rfl, ?_⟩
      have : cfg.hash g = t := hch.linked
      rw [← this]
      exact Nat.le_refl _
    · intro x hx; simp [Known, new, State.above] at hx
  have ho := order_all hc bs hi0 hu
  rw [List.nil_append] at ho
  have hi := (reach_inv hc.acyclic hc.genesis ho.reach).1
  refine ⟨_, hi.headers_eq, ⟨⟨hi.path, fun x hx => ho.sub x (.inl hx)⟩, ?_⟩⟩
  intro hs t hch
  refine ho.best.best hs t ⟨hch.linked, ?_⟩
  intro x hx
  rcases ho.sup x (hch.mem x hx) with h1 | h1
  · exact h1
  · obtain ⟨rank, hrank⟩ := hc.acyclic
    have := (path_rank hch.linked (fun y hy => hrank y (ho.mem y (hch.mem y hy)))).1 x hx
    rw [h1] at this; omega

/-- The best chain is unique. -/
theorem IsBest.unique (ha : Acyclic cfg U) (cf : CollisionFree cfg U) {R : Header → Prop} (hR : ∀ x, R x → U x)
    {hs hs' : List Header} {t t' : Nat} (h : IsBest cfg g R hs t) (h' : IsBest cfg g R hs' t') : hs = hs' := by
  have h1 := h.best _ _ h'.chain
  have h2 := h'.best _ _ h.chain
  have : t = t' := by omega
  subst this
  exact gpath_unique ha cf h.chain.linked (fun x hx => hR x (h.chain.mem x hx)) h'.chain.linked
    (fun x hx => hR x (h'.chain.mem x hx))

/-- **C04 (order independence).** Two histories of imports that received the same set of headers — in any order, batching and
with any iteration orders of the hash map — have the same active chain. -/
theorem C04_order_independent {C : Nat → Prop} (hc : OrderSetting cfg U g C) {bs bs' : List (List (Header × Env))}
    (hu : ∀ b ∈ bs, ∀ p ∈ b, U p.1 ∧ EnvOk false p.2 ∧ C p.2.clock)
    (hu' : ∀ b ∈ bs', ∀ p ∈ b, U p.1 ∧ EnvOk false p.2 ∧ C p.2.clock)
    (hsame : ∀ x, x ∈ (bs.flatten).map (·.1) ↔ x ∈ (bs'.flatten).map (·.1)) :
    (importAll cfg (new cfg g [g]) bs).headers = (importAll cfg (new cfg g [g]) bs').headers := by
  obtain ⟨hs, e1, b1⟩ := C04_best_chain hc hu
  obtain ⟨hs', e2, b2⟩ := C04_best_chain hc hu'
  have hR : (fun x => x ∈ (bs.flatten).map (·.1)) = (fun x => x ∈ (bs'.flatten).map (·.1)) := by
    funext x; exact propext (hsame x)
  rw [← hR] at b2
  rw [e1, e2]
  congr 1
  refine IsBest.unique hc.acyclic hc.collisionFree ?_ b1 b2
  intro x hx
  obtain ⟨p, hp, rfl⟩ := List.mem_map.1 hx
  obtain ⟨b, hb, hpb⟩ := List.mem_flatten.1 hp
  exact (hu b hb p hpb).1

/-! ## Non-vacuity -/

theorem medianTimePast_mem {n m : Nat} (h : medianTimePast s n = .ok m) :
    m = 0 ∨ ∃ k b, k < n ∧ s.chain[k]? = some b ∧ m = b.header.time := by
  unfold medianTimePast at h
  cases ha : (Res.assert (n != 0) : Res Err Unit) with
  | panic => simp [ha] at h
  | err e => simp [ha] at h
  | ok u =>
    have hle : n - medianTimeSpan ≤ n := by omega
    simp only [ha, Res.ok_bind, State.range, hle, ite_true] at h
    unfold Res.unwrap at h
    split at h
    · rename_i v hv
      simp only [Res.ok.injEq] at h
      subst h
      have h1 := List.mem_of_getElem? hv
      rw [(List.perm_insertionSort _ _).mem_iff] at h1
      have h2 := List.mem_of_mem_take h1
      rcases List.mem_append.1 h2 with h3 | h3
      · right
        obtain ⟨b, hb, rfl⟩ := List.mem_map.1 h3
        obtain ⟨i, hi⟩ := List.getElem?_of_mem hb
        rw [List.getElem?_take] at hi
        split at hi
        · rw [List.getElem?_drop] at hi
          exact ⟨_, b, by omega, hi, rfl⟩
        · simp at hi
      · left; exact (List.mem_replicate.1 h3).2
    · simp at h

end Verif.Chain

namespace Verif.Chain.Scenario

/-- Headers of the order scenario. -/
def hdrs : List Header := [a1, a2, a3, b1, b2, b3]

/-- See `hdrs`. -/
def UL (h : Header) : Prop := h ∈ hdrs

theorem times {x p : Header} (hx : UL x) (hp : p ∈ g :: hdrs) (he : x.prev = cfg.hash p) :
    x.time / 100 = p.time / 100 + 1 := by
  have : ∀ x ∈ hdrs, ∀ p ∈ g :: hdrs, x.prev = cfg.hash p → x.time / 100 = p.time / 100 + 1 := by decide
  exact this x hx p hp he

theorem path_times : ∀ {hs : List Header} {b : Header} {t n : Nat}, Path cfg.hash (cfg.hash b) hs t → (∀ x ∈ hs, UL x) →
    b ∈ g :: hdrs → b.time / 100 = n + 1 → ∀ (i : Nat) (x : Header), (b :: hs)[i]? = some x → x.time / 100 = n + i + 1
  | [], b, t, n, _, _, _, hb, i, x, hx => by
    cases i with
    | zero => simp at hx; subst hx; omega
    | succ i => simp at hx
  | y :: hs, b, t, n, hp, hu, hm, hb, i, x, hx => by
    cases i with
    | zero => simp at hx; subst hx; omega
    | succ i =>
      have hy := hu y List.mem_cons_self
      have h1 := times hy hm hp.1
      have := path_times hp.2 (fun z hz => hu z (List.mem_cons_of_mem _ hz)) (List.mem_cons_of_mem _ hy)
        (n := n + 1) (by omega) i x (by simpa using hx)
      omega

theorem acyclicL : Acyclic cfg UL := ⟨id, by
  have : ∀ h ∈ hdrs, id h.prev < id (cfg.hash h) := by decide
  exact this⟩

theorem validL {s : State} (hi : TreeInv cfg UL g s) : ∀ {hs : List Header} {n : Nat} {b : Header} {t : Nat},
    Path cfg.hash (cfg.hash b) hs t → (∀ x ∈ hs, UL x) → b ∈ g :: hdrs → b.time / 100 = n + 1 →
    validateHeaders cfg 1000000 s ⟨n, b⟩ hs = .ok ()
  | [], n, b, t, _, _, _, _ => rfl
  | x :: hs, n, b, t, hp, hu, hm, hb => by
    have hx := hu x List.mem_cons_self
    have h1 := times hx hm hp.1
    have ih := validL hi (n := n + 1) hp.2 (fun z hz => hu z (List.mem_cons_of_mem _ hz)) (List.mem_cons_of_mem _ hx)
      (by omega)
    have hv : validate cfg 1000000 s ⟨n, b⟩ x = .ok () := by
      obtain ⟨m, hmm⟩ := medianTimePast_ok s (n := n + 1) (by omega)
      obtain ⟨bits, hbits⟩ := requiredBits_ok (cfg := cfg) rfl s ⟨n, b⟩ x
      rw [validate_ok_iff]
      refine ⟨hp.1.symm, ⟨bits, hbits, rfl⟩, Nat.zero_le _, ?_, ⟨m, hmm, ?_⟩, ⟨1007200, rfl, ?_⟩⟩
      · intro cp hcp; simp [cfg, AMap.get] at hcp
      · rcases medianTimePast_mem hmm with h2 | ⟨k, blk, hk, hblk, rfl⟩
        · subst h2
          have : ∀ x ∈ hdrs, 0 < x.time := by decide
          exact this x hx
        · have hget : (g :: s.above)[k]? = some blk.header := by
            rw [← hi.headers_eq, State.headers, List.getElem?_map, hblk]; rfl
          have := path_times hi.path hi.tailU List.mem_cons_self (n := 0) rfl k _ hget
          omega
      · have : ∀ x ∈ hdrs, x.time ≤ 1007200 := by decide
        exact this x hx
    simp only [validateHeaders, hv, Res.ok_bind]
    exact ih

/-- The order scenario satisfies the setting of C04. -/
theorem orderSetting : OrderSetting cfg UL g (· = 1000000) where
  notMainnet := rfl
  noCheckpoints := rfl
  release := rfl
  acyclic := acyclicL
  collisionFree := by
    have : ∀ a ∈ hdrs, ∀ b ∈ hdrs, cfg.hash a = cfg.hash b → a = b := by decide
    exact fun a b ha hb => this a ha b hb
  genesis := rfl
  work := by
    have : ∀ h ∈ hdrs, 0 < cfg.work h.bits := by decide
    exact this
  pow := fun _ _ => ⟨Nat.zero_le _, Nat.le_refl _⟩
  valid := by
    rintro s n b hs t clock hr rfl hb hp hu
    have hi := (reach_inv acyclicL rfl hr).1
    rw [getByHeight_headers, hi.headers_eq] at hb
    refine validL hi hp hu ?_ ?_
    · rcases List.mem_cons.1 (List.mem_of_getElem? hb) with h | h
      · exact h ▸ List.mem_cons_self
      · exact List.mem_cons_of_mem _ (hi.tailU b h)
    · have := path_times hi.path hi.tailU List.mem_cons_self (n := 0) rfl n b hb
      omega

/-- Two orders and batchings of the six headers (one of them in reverse, one with the hash map iterated backwards) lead to
the same chain by `C04_order_independent`; here it is computed. -/
example : (importAll cfg (new cfg g [g]) [[(b3, e), (a3, e)], [(b2, eRev), (a2, e), (a1, eRev), (b1, e)]]).headers =
    [g, a1, a2, a3] ∧ (importAll cfg (new cfg g [g]) [[(b1, e), (b2, e), (b3, e)], [(a1, e), (a2, e), (a3, e)]]).headers =
    [g, a1, a2, a3] := by decide

end Verif.Chain.Scenario
