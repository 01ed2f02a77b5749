import Verif.Chain.PropsReorg

/-!
# C124: concrete cases, and a valid chain that is never followed
-/

set_option autoImplicit false

namespace Verif.Chain.Scenario
open Verif.Chain

/-! ## A heavier fork is followed -/

/-- A fork off genesis, later than the active chain `a1`, `a2`. -/
def d1 : Header := mk 31 1 310 10
/-- See `d1`. -/
def d2 : Header := mk 32 31 320 10
/-- See `d1`. -/
def d3 : Header := mk 33 32 330 10

/-- Tree with A active and nothing else known. -/
def sA2 : State := (importBlocks cfg (new cfg g [g]) [(a1, e), (a2, e)]).1

theorem reachA2 (fail : Bool) : Reach cfg U g fail sA2 := by
  refine Reach.importBlocks _ .init ?_ (by decide)
  intro p hp
  simp only [List.mem_cons, List.not_mem_nil, or_false] at hp
  rcases hp with rfl | rfl
  · exact ⟨by decide, eOk _⟩
  · exact ⟨by decide, eOk _⟩

theorem paramsOk : ParamsOK cfg := ⟨by decide, rfl, fun _ => rfl⟩

theorem getElem?_three {α : Type} {x y z v : α} {i : Nat} (h : [x, y, z][i]? = some v) :
    (i = 0 ∧ v = x) ∨ (i = 1 ∧ v = y) ∨ (i = 2 ∧ v = z) := by
  rcases i with _ | _ | _ | i
  · simp at h; exact .inl ⟨rfl, h.symm⟩
  · simp at h; exact .inr (.inl ⟨rfl, h.symm⟩)
  · simp at h; exact .inr (.inr ⟨rfl, h.symm⟩)
  · simp at h

/-- Headers of the toy networks that follow a chain shorter than the retarget interval. -/
theorem toyNext {c : Cfg} (hc : c = cfg ∨ c = cfgMain) {chain : List Header} {last h : Header} {m clock : Nat}
    (hl : chain.getLast? = some last)
    (hp : h.prev = last.nonce) (hm : IsMedian (windowTimes chain) m) (hm' : m < h.time) (hf : h.time ≤ clock + 7200)
    (hn : chain.length % 2016 ≠ 0) : ValidNext c clock chain h := by
  rcases hc with rfl | rfl
  · refine ⟨⟨last, hl, hp⟩, ⟨⟨m, hm, hm'⟩, hf, ?_⟩, Nat.zero_le _, Nat.le_refl _, fun cp hcp => by simp [cfg] at hcp⟩
    simp only [specTarget, hl, Option.bind_some]
    rw [if_pos (show chain.length % cfg.interval ≠ 0 from hn)]
    rfl
  · refine ⟨⟨last, hl, hp⟩, ⟨⟨m, hm, hm'⟩, hf, ?_⟩, Nat.zero_le _, Nat.le_refl _, fun cp hcp => by simp [cfgMain, cfg] at hcp⟩
    simp only [specTarget, hl, Option.bind_some]
    rw [if_pos (show chain.length % cfgMain.interval ≠ 0 from hn)]
    rfl

theorem validD : ValidBeyond cfg 1000000 [g] [d1, d2, d3] := by
  intro i h hi
  rcases getElem?_three hi with ⟨rfl, rfl⟩ | ⟨rfl, rfl⟩ | ⟨rfl, rfl⟩
  · exact toyNext (.inl rfl) (last := g) (m := 100) rfl rfl (by decide) (by decide) (by decide) (by decide)
  · exact toyNext (.inl rfl) (last := d1) (m := 310) rfl rfl (by decide) (by decide) (by decide) (by decide)
  · exact toyNext (.inl rfl) (last := d2) (m := 310) rfl rfl (by decide) (by decide) (by decide) (by decide)

theorem noWrapD : NoWrapBeyond cfg 1000000 [g] [d1, d2, d3] := by
  intro i hi
  have hlt : i < 3 := hi
  have hcases : i = 0 ∨ i = 1 ∨ i = 2 := by omega
  rcases hcases with rfl | rfl | rfl <;>
  · refine ⟨by decide, ?_, ?_⟩
    · intro last hl
      simp at hl
      subst hl
      decide
    · intro first last hf hl
      simp [cfg] at hf hl
      subst hf hl
      decide

theorem deliveryD : Delivery cfg U sA2 0 g [d1, d2, d3] where
  base := by decide
  checkpoint := by decide
  noStale k := by
    have : sA2.orphans = [] := by decide
    rw [this]; rfl
  unknown := by decide
  univ := by decide
  work := by decide
  short := by decide
  later := by decide

/-- Two batches bring the fork, which is followed. -/
example : (importAll cfg sA2 [[(d1, e), (d2, eRev)], [(d3, e)]]).headers = [g, d1, d2, d3] := by
  have h := (C124_reorg_partial (bs := [[(d1, e), (d2, eRev)], [(d3, e)]]) rfl paramsOk rfl acyclic rfl (reachA2 false)
    deliveryD rfl (by
      intro p hp
      simp only [List.flatten_cons, List.flatten_nil, List.cons_append, List.nil_append, List.mem_cons,
        List.not_mem_nil, or_false] at hp
      rcases hp with rfl | rfl | rfl
      · exact ⟨eOk _, validD, noWrapD⟩
      · exact ⟨eRevOk _, validD, noWrapD⟩
      · exact ⟨eOk _, validD, noWrapD⟩)).1 (by decide)
  exact h

/-- The last of its headers, with the others known as stale. -/
def sAD : State := (importBlocks cfg sA2 [(d1, e)]).1

theorem reachAD (fail : Bool) : Reach cfg U g fail sAD := by
  refine Reach.importBlocks _ (reachA2 fail) ?_ (by decide)
  intro p hp
  simp only [List.mem_cons, List.not_mem_nil, or_false] at hp
  subst hp
  exact ⟨by decide, eOk _⟩

example : ∃ s' r, importBlock cfg e sAD d2 = (s', .ok r) ∧ s'.chainWork = totalWork cfg s'.headers ∧
    totalWork cfg [g, d1, d2] ≤ s'.chainWork := by
  have := C124_heaviest_partial (s := sAD) (n := 0) (b := g) (init := [d1]) (h := d2) rfl paramsOk rfl acyclic rfl (reachAD false)
    (eOk false) (by decide) (by decide) (by decide) (by decide) (by decide)
    (by
      intro i h hi
      rcases i with _ | _ | i
      · exact validD 0 h hi
      · exact validD 1 h hi
      · simp at hi)
    (by
      intro i hi
      have hlt : i < 2 := hi
      have h := noWrapD i (by show i < 3; omega)
      have hcases : i = 0 ∨ i = 1 := by omega
      rcases hcases with rfl | rfl <;> exact h)
    (by decide) (by decide)
  exact this

/-! ## A valid chain of more work that is never followed -/

/-- An active header with a late timestamp. -/
def aLate : Header := mk 11 1 900 10

/-- Tree with `aLate` active. -/
def sLate : State := (importBlocks cfgMain (new cfgMain g [g]) [(aLate, e)]).1

/-- Headers of the honest chain `b1`, `b2`, …: nothing but `b1` is on top of genesis, nothing on top of `aLate`, nothing but `b2` on
top of `b1`; any headers may be on top of `b2` and of each other. -/
def Honest (h : Header) : Prop :=
  h = b1 ∨ h = b2 ∨ (h.prev ≠ g.nonce ∧ h.prev ≠ aLate.nonce ∧ h.prev ≠ b1.nonce ∧ h.prev < h.nonce)

/-- The headers of `sLate` and of the honest chain. -/
def UH (h : Header) : Prop := h = aLate ∨ Honest h

theorem acyclicH : Acyclic cfgMain UH := by
  refine ⟨id, ?_⟩
  rintro h (rfl | rfl | rfl | h)
  · decide
  · decide
  · decide
  · exact h.2.2.2

theorem invLate : TreeInv cfgMain UH g sLate := by
  refine (reach_inv (fail := false) acyclicH rfl (Reach.importBlocks _ .init ?_ (by decide))).1
  intro p hp
  simp only [List.mem_cons, List.not_mem_nil, or_false] at hp
  subst hp
  exact ⟨.inl rfl, eOk _⟩

/-- `b2` does not pass validation while `aLate` is active: the median of the *active* chain is 900. -/
theorem b2_refused {s : State} (hh : s.headers = [g, aLate]) (clock : Nat) (hs : List Header) :
    validateHeaders cfgMain clock s ⟨1, b1⟩ (b2 :: hs) ≠ .ok () := by
  intro h
  have h1 : validate cfgMain clock s ⟨1, b1⟩ b2 = .ok () := by
    simp only [validateHeaders] at h
    cases hq : validate cfgMain clock s ⟨1, b1⟩ b2 with
    | ok u => rfl
    | err er => rw [hq] at h; cases h
    | panic => rw [hq] at h; cases h
  obtain ⟨m, hm, hm'⟩ := (validate_ok_iff.1 h1).median
  obtain ⟨m2, hm2, hmed⟩ := C16_median_time_past s (n := 2) (by omega) (by rw [hh]; decide)
  have hm : medianTimePast s 2 = .ok m := hm
  rw [hm2] at hm
  cases hm
  rw [hh] at hmed
  have h2 : IsMedian (windowTimes (([g, aLate] : List Header).take 2)) 900 := by decide
  have := hmed.unique h2
  have h3 : b2.time = 301 := rfl
  omega

/-- Importing any header of the honest chain leaves the active chain as it is. -/
theorem late_stays {s : State} (hi : TreeInv cfgMain UH g s) (hh : s.headers = [g, aLate])
    (ho : ∀ k x, s.orphans.get k = some x → Honest x) {e : Env} (he : EnvOk false e) {h : Header} (hu : Honest h) :
    TreeInv cfgMain UH g (importBlock cfgMain e s h).1 ∧ (importBlock cfgMain e s h).1.headers = [g, aLate] ∧
    ∀ k x, (importBlock cfgMain e s h).1.orphans.get k = some x → Honest x := by
  obtain ⟨s', r, e1, i1, o1⟩ := importBlock_spec acyclicH hi he.1 (h := h) (.inr hu)
  rw [e1]
  have hwo : ∀ k x, (s.withOrphan cfgMain h).orphans.get k = some x → Honest x := by
    intro k x hx
    simp only [State.withOrphan, AMap.get_insert] at hx
    split at hx
    · cases hx; exact hu
    · exact ho _ _ hx
  refine ⟨i1, ?_⟩
  cases o1 with
  | panic => exact ⟨hh, ho⟩
  | duplicate => exact ⟨hh, ho⟩
  | invalid => exact ⟨hh, ho⟩
  | height => exact ⟨hh, ho⟩
  | missing => exact ⟨hh, hwo⟩
  | selected hk _ _ _ _ o =>
    cases o with
    | panic => exact ⟨hh, hwo⟩
    | store c h' =>
      have := he.2 rfl
      rcases h' with h' | h'
      · rw [this.1] at h'; cases h'
      · rw [this.2] at h'; cases h'
    | unchanged => exact ⟨hh, hwo⟩
    | changed c hvb f1 f2 hsw hlst hst hmax hbetter =>
      exfalso
      have io : TreeInv cfgMain UH g (s.withOrphan cfgMain h) := inv_insertOrphan hi (.inr hu) (isKnown_false.1 hk).1
      have hhw : (s.withOrphan cfgMain h).headers = [g, aLate] := hh
      have hbc := hvb.1
      have hval : validateHeaders cfgMain e.clock (s.withOrphan cfgMain h) ⟨c.forkHeight, c.forkHeader⟩ c.headers = .ok () := hvb.2
      have hfork : (s.withOrphan cfgMain h).headers[c.forkHeight]? = some c.forkHeader := by
        show ((s.withOrphan cfgMain h).chain.map (·.header))[c.forkHeight]? = _
        rw [List.getElem?_map, hbc.forkBlk]; rfl
      rw [hhw] at hfork
      have hfc : (c.forkHeight = 0 ∧ c.forkHeader = g) ∨ (c.forkHeight = 1 ∧ c.forkHeader = aLate) := by
        rcases hcf : c.forkHeight with _ | _ | i
        · rw [hcf] at hfork; simp at hfork; exact .inl ⟨rfl, hfork.symm⟩
        · rw [hcf] at hfork; simp at hfork; exact .inr ⟨rfl, hfork.symm⟩
        · rw [hcf] at hfork; simp at hfork
      cases hq : c.headers with
      | nil => exact hbc.nonempty hq
      | cons x xs =>
        have hpq := hbc.path
        rw [hq] at hpq hval
        have hx := hwo _ _ (hbc.stale x (by rw [hq]; simp))
        have hpx : x.prev = c.forkHeader.nonce := hpq.1
        have hx1 : x = b1 ∧ c.forkHeight = 0 := by
          rcases hfc with ⟨h1, h2⟩ | ⟨h1, h2⟩
          · rw [h2] at hpx
            rcases hx with rfl | rfl | hx
            · exact ⟨rfl, h1⟩
            · exact absurd hpx (by decide)
            · exact absurd hpx hx.1
          · rw [h2] at hpx
            rcases hx with rfl | rfl | hx
            · exact absurd hpx (by decide)
            · exact absurd hpx (by decide)
            · exact absurd hpx hx.2.1
        obtain ⟨rfl, hf0⟩ := hx1
        cases xs with
        | nil =>
          have hgain : gainOf cfgMain c = 10 := by
            unfold gainOf
            rw [hq]; rfl
          have hlost : lostOf cfgMain (s.withOrphan cfgMain h) c = 10 := by
            rw [lostOf_eq, hf0, hhw]; rfl
          rw [hgain, hlost] at hbetter
          rcases hbetter with h | ⟨h, -⟩
          · omega
          · cases h
        | cons y ys =>
          have hy := hwo _ _ (hbc.stale y (by rw [hq]; simp))
          have hpy : y.prev = b1.nonce := hpq.2.1
          have hy2 : y = b2 := by
            rcases hy with rfl | rfl | hy
            · exact absurd hpy (by decide)
            · rfl
            · exact absurd hpy hy.2.2.1
          subst hy2
          rw [hf0] at hval
          have hval2 : validateHeaders cfgMain e.clock (s.withOrphan cfgMain h) ⟨1, b1⟩ (b2 :: ys) = .ok () := by
            rw [validateHeaders] at hval
            cases hv : validate cfgMain e.clock (s.withOrphan cfgMain h) ⟨0, c.forkHeader⟩ b1 with
            | ok u => rw [hv] at hval; exact hval
            | err er => rw [hv] at hval; cases hval
            | panic => rw [hv] at hval; cases hval
          exact b2_refused hhw _ _ hval2

/-- **C124, negative part.** The headers `b1`, `b2` are a chain of more work than the active one on which every header obeys the
rules (its timestamp is above the median of its ancestors, the difficulty is right, …).  Yet the node never follows it, however
many headers its miners put on top and in whatever batches these are delivered: `b2` is measured against the median of the
active chain. -/
theorem C124_counterexample :
    ValidBeyond cfgMain 1000000 [g] [b1, b2, b3] ∧ sLate.headers = [g, aLate] ∧ sLate.getByHeight 0 = some g ∧
    totalWork cfgMain (sLate.headers.drop 1) < totalWork cfgMain [b1, b2] ∧
    ∀ bs : List (List (Header × Env)), (∀ p ∈ bs.flatten, Honest p.1 ∧ EnvOk false p.2) →
      (importAll cfgMain sLate bs).headers = [g, aLate] := by
  refine ⟨?_, by decide, by decide, by decide, ?_⟩
  · intro i h hi
    rcases getElem?_three hi with ⟨rfl, rfl⟩ | ⟨rfl, rfl⟩ | ⟨rfl, rfl⟩
    · exact toyNext (.inr rfl) (last := g) (m := 100) rfl rfl (by decide) (by decide) (by decide) (by decide)
    · exact toyNext (.inr rfl) (last := b1) (m := 201) rfl rfl (by decide) (by decide) (by decide) (by decide)
    · exact toyNext (.inr rfl) (last := b2) (m := 201) rfl rfl (by decide) (by decide) (by decide) (by decide)
  · intro bs hbs
    let P : State → Prop := fun s => TreeInv cfgMain UH g s ∧ s.headers = [g, aLate] ∧
      ∀ k x, s.orphans.get k = some x → Honest x
    have hP : ∀ (bs : List (List (Header × Env))) (s : State), P s → (∀ p ∈ bs.flatten, Honest p.1 ∧ EnvOk false p.2) →
        P (importAll cfgMain s bs) := by
      intro bs
      induction bs with
      | nil => intro s h _; exact h
      | cons l bs ih =>
        intro s h hl
        refine ih _ ?_ (fun p hp => hl p (by simp only [List.flatten_cons]; exact List.mem_append_right _ hp))
        show P (importBlocks cfgMain s l).1
        rw [importBlocks_fst]
        have hll : ∀ p ∈ l, Honest p.1 ∧ EnvOk false p.2 :=
          fun p hp => hl p (by simp only [List.flatten_cons]; exact List.mem_append_left _ hp)
        have key : ∀ (l : List (Header × Env)) (s : State) (a : Acc) (i : Nat), P s → (∀ p ∈ l, Honest p.1 ∧ EnvOk false p.2) →
            P (importLoop cfgMain s a i l).1 := by
          intro l
          induction l with
          | nil => intro s a i h _; exact h
          | cons p l ih' =>
            intro s a i h hl
            obtain ⟨x, ex⟩ := p
            have hx := hl (x, ex) List.mem_cons_self
            have hl' := fun p hp => hl p (List.mem_cons_of_mem _ hp)
            have hst : P (importBlock cfgMain ex s x).1 := late_stays h.1 h.2.1 h.2.2 hx.2 hx.1
            unfold importLoop
            split <;> rename_i heq <;> rw [heq] at hst
            · exact ih' _ _ _ hst hl'
            · exact ih' _ _ _ hst hl'
            · exact ih' _ _ _ hst hl'
            · exact ih' _ _ _ hst hl'
            · exact hst
            · exact hst
        exact key l s _ _ h hll
    refine (hP bs sLate ⟨invLate, by decide, ?_⟩ hbs).2.1
    have : sLate.orphans = [] := by decide
    intro k x hx
    rw [this] at hx
    cases hx

/-- The headers of the honest chain, and more on top. -/
example : Honest b1 ∧ Honest b2 ∧ Honest b3 ∧ Honest (mk 24 23 501 10) := by
  refine ⟨.inl rfl, .inr (.inl rfl), .inr (.inr ?_), .inr (.inr ?_)⟩ <;> decide

/-- Its headers are known all the same. -/
example : (importAll cfgMain sLate [[(b1, e), (b2, e), (b3, e)]]).isKnown b3.nonce = true := by decide

end Verif.Chain.Scenario
