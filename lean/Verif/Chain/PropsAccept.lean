import Verif.Chain.PropsValid
import Verif.Chain.PropsBatch
import Verif.Chain.Compact

/-!
# Valid headers are accepted: C104
-/

set_option autoImplicit false

namespace Verif.Chain
open AMap

variable {cfg : Cfg} {U : Header → Prop} {g : Header} {s : State} {fail : Bool}

/-- `h` may follow the chain `chain` (genesis first) at network time `clock`: it names the last header of the chain, obeys the
contextual rules (`RuleOK`: timestamp and difficulty), has the proof of work its target asks for, a target within the limit,
and the hash of the checkpoint at its height, if there is one. -/
structure ValidNext (cfg : Cfg) (clock : Nat) (chain : List Header) (h : Header) : Prop where
  linked : ∃ last, chain.getLast? = some last ∧ h.prev = cfg.hash last
  rules : RuleOK cfg clock chain h
  pow : cfg.hashInt (cfg.hash h) ≤ cfg.target h.bits
  limit : cfg.target h.bits ≤ cfg.powLimit
  checkpoint : ∀ cp, AMap.get cfg.checkpoints chain.length = some cp → cfg.hash h = cp

theorem headers_last (s : State) : s.headers.getLast? = some s.last.header := by
  rw [State.headers, List.getLast?_map, chain_last]; rfl

theorem headers_length (hi : TreeInv cfg U g s) : s.headers.length = s.height + 1 := by
  rw [hi.height_eq]; simp [State.headers, State.chain]

/-- The converse of `rule_of_checked`: a valid header passes the checks. -/
theorem checked_of_rule (hp : ParamsOK cfg) (hi : TreeInv cfg U g s) {clock : Nat} {h : Header}
    (hw : NoWrap cfg clock s.headers) (hv : ValidNext cfg clock s.headers h) : Checked cfg clock s s.last h := by
  have hlen := headers_length hi
  have hlast := headers_last s
  have hheight : s.last.height = s.height := rfl
  obtain ⟨l, hl, hprev⟩ := hv.linked
  rw [hlast] at hl
  cases hl
  obtain ⟨m, hm, hm'⟩ := hv.rules.after_median
  obtain ⟨m2, hm2, hmed⟩ := C16_median_time_past s (n := s.height + 1) (by omega) (by omega)
  rw [List.take_of_length_le (by omega)] at hmed
  have hmm := hm.unique hmed
  subst hmm
  refine ⟨hprev.symm, ?_, hv.pow, ?_, ⟨m, hm2, hm'⟩, clock + 7200, ?_, hv.rules.not_future⟩
  · have hd := hv.rules.difficulty
    simp only [specTarget, hlast, hlen, Option.bind_some] at hd
    simp only [requiredBits, hheight]
    by_cases hmod : (s.height + 1) % cfg.interval = 0
    · have h1 : (cfg.allowMin && (s.height + 1) % cfg.interval != 0) = false := by simp [hmod]
      simp only [h1, Bool.false_eq_true, ite_false]
      rw [if_neg (by simpa using hmod)] at hd
      have hge : cfg.interval ≤ s.height + 1 := by
        by_contra hlt'
        rw [Nat.mod_eq_of_lt (by omega)] at hmod
        omega
      have hpi := hp.interval
      cases hfirst : s.headers[s.height + 1 - cfg.interval]? with
      | none => rw [hfirst] at hd; cases hd
      | some first =>
        rw [hfirst] at hd
        simp only [Option.bind_some, Option.some.injEq] at hd
        have hel := hw.elapsed first s.last.header (by rw [hlen]; exact hfirst) hlast
        have hadj : s.height - (cfg.interval - 1) = s.height + 1 - cfg.interval := by omega
        unfold nextDifficultyTarget
        rw [if_neg (by omega)]
        rw [← getByHeight_headers] at hfirst
        simp only [hadj, hfirst, Option.getD_some, hp.retarget, Bool.false_eq_true, ite_false, subU32, hel, ite_true,
          Res.ok_bind, Res.ok.injEq]
        refine ⟨_, rfl, ?_⟩
        rw [← hd]
        have hcl : (if s.last.header.time - first.time < cfg.timespan / 4 then cfg.timespan / 4
            else if s.last.header.time - first.time > cfg.timespan * 4 then cfg.timespan * 4 else s.last.header.time - first.time) =
            clamp cfg.timespan (s.last.header.time - first.time) := by
          unfold clamp
          split
          · omega
          · split <;> omega
        rw [hcl]
        have hmn : ∀ x L : Nat, (if x > L then L else x) = min L x := by intro x L; split <;> omega
        rw [hmn]
    · rw [if_pos (by simpa using hmod)] at hd
      by_cases hal : cfg.allowMin = true
      · have h1 : (cfg.allowMin && (s.height + 1) % cfg.interval != 0) = true := by simp [hmod, hal]
        have hlate := hw.late s.last.header hlast
        simp only [h1, ite_true, addU32, hlate, Res.ok_bind]
        rw [if_pos hal] at hd
        by_cases hl : h.time > s.last.header.time + cfg.spacing * 2
        · rw [if_pos hl] at hd ⊢
          simp only [Option.some.injEq] at hd
          exact ⟨_, rfl, hd.symm⟩
        · rw [if_neg hl] at hd ⊢
          simp only [nextMinDifficultyTarget, hal, Res.assert_true, Res.ok_bind]
          rw [iter_zip, ← List.map_reverse, List.find?_map]
          have hfun : ((fun p : Nat × Header => p.2.bits != cfg.powLimitBits || p.1 % cfg.interval == 0) ∘
              (fun p : Header × Nat => (p.2, p.1))) =
              (fun p : Header × Nat => decide (p.1.bits ≠ cfg.powLimitBits ∨ p.2 % cfg.interval = 0)) := by
            funext p
            simp only [Function.comp_apply]
            rw [Bool.eq_iff_iff]
            simp
          rw [hfun]
          cases hf : s.headers.zipIdx.reverse.find?
              (fun p : Header × Nat => decide (p.1.bits ≠ cfg.powLimitBits ∨ p.2 % cfg.interval = 0)) with
          | none => rw [hf] at hd; cases hd
          | some q =>
            rw [hf] at hd
            simp only [Option.map_some, Option.some.injEq] at hd ⊢
            exact ⟨_, rfl, hd.symm⟩
      · have hal' : cfg.allowMin = false := by simpa using hal
        have h1 : (cfg.allowMin && (s.height + 1) % cfg.interval != 0) = false := by simp [hal']
        simp only [h1, Bool.false_eq_true, ite_false]
        rw [if_neg hal] at hd
        simp only [Option.some.injEq] at hd
        rw [C15_unchanged hmod]
        exact ⟨_, rfl, by rw [hp.canon, hd]⟩
  · intro cp hcp
    rw [hheight, ← hlen] at hcp
    exact hv.checkpoint cp hcp
  · have := hw.clock
    simp only [addU32, maxFutureBlockTime, this, ite_true]

theorem index_last (hi : TreeInv cfg U g s) : s.index.get (cfg.hash s.last.header) = some s.height := by
  rw [hi.index]
  refine ⟨s.last, ?_, rfl⟩
  have := chain_last s
  rw [List.getLast?_eq_getElem?] at this
  rw [← this, hi.height_eq]
  simp [State.chain]

theorem lastCheckpoint_le (s : State) : s.lastCheckpoint cfg ≤ s.height := by
  unfold State.lastCheckpoint
  cases hf : (cfg.checkpoints.reverse.map (·.1)).find? (· ≤ s.height) with
  | none => simp
  | some n => have := List.find?_some hf; simpa using this

theorem not_active (ha : Acyclic cfg U) (hi : TreeInv cfg U g s) {h : Header} (hu : U h) (hp : h.prev = cfg.hash s.last.header) :
    s.index.get (cfg.hash h) = none := by
  rw [hi.contains_iff]
  intro x hx he
  obtain ⟨rank, hr⟩ := ha
  have h1 := hr h hu
  have h2 := path_rank hi.path (fun y hy => hr y (hi.tailU y hy))
  rw [hi.headers_eq] at hx
  rw [hp] at h1
  rcases List.mem_cons.1 hx with rfl | hx
  · rw [he] at h2; omega
  · have := (h2.1 x hx).2
    rw [he] at this; omega

/-- What importing a valid header leads to. -/
theorem accept_outcome (hc : cfg.checked = false) (hp : ParamsOK cfg) (ha : Acyclic cfg U) (hi : TreeInv cfg U g s)
    {e : Env} (he : EnvOk false e) {h : Header} (hu : U h) (hw : NoWrap cfg e.clock s.headers)
    (hv : ValidNext cfg e.clock s.headers h) (hk : s.orphans.get (cfg.hash h) = none) (hpos : 0 < cfg.work h.bits) :
    ∃ s' c, importBlock cfg e s h = (s', .ok (.tipChanged s'.last.header c.tip s'.height
          ((s.chain.drop (c.forkHeight + 1)).map (fun b => (b.height, b.header)))
          ((s'.chain.drop (c.forkHeight + 1)).map (fun b => (b.height, b.header))))) ∧ TreeInv cfg U g s' ∧
      IsBranch cfg (s.withOrphan cfg h) c.tip c ∧ Switched cfg (s.withOrphan cfg h) c s' ∧ cfg.hash s'.last.header = c.tip ∧
      s.chainwork + cfg.work h.bits ≤ s'.chainwork := by
  have hchk := validate_ok_iff.2 (checked_of_rule hp hi hw hv)
  obtain ⟨l, hl, hprev⟩ := hv.linked
  rw [headers_last] at hl
  cases hl
  have hidx := not_active ha hi hu hprev
  have hil := index_last hi
  have io : TreeInv cfg U g (s.withOrphan cfg h) := inv_insertOrphan hi hu hidx
  have hbr : ValidBranch cfg e.clock (s.withOrphan cfg h) ⟨cfg.hash h, [h], s.height, s.last.header⟩ := by
    refine ⟨⟨rfl, by simp, ?_, ⟨hprev, rfl⟩, ?_⟩, ?_⟩
    · obtain ⟨b, hb1, hb2⟩ := (hi.index _ _).1 hil
      have hcl := chain_last s
      rw [List.getLast?_eq_getElem?] at hcl
      have : s.chain.length - 1 = s.height := by rw [hi.height_eq]; simp [State.chain]
      rw [this] at hcl
      exact hcl
    · intro x hx
      rw [List.mem_singleton] at hx
      subst hx
      show (s.orphans.insert (cfg.hash x) x).get (cfg.hash x) = some x
      rw [AMap.get_insert, if_pos rfl]
    · show validateHeaders cfg e.clock (s.withOrphan cfg h) ⟨s.height, s.last.header⟩ [h] = .ok ()
      rw [validateHeaders_withOrphan]
      have : (⟨s.height, s.last.header⟩ : Blk) = s.last := rfl
      rw [this]
      simp only [validateHeaders, hchk, Res.ok_bind]
  have hlost : lostOf cfg (s.withOrphan cfg h) ⟨cfg.hash h, [h], s.height, s.last.header⟩ = 0 := by
    have hd : (s.withOrphan cfg h).tail.drop s.height = [] := by
      apply List.drop_of_length_le
      rw [hi.height_eq]; exact Nat.le_refl _
    unfold lostOf
    rw [hd]; rfl
  have hgain : gainOf cfg ⟨cfg.hash h, [h], s.height, s.last.header⟩ = cfg.work h.bits := by simp [gainOf, branchWork]
  obtain ⟨s', r, e1, i1, o1⟩ := importBlock_spec ha hi he.1 hu
  cases o1 with
  | panic h' => rw [hc] at h'; cases h'
  | duplicate h' => rw [isKnown_false.2 ⟨hidx, hk⟩] at h'; cases h'
  | invalid er _ _ h' =>
    rcases h' with ⟨_, h'⟩ | h' | h'
    · rw [hchk] at h'; cases h'
    · have := hv.pow; omega
    · have := hv.limit; omega
  | height n _ h1 h2 =>
    rw [hprev, hil] at h1
    cases h1
    have := lastCheckpoint_le (cfg := cfg) s
    omega
  | missing _ h1 =>
    rw [isKnown_false, hprev, hil] at h1
    cases h1.1
  | selected _ _ _ _ _ o =>
    cases o with
    | panic h' => rw [hc] at h'; cases h'
    | store c h' =>
      have := he.2 rfl
      rcases h' with h' | h'
      · rw [this.1] at h'; cases h'
      · rw [this.2] at h'; cases h'
    | unchanged hall =>
      have := (hall _ hbr).1
      rw [hlost, hgain] at this
      omega
    | changed c hvb f1 f2 hsw hlst hst hmax hbetter =>
      refine ⟨s', c, e1, i1, hvb.1, hsw, hlst, ?_⟩
      have h1 := (hmax _ hbr).1
      rw [hlost, hgain] at h1
      have h2 := switched_work io i1 hsw
      have h3 : (s.withOrphan cfg h).chainwork = s.chainwork := rfl
      rw [h3] at h2
      omega

/-- C104.  Importing a header that may follow the active chain always gives a new tip, and the new chain carries at least the
work of the old one and the new header. -/
theorem C104_valid_header_accepted (hc : cfg.checked = false) (hp : ParamsOK cfg) (ha : Acyclic cfg U)
    (hg : cfg.genesisHash = cfg.hash g) (hr : Reach cfg U g fail s) {e : Env} (he : EnvOk false e) {h : Header} (hu : U h)
    (hw : NoWrap cfg e.clock s.headers) (hv : ValidNext cfg e.clock s.headers h) (hk : s.isKnown (cfg.hash h) = false)
    (hpos : 0 < cfg.work h.bits) :
    ∃ s' header hash height rev conn, importBlock cfg e s h = (s', .ok (.tipChanged header hash height rev conn)) ∧
      s'.chainWork = totalWork cfg s'.headers ∧ totalWork cfg (s.headers ++ [h]) ≤ s'.chainWork := by
  have hi := (reach_inv ha hg hr).1
  obtain ⟨s', c, h1, h2, -, -, -, h3⟩ := accept_outcome hc hp ha hi he hu hw hv (isKnown_false.1 hk).2 hpos
  refine ⟨s', _, _, _, _, _, h1, h2.work, ?_⟩
  rw [totalWork_append, ← hi.work]
  simpa [totalWork, State.chainWork] using h3

/-- Without other known headers the chain just grows. -/
theorem accept_grows (hc : cfg.checked = false) (hp : ParamsOK cfg) (ha : Acyclic cfg U) (hi : TreeInv cfg U g s)
    (ho : ∀ k, s.orphans.get k = none) {e : Env} (he : EnvOk false e) {h : Header} (hu : U h) (hw : NoWrap cfg e.clock s.headers)
    (hv : ValidNext cfg e.clock s.headers h) (hpos : 0 < cfg.work h.bits) :
    ∃ s', importBlock cfg e s h = (s', .ok (.tipChanged h (cfg.hash h) (s.height + 1) [] [(s.height + 1, h)])) ∧
      TreeInv cfg U g s' ∧ s'.headers = s.headers ++ [h] ∧ s'.last = ⟨s.height + 1, h⟩ ∧ ∀ k, s'.orphans.get k = none := by
  obtain ⟨s', c, h1, h2, h3, h4, h5, -⟩ := accept_outcome hc hp ha hi he hu hw hv (ho _) hpos
  obtain ⟨l, hl, hprev⟩ := hv.linked
  rw [headers_last] at hl
  cases hl
  have hall : ∀ x ∈ c.headers, x = h := by
    intro x hx
    have := h3.stale x hx
    simp only [State.withOrphan, AMap.get_insert, ho] at this
    split at this
    · exact (Option.some.inj this).symm
    · cases this
  have hch : c.headers = [h] := by
    cases hq : c.headers with
    | nil => exact absurd hq h3.nonempty
    | cons x xs =>
      have hx := hall x (by rw [hq]; simp)
      subst hx
      cases xs with
      | nil => rfl
      | cons y ys =>
        exfalso
        have hy := hall y (by rw [hq]; simp)
        subst hy
        have hpath := h3.path
        rw [hq] at hpath
        obtain ⟨rank, hr⟩ := ha
        have := hr y hu
        rw [hpath.2.1] at this
        omega
  have hpath := h3.path
  rw [hch] at hpath
  have hfork : c.forkHeight = s.height := by
    have hb := (hi.index (cfg.hash c.forkHeader) c.forkHeight).2 ⟨_, h3.forkBlk, rfl⟩
    rw [← hpath.1, hprev, index_last hi] at hb
    exact (Option.some.inj hb).symm
  have htail : s.above.take s.height = s.above := by
    apply List.take_of_length_le
    rw [hi.height_eq]; simp [State.above]
  have habove : s'.above = s.above ++ [h] := by
    rw [h4.above, hch, hfork]
    show s.above.take s.height ++ [h] = _
    rw [htail]
  have hheaders : s'.headers = s.headers ++ [h] := by rw [h2.headers_eq, hi.headers_eq, habove]; rfl
  have hlast : s'.last.header = h := by
    have := headers_last s'
    rw [hheaders] at this
    simpa using this.symm
  have hheight : s'.height = s.height + 1 := by
    have e1 := headers_length h2
    have e2 := headers_length hi
    rw [hheaders, List.length_append] at e1
    simp at e1
    omega
  have hdrop : s.chain.drop (s.height + 1) = [] := by
    apply List.drop_of_length_le
    rw [hi.height_eq]; simp [State.chain]
  have hdrop' : (s'.chain.drop (s.height + 1)).map (fun b => (b.height, b.header)) = [(s.height + 1, h)] := by
    have hcl : s'.chain.drop (s.height + 1) = [s'.last] := by
      have hlen : s'.chain.length = s.height + 2 := by
        have := headers_length h2
        simp only [State.headers, List.length_map] at this
        omega
      have hcl := chain_last s'
      rw [List.getLast?_eq_getElem?, hlen] at hcl
      rw [List.drop_eq_getElem_cons (by omega)]
      have : s'.chain[s.height + 1]'(by omega) = s'.last := by
        rw [List.getElem?_eq_getElem (by omega)] at hcl
        exact Option.some.inj hcl
      rw [this, List.drop_of_length_le (by omega)]
    rw [hcl]
    simp only [List.map_cons, List.map_nil, hlast]
    exact congrArg (fun n => [(n, h)]) hheight
  have htip : c.tip = cfg.hash h := by rw [← h5, hlast]
  rw [hfork, hdrop, hdrop', htip, hlast, hheight] at h1
  refine ⟨s', h1, h2, hheaders, ?_, ?_⟩
  · have : s'.last = ⟨s'.height, s'.last.header⟩ := rfl
    rw [this, hheight, hlast]
  · intro k
    cases hg : s'.orphans.get k with
    | none => rfl
    | some x =>
      exfalso
      obtain ⟨q1, q2⟩ := (h4.orphans k x).1 hg
      rw [hch] at q1
      rcases q2 with ⟨b, hb, -⟩ | q2
      · rw [hfork] at hb
        have : (s.withOrphan cfg h).tail.drop s.height = [] := by
          apply List.drop_of_length_le
          rw [hi.height_eq]; exact Nat.le_refl _
        rw [this] at hb; cases hb
      · simp only [State.withOrphan, AMap.get_insert, ho] at q2
        split at q2
        · rename_i hkk
          exact q1 (by simp [hkk])
        · cases q2

/-- The headers follow each other, each valid when it is imported. -/
def ValidRun (cfg : Cfg) (chain : List Header) : List (Header × Env) → Prop
  | [] => True
  | (h, e) :: hs => ValidNext cfg e.clock chain h ∧ NoWrap cfg e.clock chain ∧ 0 < cfg.work h.bits ∧ ValidRun cfg (chain ++ [h]) hs

theorem sinsert_ne_nil {K V : Type} (lt : K → K → Bool) (k : K) (v : V) : ∀ m : List (K × V), sinsert lt k v m ≠ []
  | [] => by simp [sinsert]
  | (a, b) :: m => by
    unfold sinsert
    split
    · simp
    · split <;> simp

theorem accept_loop (hc : cfg.checked = false) (hp : ParamsOK cfg) (ha : Acyclic cfg U) : ∀ (hs : List (Header × Env)) {s : State} (a : Acc) (i : Nat),
    TreeInv cfg U g s → (∀ k, s.orphans.get k = none) → (∀ p ∈ hs, U p.1 ∧ EnvOk false p.2) → ValidRun cfg s.headers hs →
    ∃ s' a', importLoop cfg s a i hs = (s', .ok a') ∧ TreeInv cfg U g s' ∧ (∀ k, s'.orphans.get k = none) ∧
      s'.headers = s.headers ++ hs.map (·.1) ∧ (hs = [] → a' = a) ∧
      (hs ≠ [] → a'.bestHeader = s'.last.header ∧ a'.bestHash = cfg.hash s'.last.header ∧ a'.bestHeight = s'.height ∧ a'.connected ≠ []) ∧
      a'.reverted = a.reverted
  | [], s, a, i, hi, ho, _, _ => ⟨s, a, rfl, hi, ho, by simp, fun _ => rfl, by simp, rfl⟩
  | (h, e) :: hs, s, a, i, hi, ho, hu, hv => by
    obtain ⟨s1, h1, i1, hh1, hl1, ho1⟩ := accept_grows hc hp ha hi ho (hu _ List.mem_cons_self).2 (hu _ List.mem_cons_self).1 hv.2.1 hv.1 hv.2.2.1
    obtain ⟨s', a', k1, k2, k3, k4, k5, k6, k7⟩ := accept_loop hc hp ha hs (a.add cfg h (cfg.hash h) (s.height + 1) [] [(s.height + 1, h)]) (i + 1) i1 ho1
      (fun p hp => hu p (List.mem_cons_of_mem _ hp)) (by rw [hh1]; exact hv.2.2.2)
    refine ⟨s', a', ?_, k2, k3, ?_, by simp, fun _ => ?_, k7⟩
    · simp only [importLoop, h1, k1]
    · rw [k4, hh1]; simp
    · by_cases hne : hs = []
      · rw [k5 hne]
        subst hne
        have hs' : s' = s1 := by
          simp only [importLoop, Prod.mk.injEq] at k1
          exact k1.1.symm
        subst hs'
        refine ⟨by rw [hl1]; rfl, by rw [hl1]; rfl, ?_, ?_⟩
        · show s.height + 1 = s'.last.height
          rw [hl1]
        · exact sinsert_ne_nil _ _ _ _
      · exact k6 hne

/-- C104, for a message of headers.  If no stale headers are known, a list of headers each of which may follow those before it
is imported as a whole: afterwards the active chain is the old one followed by the list, and its tip is reported. -/
theorem C104_valid_batch_accepted (hc : cfg.checked = false) (hp : ParamsOK cfg) (ha : Acyclic cfg U) (cf : CollisionFree cfg U)
    (hg : cfg.genesisHash = cfg.hash g) (hr : Reach cfg U g fail s) (ho : ∀ k, s.orphans.get k = none) {hs : List (Header × Env)} (hne : hs ≠ [])
    (hu : ∀ p ∈ hs, U p.1 ∧ EnvOk false p.2) (hv : ValidRun cfg s.headers hs) :
    ∃ s' conn, importBlocks cfg s hs = (s', .ok (.tipChanged (s'.tip cfg).2 (s'.tip cfg).1 s'.height [] conn)) ∧
      s'.headers = s.headers ++ hs.map (·.1) ∧ ∀ k, s'.orphans.get k = none := by
  have hi := (reach_inv ha hg hr).1
  obtain ⟨s', a', h1, h2, h3, h4, -, h6, h7⟩ := accept_loop hc hp ha hs ⟨[], [], [], s.height, cfg.hash s.last.header, s.last.header⟩ 0 hi ho hu hv
  obtain ⟨b1, b2, b3, b4⟩ := h6 hne
  have hnp := C01_import_no_panic hc ha cf hg hr (hs := hs) (fun p hp => ⟨(hu p hp).1, (hu p hp).2.1, fun _ => (hu p hp).2.2 rfl⟩)
  unfold importBlocks at hnp ⊢
  simp only [h1] at hnp ⊢
  rw [if_neg (by simpa using b4)] at hnp ⊢
  split at hnp
  · exact absurd rfl hnp
  · rename_i hcon
    rw [if_neg hcon]
    rw [h7]
    exact ⟨s', _, by rw [b1, b2, b3]; rfl, h4, h3⟩

/-- C104: the hypotheses are met by `a1`, `a2` on top of genesis. -/
example : ParamsOK Scenario.cfg ∧ (∀ k, (new Scenario.cfg Scenario.g [Scenario.g]).orphans.get k = none) ∧
    ValidRun Scenario.cfg (new Scenario.cfg Scenario.g [Scenario.g]).headers [(Scenario.a1, Scenario.e), (Scenario.a2, Scenario.e)] ∧
    CollisionFree Scenario.cfg (fun h => h ∈ [Scenario.a1, Scenario.a2]) ∧ Scenario.U Scenario.a1 ∧ Scenario.U Scenario.a2 := by
  refine ⟨⟨by decide, rfl, fun _ => rfl⟩, fun _ => rfl, ⟨?_, ?_, by decide, ?_, ?_, by decide, trivial⟩, ?_, by decide, by decide⟩
  · exact ⟨⟨Scenario.g, rfl, rfl⟩, ⟨⟨100, by decide, by decide⟩, by decide, by decide⟩, by decide, by decide, fun cp h => by cases h⟩
  · exact ⟨by decide, fun l h => by cases h; decide, fun f l h1 h2 => by cases h1; cases h2; decide⟩
  · exact ⟨⟨Scenario.a1, rfl, rfl⟩, ⟨⟨200, by decide, by decide⟩, by decide, by decide⟩, by decide, by decide, fun cp h => by cases h⟩
  · exact ⟨by decide, fun l h => by cases h; decide, fun f l h1 h2 => by cases h1; cases h2; decide⟩
  · intro a b ha hb
    simp only [List.mem_cons, List.not_mem_nil, or_false] at ha hb
    rcases ha with rfl | rfl <;> rcases hb with rfl | rfl <;> decide

/-- Mainnet parameters with the real difficulty arithmetic are as the theorems of C09 and C104 assume, and every header carries
work. -/
example : ParamsOK Scenario.cfgReal ∧ ∀ h : Header, 0 < Scenario.cfgReal.work h.bits :=
  ⟨⟨by decide, rfl, Compact.target_compact_target⟩, fun _ => Compact.work_pos _⟩

/-- C104: in a tree with stale headers, `a3` on top of `a2` is accepted too. -/
example : Scenario.sAB.isKnown (Scenario.cfg.hash Scenario.a3) = false ∧
    (importBlock Scenario.cfg Scenario.e Scenario.sAB Scenario.a3).1.headers = [Scenario.g, Scenario.a1, Scenario.a2, Scenario.a3] := by decide

end Verif.Chain
