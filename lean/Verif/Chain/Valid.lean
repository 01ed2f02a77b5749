import Verif.Chain.Batch

/-!
# Helper lemmas: what a validated header satisfies, and how a call changes the chain
-/

set_option autoImplicit false

namespace Verif.Chain
open AMap

variable {cfg : Cfg} {U : Header → Prop} {g : Header} {s : State} {fail : Bool}

/-- What `validate` checks. -/
structure Checked (cfg : Cfg) (clock : Nat) (s : State) (tip : Blk) (h : Header) : Prop where
  prev : cfg.hash tip.header = h.prev
  bits : ∃ b, requiredBits cfg s tip h = .ok b ∧ cfg.target h.bits = cfg.target b
  pow : cfg.hashInt (cfg.hash h) ≤ cfg.target h.bits
  checkpoint : ∀ cp, AMap.get cfg.checkpoints (tip.height + 1) = some cp → cfg.hash h = cp
  median : ∃ m, medianTimePast s (tip.height + 1) = .ok m ∧ m < h.time
  future : ∃ f, addU32 cfg clock maxFutureBlockTime = .ok f ∧ h.time ≤ f

theorem validate_ok_iff {clock : Nat} {tip : Blk} {h : Header} :
    validate cfg clock s tip h = .ok () ↔ Checked cfg clock s tip h := by
  constructor
  · intro hv
    unfold validate at hv
    by_cases hp : cfg.hash tip.header = h.prev
    swap
    · simp [Res.assert, hp] at hv
    have hb : (cfg.hash tip.header == h.prev) = true := by simp [hp]
    simp only [hb, Res.assert_true, Res.ok_bind] at hv
    cases hr : requiredBits cfg s tip h with
    | panic => simp [hr] at hv
    | err e => simp [hr] at hv
    | ok b =>
      simp only [hr, Res.ok_bind] at hv
      by_cases ht : cfg.target h.bits = cfg.target b
      swap
      · simp [validatePow, ht] at hv
      by_cases hpow : cfg.hashInt (cfg.hash h) ≤ cfg.target h.bits
      swap
      · have hpow' : ¬ cfg.hashInt (cfg.hash h) ≤ cfg.target b := by rw [← ht]; exact hpow
        simp [validatePow, ht, hpow'] at hv
      have hgood : validatePow cfg h (cfg.target b) = .good := by
        rw [← ht]; simp [validatePow, hpow]
      rw [hgood] at hv
      have key : (do
            let mtp ← medianTimePast s (tip.height + 1)
            if h.time ≤ mtp then Res.err (Err.timeTooOld h.time)
            else do
              let future ← addU32 cfg clock maxFutureBlockTime
              if h.time > future then Res.err (Err.timeTooNew h.time) else pure () : Res Err Unit) = .ok () →
          (∃ m, medianTimePast s (tip.height + 1) = .ok m ∧ m < h.time) ∧
            ∃ f, addU32 cfg clock maxFutureBlockTime = .ok f ∧ h.time ≤ f := by
        intro hP
        cases hm : medianTimePast s (tip.height + 1) with
        | panic => simp [hm] at hP
        | err e => simp [hm] at hP
        | ok m =>
          simp only [hm, Res.ok_bind] at hP
          by_cases hmt : h.time ≤ m
          · simp [hmt] at hP
          · rw [if_neg hmt] at hP
            cases hf : addU32 cfg clock maxFutureBlockTime with
            | panic => simp [hf] at hP
            | err e => simp [hf] at hP
            | ok f =>
              simp only [hf, Res.ok_bind] at hP
              by_cases hft : h.time > f
              · simp [hft] at hP
              · exact ⟨⟨m, rfl, by omega⟩, f, rfl, by omega⟩
      simp only at hv
      cases hc : AMap.get cfg.checkpoints (tip.height + 1) with
      | none =>
        simp only [hc] at hv
        obtain ⟨h1, h2⟩ := key hv
        exact ⟨hp, ⟨b, hr, ht⟩, hpow, by simp [hc], h1, h2⟩
      | some cp =>
        simp only [hc] at hv
        by_cases hne : cfg.hash h = cp
        · rw [if_neg (by simpa using hne)] at hv
          obtain ⟨h1, h2⟩ := key hv
          refine ⟨hp, ⟨b, hr, ht⟩, hpow, ?_, h1, h2⟩
          intro cp' he
          rw [hc] at he
          rw [hne]; exact Option.some.inj he
        · rw [if_pos hne] at hv
          simp at hv
  · rintro ⟨hp, ⟨b, hr, ht⟩, hpow, hcp, ⟨m, hm, hm'⟩, f, hf, hf'⟩
    have hb : (cfg.hash tip.header == h.prev) = true := by simp [hp]
    have hgood : validatePow cfg h (cfg.target b) = .good := by
      rw [← ht]; simp [validatePow, hpow]
    simp only [validate, hb, Res.assert_true, Res.ok_bind, hr, hgood, hm, hf]
    have h1 : ¬ h.time ≤ m := by omega
    have h2 : ¬ h.time > f := by omega
    cases hc : AMap.get cfg.checkpoints (tip.height + 1) with
    | none => simp [h1, h2]
    | some cp => simp [hcp cp hc, h1, h2]

/-- The block a branch header is validated against. -/
theorem validateHeaders_get {clock : Nat} : ∀ {hs : List Header} {tip : Blk},
    validateHeaders cfg clock s tip hs = .ok () → ∀ (i : Nat) (h : Header), hs[i]? = some h →
      ∃ t : Blk, t.height = tip.height + i ∧ (tip.header :: hs)[i]? = some t.header ∧ Checked cfg clock s t h
  | [], _, _, i, h, hh => by simp at hh
  | x :: hs, tip, hv, i, h, hh => by
    simp only [validateHeaders] at hv
    cases h1 : validate cfg clock s tip x with
    | panic => simp [h1] at hv
    | err e => simp [h1] at hv
    | ok u =>
      simp only [h1, Res.ok_bind] at hv
      cases i with
      | zero =>
        simp at hh; subst hh
        exact ⟨tip, by omega, rfl, validate_ok_iff.1 h1⟩
      | succ i =>
        obtain ⟨t, a, b, c⟩ := validateHeaders_get hv i h (by simpa using hh)
        exact ⟨t, by simp only at a; omega, by simpa using b, c⟩

theorem validateHeaders_withOrphan {clock : Nat} {x : Header} : ∀ (hs : List Header) (tip : Blk),
    validateHeaders cfg clock (s.withOrphan cfg x) tip hs = validateHeaders cfg clock s tip hs
  | [], _ => rfl
  | h :: hs, tip => by
    have h1 : validate cfg clock (s.withOrphan cfg x) tip h = validate cfg clock s tip h := rfl
    simp only [validateHeaders, h1]
    cases validate cfg clock s tip h with
    | ok u => simp only [Res.ok_bind]; exact validateHeaders_withOrphan hs _
    | err e => rfl
    | panic => rfl

/-- How a call may change the active chain: keep the headers up to height `n`, put validated linked headers `hs` on top. -/
structure ChainStep (cfg : Cfg) (U : Header → Prop) (clock : Nat) (s s' : State) (n : Nat) (b : Header) (hs : List Header) :
    Prop where
  base : s.getByHeight n = some b
  above : s'.above = s.above.take n ++ hs
  valid : validateHeaders cfg clock s ⟨n, b⟩ hs = .ok ()

theorem step_refl (hi : TreeInv cfg U g s) {s' : State} {clock : Nat} (h : s'.above = s.above) :
    ChainStep cfg U clock s s' s.height s.last.header [] := by
  refine ⟨?_, ?_, rfl⟩
  · rw [State.getByHeight, hi.height_eq, chain_last_get]; rfl
  · rw [h, List.append_nil, List.take_of_length_le]
    rw [hi.height_eq]; simp [State.above]

/-- Every outcome of an import is such a step, and known headers come from known headers and the imported one. -/
theorem import_step (ha : Acyclic cfg U) (hi : TreeInv cfg U g s) {e : Env} (he : e.Fair) {h : Header} (hu : U h) :
    (∃ n b hs, ChainStep cfg U e.clock s (importBlock cfg e s h).1 n b hs) ∧
    ∀ x, (x ∈ (importBlock cfg e s h).1.above ∨ ∃ k, (importBlock cfg e s h).1.orphans.get k = some x) →
      (x ∈ s.above ∨ ∃ k, s.orphans.get k = some x) ∨
      (x = h ∧ cfg.hashInt (cfg.hash h) ≤ cfg.target h.bits ∧ cfg.target h.bits ≤ cfg.powLimit) := by
  obtain ⟨s', r, e1, i1, o1⟩ := importBlock_spec ha hi he hu
  rw [e1]
  have hsame : ∀ {s' : State}, s'.above = s.above → ∃ n b hs, ChainStep cfg U e.clock s s' n b hs :=
    fun h => ⟨_, _, _, step_refl hi h⟩
  have horph : ∀ x, (∃ k, (s.withOrphan cfg h).orphans.get k = some x) → (∃ k, s.orphans.get k = some x) ∨ x = h := by
    rintro x ⟨k, hk⟩
    simp only [State.withOrphan, AMap.get_insert] at hk
    split at hk
    · exact .inr (Option.some.inj hk).symm
    · exact .inl ⟨k, hk⟩
  cases o1 with
  | panic => exact ⟨hsame rfl, fun x hx => .inl hx⟩
  | duplicate => exact ⟨hsame rfl, fun x hx => .inl hx⟩
  | invalid => exact ⟨hsame rfl, fun x hx => .inl hx⟩
  | height => exact ⟨hsame rfl, fun x hx => .inl hx⟩
  | missing hk hp p1 p2 =>
    refine ⟨hsame rfl, ?_⟩
    rintro x (hx | hx)
    · exact .inl (.inl hx)
    · rcases horph x hx with h1 | h1
      · exact .inl (.inr h1)
      · exact .inr ⟨h1, p1, p2⟩
  | selected hk p1 p2 hv hcp o =>
    have habove : (s.withOrphan cfg h).above = s.above := rfl
    have hknown : ∀ x, (x ∈ s.above ∨ ∃ k, (s.withOrphan cfg h).orphans.get k = some x) →
        (x ∈ s.above ∨ ∃ k, s.orphans.get k = some x) ∨
        (x = h ∧ cfg.hashInt (cfg.hash h) ≤ cfg.target h.bits ∧ cfg.target h.bits ≤ cfg.powLimit) := by
      rintro x (hx | hx)
      · exact .inl (.inl hx)
      · rcases horph x hx with h1 | h1
        · exact .inl (.inr h1)
        · exact .inr ⟨h1, p1, p2⟩
    have hstep : ∀ {c : Candidate}, ValidBranch cfg e.clock (s.withOrphan cfg h) c →
        s.getByHeight c.forkHeight = some c.forkHeader ∧
        validateHeaders cfg e.clock s ⟨c.forkHeight, c.forkHeader⟩ c.headers = .ok () := by
      intro c hc
      refine ⟨?_, ?_⟩
      · have := hc.1.forkBlk
        have h2 : s.chain[c.forkHeight]? = some ⟨c.forkHeight, c.forkHeader⟩ := this
        rw [State.getByHeight, h2]; rfl
      · have := hc.2
        unfold validateBranch at this
        rw [validateHeaders_withOrphan] at this
        exact this
    cases o with
    | panic => exact ⟨hsame rfl, hknown⟩
    | unchanged => exact ⟨hsame rfl, hknown⟩
    | store c hf hc hd =>
      obtain ⟨hs1, hs2⟩ := hstep hc
      constructor
      · rcases hd.above with h1 | h1
        · exact ⟨c.forkHeight, c.forkHeader, [], hs1, by rw [h1, List.append_nil]; rfl, rfl⟩
        · exact ⟨c.forkHeight, c.forkHeader, c.headers, hs1, h1, hs2⟩
      · rintro x (hx | ⟨k, hx⟩)
        · rcases hd.above with h1 | h1
          · rw [h1] at hx
            exact .inl (.inl (List.mem_of_mem_take hx))
          · rw [h1, List.mem_append] at hx
            rcases hx with hx | hx
            · exact .inl (.inl (List.mem_of_mem_take hx))
            · exact hknown x (.inr ⟨_, hc.1.stale x hx⟩)
        · rcases hd.orphans k x hx with h1 | h1
          · exact .inl (.inl h1)
          · exact hknown x (.inr ⟨k, h1⟩)
    | changed c hc f1 f2 hsw hl hst _ _ =>
      obtain ⟨hs1, hs2⟩ := hstep hc
      refine ⟨⟨c.forkHeight, c.forkHeader, c.headers, hs1, hsw.above, hs2⟩, ?_⟩
      rintro x (hx | ⟨k, hx⟩)
      · simp only at hx
        rw [hsw.above, List.mem_append] at hx
        rcases hx with hx | hx
        · exact .inl (.inl (List.mem_of_mem_take hx))
        · exact hknown x (.inr ⟨_, hc.1.stale x hx⟩)
      · obtain ⟨-, ⟨b, hb, -, rfl⟩ | h1⟩ := (hsw.orphans k x).1 hx
        · exact .inl (.inl (List.mem_map.2 ⟨b, List.mem_of_mem_drop hb, rfl⟩))
        · exact hknown x (.inr ⟨k, h1⟩)

theorem extend_step (ha : Acyclic cfg U) (hi : TreeInv cfg U g s) {e : Env} {h : Header} (hu : U h) :
    (∃ n b hs, ChainStep cfg U e.clock s (extendTip cfg e s h).1 n b hs) ∧
    ∀ x, (x ∈ (extendTip cfg e s h).1.above ∨ ∃ k, (extendTip cfg e s h).1.orphans.get k = some x) →
      (x ∈ s.above ∨ ∃ k, s.orphans.get k = some x) ∨ (x = h ∧ Checked cfg e.clock s s.last h) := by
  obtain ⟨s', r, e1, i1, ho⟩ := extendTip_spec ha hi e hu
  rw [e1]
  have hsame : ∀ {s' : State}, s'.above = s.above → ∃ n b hs, ChainStep cfg U e.clock s s' n b hs :=
    fun h => ⟨_, _, _, step_refl hi h⟩
  have hext : h.prev = cfg.hash s.last.header → validate cfg e.clock s s.last h = .ok () → s'.above = s.above ++ [h] →
      s'.orphans = s.orphans.erase (cfg.hash h) → 
      (∃ n b hs, ChainStep cfg U e.clock s s' n b hs) ∧ ∀ x, (x ∈ s'.above ∨ ∃ k, s'.orphans.get k = some x) →
      (x ∈ s.above ∨ ∃ k, s.orphans.get k = some x) ∨ (x = h ∧ Checked cfg e.clock s s.last h) := by
    intro hp hv hab hor
    constructor
    · have h0 := step_refl (s' := s) (clock := e.clock) hi rfl
      refine ⟨s.height, s.last.header, [h], h0.base, ?_, ?_⟩
      · have := h0.above
        rw [List.append_nil] at this
        rw [hab, ← this]
      · have : (⟨s.height, s.last.header⟩ : Blk) = s.last := rfl
        simp only [validateHeaders, this, hv, Res.ok_bind]
    · rintro x (hx | ⟨k, hx⟩)
      · rw [hab, List.mem_append, List.mem_singleton] at hx
        rcases hx with hx | hx
        · exact .inl (.inl hx)
        · exact .inr ⟨hx, validate_ok_iff.1 hv⟩
      · rw [hor, AMap.get_erase] at hx
        split at hx
        · simp at hx
        · exact .inl (.inr ⟨k, hx⟩)
  rcases ho with ⟨-, -, rfl⟩ | ⟨-, -, -, rfl⟩ | ⟨-, -, hp, hv, hab, -, hor⟩ | ⟨-, rfl, -⟩ | ⟨-, -, hp, hv, hab, -, -, hor⟩
  · exact ⟨hsame rfl, fun x hx => .inl hx⟩
  · exact ⟨hsame rfl, fun x hx => .inl hx⟩
  · exact hext hp hv hab hor
  · exact ⟨hsame rfl, fun x hx => .inl hx⟩
  · exact hext hp hv hab hor

/-- The header at height `i` after a step. -/
theorem ChainStep.get {clock : Nat} {s' : State} {n : Nat} {b : Header} {hs : List Header} (hi : TreeInv cfg U g s)
    (hi' : TreeInv cfg U g s') (h : ChainStep cfg U clock s s' n b hs) (i : Nat) :
    s'.getByHeight i = if i ≤ n then s.getByHeight i else hs[i - n - 1]? := by
  have hn : n ≤ s.above.length := by
    have := ((view_of_inv hi).defined n).1 (by rw [h.base]; rfl)
    rw [hi.height_eq] at this
    simpa [State.above] using this
  rw [getByHeight_headers, getByHeight_headers, hi.headers_eq, hi'.headers_eq, h.above]
  cases i with
  | zero => simp
  | succ i =>
    simp only [List.getElem?_cons_succ]
    by_cases hle : i + 1 ≤ n
    · rw [if_pos hle, List.getElem?_append_left (by simp; omega), List.getElem?_take, if_pos (by omega)]
    · rw [if_neg hle, List.getElem?_append_right (by simp; omega)]
      congr 1
      simp; omega

/-- A property of the state preserved by every call holds in every reachable state. -/
theorem reach_induct (ha : Acyclic cfg U) (hg : cfg.genesisHash = cfg.hash g) (P : State → Prop)
    (h0 : P (new cfg g [g]))
    (himp : ∀ s h e, TreeInv cfg U g s → P s → U h → EnvOk fail e → P (importBlock cfg e s h).1)
    (hext : ∀ s h e, TreeInv cfg U g s → P s → U h → EnvOk fail e → P (extendTip cfg e s h).1)
    (hload : ∀ s s', TreeInv cfg U g s → TreeInv cfg U g s' → P s → s'.headers <+: s.headers → s'.orphans = [] → P s')
    (h : Reach cfg U g fail s) : P s := by
  induction h with
  | init => exact h0
  | importBlocks hs hr hu _ ih =>
    rw [importBlocks_fst]
    refine (importLoop_induct' (U := U) (fail := fail) (fun s => TreeInv cfg U g s ∧ P s) ?_ hs _ _ 0
      ⟨(reach_inv ha hg hr).1, ih⟩ hu).2
    rintro s h e ⟨hi, hp⟩ hu he
    refine ⟨?_, himp s h e hi hp hu he⟩
    obtain ⟨s', r, e1, i1, -⟩ := importBlock_spec ha hi he.1 hu
    rw [e1]; exact i1
  | extendTip h e hr hu he _ ih => exact hext _ h e (reach_inv ha hg hr).1 ih hu he
  | restart hf hr hp hne hl ih =>
    have hinv := reach_inv ha hg hr
    rw [hinv.2 hf] at hp
    obtain ⟨s', e1, i1, h1, h3, h2⟩ := load_prefix ha hg hinv.1 hp hne
    rw [e1] at hl
    simp only [Res.ok.injEq] at hl
    subst hl
    exact hload _ _ hinv.1 i1 ih (by rw [h1]; exact hp) h3

/-- Same for a batch. -/
theorem batch_induct (ha : Acyclic cfg U) (P : State → Prop)
    (himp : ∀ s h e, TreeInv cfg U g s → P s → U h → EnvOk fail e → P (importBlock cfg e s h).1)
    (hi : TreeInv cfg U g s) (hp : P s) {hs : List (Header × Env)} (hu : ∀ p ∈ hs, U p.1 ∧ EnvOk fail p.2) :
    P (importBlocks cfg s hs).1 := by
  rw [importBlocks_fst]
  refine (importLoop_induct' (U := U) (fail := fail) (fun s => TreeInv cfg U g s ∧ P s) ?_ hs _ _ 0 ⟨hi, hp⟩ hu).2
  rintro s h e ⟨hi, hp⟩ hu he
  refine ⟨?_, himp s h e hi hp hu he⟩
  obtain ⟨s', r, e1, i1, -⟩ := importBlock_spec ha hi he.1 hu
  rw [e1]; exact i1

end Verif.Chain
