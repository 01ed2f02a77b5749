import Verif.Chain.Valid
import Verif.Chain.Checkpoint
import Verif.Chain.Compact

/-!
# Property theorems about validation: C08, C09, C10, C15, C16
-/

set_option autoImplicit false

namespace Verif.Chain
open AMap

variable {cfg : Cfg} {U : Header → Prop} {g : Header} {s : State} {fail : Bool}

/-! ## C16 — median time past -/

/-- `m` is the (upper) median of the list `l`: the element at position `length / 2` when sorted, expressed by counting. -/
def IsMedian (l : List Nat) (m : Nat) : Prop :=
  m ∈ l ∧ l.countP (· < m) ≤ l.length / 2 ∧ l.length / 2 < l.countP (· ≤ m)

instance (l : List Nat) (m : Nat) : Decidable (IsMedian l m) := inferInstanceAs (Decidable (_ ∧ _))

/-- The median is unique. -/
theorem IsMedian.unique {l : List Nat} {m m' : Nat} (h : IsMedian l m) (h' : IsMedian l m') : m = m' := by
  have key : ∀ {a b : Nat}, IsMedian l a → IsMedian l b → ¬ a < b := by
    intro a b ha hb hlt
    have h1 : l.countP (· ≤ a) ≤ l.countP (· < b) := by
      apply List.countP_mono_left
      intro x _ hx
      simp at hx ⊢; omega
    have := ha.2.2
    have := hb.2.1
    omega
  have h1 := key h h'
  have h2 := key h' h
  omega

theorem sorted_get_median {L : List Nat} (hs : L.Pairwise (· ≤ ·)) {k m : Nat} (hk : L[k]? = some m) :
    L.countP (· < m) ≤ k ∧ k < L.countP (· ≤ m) := by
  obtain ⟨hlt, hget⟩ := List.getElem?_eq_some_iff.1 hk
  have hsplit : L = L.take k ++ L.drop k := (List.take_append_drop _ _).symm
  have hsplit2 : L = L.take (k + 1) ++ L.drop (k + 1) := (List.take_append_drop _ _).symm
  have hpw := List.pairwise_iff_getElem.1 hs
  constructor
  · have h1 : (L.drop k).countP (· < m) = 0 := by
      rw [List.countP_eq_zero]
      intro x hx
      obtain ⟨i, hi, rfl⟩ := List.getElem_of_mem hx
      simp only [List.getElem_drop, decide_eq_true_eq, Nat.not_lt, ← hget]
      rcases Nat.eq_zero_or_pos i with h0 | h0
      · subst h0; exact Nat.le_refl _
      · simp at hi
        exact hpw k (k + i) hlt (by omega) (by omega)
    have h2 : (L.take k).countP (· < m) ≤ k := by
      refine Nat.le_trans List.countP_le_length ?_
      simp
    calc L.countP (· < m) = (L.take k ++ L.drop k).countP (· < m) := by rw [← hsplit]
      _ ≤ k := by rw [List.countP_append]; omega
  · have h1 : (L.take (k + 1)).countP (· ≤ m) = k + 1 := by
      have : (L.take (k + 1)).countP (· ≤ m) = (L.take (k + 1)).length := by
        rw [List.countP_eq_length]
        intro x hx
        obtain ⟨i, hi, rfl⟩ := List.getElem_of_mem hx
        simp only [List.getElem_take, decide_eq_true_eq, ← hget]
        simp at hi
        by_cases hik : i = k
        · subst hik; exact Nat.le_refl _
        · exact hpw i k (by omega) hlt (by omega)
      rw [this]; simp; omega
    calc k < k + 1 := Nat.lt_succ_self _
      _ ≤ (L.take (k + 1) ++ L.drop (k + 1)).countP (· ≤ m) := by rw [List.countP_append]; omega
      _ = L.countP (· ≤ m) := by rw [← hsplit2]

/-- The timestamps of the (up to) eleven last headers of a chain. -/
def windowTimes (chain : List Header) : List Nat := (chain.drop (chain.length - 11)).map (·.time)

/-- **C16.** For every height `n` of the chain or the one above its tip, `median_time_past(n)` is the median of the
timestamps of the up to eleven headers below height `n`, whatever their order. -/
theorem C16_median_time_past (s : State) {n : Nat} (h1 : 1 ≤ n) (h2 : n ≤ s.headers.length) :
    ∃ m, medianTimePast s n = .ok m ∧ IsMedian (windowTimes (s.headers.take n)) m := by
  obtain ⟨m, hm⟩ := medianTimePast_ok s (n := n) (by omega)
  refine ⟨m, hm, ?_⟩
  have hb : (n != 0) = true := by simp; omega
  have hle : n - medianTimeSpan ≤ n := by omega
  simp only [medianTimePast, hb, Res.assert_true, Res.ok_bind, State.range, hle, ite_true] at hm
  have hspan : medianTimeSpan = 11 := rfl
  have hcl : s.chain.length = s.headers.length := by simp [State.headers]
  have hwin : windowTimes (s.headers.take n) =
      ((s.chain.drop (n - 11)).take (n - (n - 11))).map (·.header.time) := by
    unfold windowTimes
    have : (s.headers.take n).length = n := by simp; omega
    rw [this, List.drop_take, State.headers, ← List.map_drop, ← List.map_take, List.map_map]
    rfl
  rw [hspan] at hm
  have hlen : ((s.chain.drop (n - 11)).take (n - (n - 11))).length = n - (n - 11) := by
    simp; omega
  have htake : List.take (n - (n - 11))
      (((s.chain.drop (n - 11)).take (n - (n - 11))).map (·.header.time) ++
        List.replicate (11 - ((s.chain.drop (n - 11)).take (n - (n - 11))).length) 0) =
      windowTimes (s.headers.take n) := by
    rw [hwin]
    exact List.take_left' (by rw [List.length_map]; exact hlen)
  rw [htake] at hm
  have hwl : (windowTimes (s.headers.take n)).length = n - (n - 11) := by rw [hwin, List.length_map]; exact hlen
  unfold Res.unwrap at hm
  cases hk : ((windowTimes (s.headers.take n)).insertionSort (· ≤ ·))[(n - (n - 11)) / 2]? with
  | none => simp [hk] at hm
  | some v =>
    simp only [hk, Res.ok.injEq] at hm
    subst hm
    have hp := List.perm_insertionSort (· ≤ ·) (windowTimes (s.headers.take n))
    have hs := List.pairwise_insertionSort (· ≤ ·) (windowTimes (s.headers.take n))
    obtain ⟨c1, c2⟩ := sorted_get_median hs hk
    rw [hp.countP_eq] at c1 c2
    refine ⟨hp.mem_iff.1 (List.mem_of_getElem? hk), ?_, ?_⟩
    · rw [hwl]; exact c1
    · rw [hwl]; exact c2

/-- Non-vacuity: unordered timestamps. -/
example : medianTimePast Scenario.sAB 3 = .ok 200 ∧ IsMedian [100, 200, 300] 200 ∧ IsMedian [5, 1, 9, 7] 7 := by decide

/-! ## C15 — difficulty retargeting -/

/-- **C15 (between adjustments).** -/
theorem C15_unchanged {lastHeight lastTime lastTarget : Nat} (h : (lastHeight + 1) % cfg.interval ≠ 0) :
    nextDifficultyTarget cfg s lastHeight lastTime lastTarget = .ok (cfg.compact lastTarget) := by
  unfold nextDifficultyTarget; rw [if_pos h]

theorem round_aux {n t : Nat} (c1 : t ≤ n) (c2 : (n - t) * 2 ^ 15 ≤ n) : n * (2 ^ 15 - 1) ≤ t * 2 ^ 15 := by
  obtain ⟨d, rfl⟩ := Nat.exists_eq_add_of_le c1
  rw [Nat.add_sub_cancel_left] at c2
  have h : ∀ k : Nat, 0 < k → d * k ≤ t + d → (t + d) * (k - 1) ≤ t * k := by
    intro k hk h
    rw [Nat.mul_sub, Nat.add_mul]
    omega
  exact h _ (Nat.two_pow_pos _) c2

/-- Elapsed time clamped to a quarter and four times the target timespan. -/
def clamp (timespan elapsed : Nat) : Nat := max (timespan / 4) (min (timespan * 4) elapsed)

/-- **C15 (at an adjustment).** If the last header is not older than the first header of the period, the required target is
`last target * clamp(elapsed) / timespan`, capped by the limit, in compact form.  Decoded, it is at most the limit, at most
four times the last target, and — unless capped by the limit — at least a quarter of the last target up to compact rounding. -/
theorem C15_retarget {lastHeight lastTime lastTarget : Nat} {first : Header}
    (h : (lastHeight + 1) % cfg.interval = 0) (hpos : 0 < cfg.interval) (hnr : cfg.noRetarget = false)
    (hf : s.getByHeight (lastHeight + 1 - cfg.interval) = some first) (ht : first.time ≤ lastTime)
    (hts : 0 < cfg.timespan) (hts4 : cfg.timespan % 4 = 0)
    (hcompact : ∀ x, x ≤ cfg.powLimit → cfg.target (cfg.compact x) ≤ x ∧
      (x - cfg.target (cfg.compact x)) * 2 ^ 15 ≤ x) :
    ∃ b new, nextDifficultyTarget cfg s lastHeight lastTime lastTarget = .ok b ∧ b = cfg.compact new ∧
      new = min cfg.powLimit (lastTarget * clamp cfg.timespan (lastTime - first.time) / cfg.timespan) ∧
      cfg.target b ≤ cfg.powLimit ∧ cfg.target b ≤ 4 * lastTarget ∧
      (new = cfg.powLimit ∨ lastTarget / 4 ≤ new) ∧ new * (2 ^ 15 - 1) ≤ cfg.target b * 2 ^ 15 := by
  have hadj : lastHeight - (cfg.interval - 1) = lastHeight + 1 - cfg.interval := by omega
  have hval : nextDifficultyTarget cfg s lastHeight lastTime lastTarget =
      .ok (cfg.compact (min cfg.powLimit (lastTarget * clamp cfg.timespan (lastTime - first.time) / cfg.timespan))) := by
    unfold nextDifficultyTarget
    rw [if_neg (by omega)]
    simp only [hadj, hf, Option.getD_some, hnr, Bool.false_eq_true, ite_false, subU32, ht, ite_true, Res.ok_bind]
    have hc : (if lastTime - first.time < cfg.timespan / 4 then cfg.timespan / 4
        else if lastTime - first.time > cfg.timespan * 4 then cfg.timespan * 4 else lastTime - first.time) =
        clamp cfg.timespan (lastTime - first.time) := by
      unfold clamp
      split
      · omega
      · split <;> omega
    rw [hc]
    congr 2
    split <;> omega
  generalize hnew : min cfg.powLimit (lastTarget * clamp cfg.timespan (lastTime - first.time) / cfg.timespan) = new at hval
  have hle : new ≤ cfg.powLimit := by omega
  obtain ⟨c1, c2⟩ := hcompact new hle
  have hcl1 : clamp cfg.timespan (lastTime - first.time) ≤ cfg.timespan * 4 := by unfold clamp; omega
  have hcl2 : cfg.timespan / 4 ≤ clamp cfg.timespan (lastTime - first.time) := by unfold clamp; omega
  refine ⟨_, new, hval, rfl, rfl, by omega, ?_, ?_, ?_⟩
  · have h1 : lastTarget * clamp cfg.timespan (lastTime - first.time) / cfg.timespan ≤ 4 * lastTarget := by
      refine Nat.div_le_of_le_mul ?_
      calc lastTarget * clamp cfg.timespan (lastTime - first.time) ≤ lastTarget * (cfg.timespan * 4) :=
            Nat.mul_le_mul_left _ hcl1
        _ = cfg.timespan * (4 * lastTarget) := by
            rw [Nat.mul_comm 4 lastTarget, ← Nat.mul_assoc, ← Nat.mul_assoc, Nat.mul_comm lastTarget]
    omega
  · have h1 : lastTarget / 4 ≤ lastTarget * clamp cfg.timespan (lastTime - first.time) / cfg.timespan := by
      rw [Nat.le_div_iff_mul_le hts]
      calc lastTarget / 4 * cfg.timespan = lastTarget / 4 * (4 * (cfg.timespan / 4)) := by congr 1; omega
        _ = (lastTarget / 4 * 4) * (cfg.timespan / 4) := by rw [Nat.mul_assoc]
        _ ≤ lastTarget * clamp cfg.timespan (lastTime - first.time) :=
            Nat.mul_le_mul (Nat.div_mul_le_self _ _) hcl2
    omega
  · exact round_aux c1 c2

/-- **C15 (arithmetic).** The product the code computes on 256 bits does not overflow for targets within the limit, if four times the timespan leaves room for it.  (`Networks.C135_no_overflow`: it
does on every built-in network that retargets.) -/
theorem C15_no_overflow {lastTarget elapsed : Nat} (hl : lastTarget ≤ cfg.powLimit) (ht : cfg.powLimit * (cfg.timespan * 4) < 2 ^ 256) :
    lastTarget * clamp cfg.timespan elapsed < 2 ^ 256 := by
  have h1 : clamp cfg.timespan elapsed ≤ cfg.timespan * 4 := by unfold clamp; omega
  exact Nat.lt_of_le_of_lt (Nat.mul_le_mul hl h1) ht

/-- Configuration with the real difficulty arithmetic and mainnet parameters (hash toy as in `Scenario`). -/
def Scenario.cfgReal : Cfg :=
  { Scenario.cfg with
    target := Compact.target, compact := Compact.compact, work := Compact.work, mainnet := true
    powLimit := 0xffff * 256 ^ 26, powLimitBits := 0x1d00ffff }

/-- Non-vacuity: mainnet parameters satisfy the assumptions on the difficulty arithmetic, and a first period of 2016 headers
exists. -/
example : (∀ x, x ≤ Scenario.cfgReal.powLimit →
      Scenario.cfgReal.target (Scenario.cfgReal.compact x) ≤ x ∧
      (x - Scenario.cfgReal.target (Scenario.cfgReal.compact x)) * 2 ^ 15 ≤ x) ∧
    (2015 + 1) % Scenario.cfgReal.interval = 0 ∧ 0 < Scenario.cfgReal.interval ∧ Scenario.cfgReal.noRetarget = false ∧
    (new Scenario.cfgReal Scenario.g []).getByHeight (2015 + 1 - Scenario.cfgReal.interval) = some Scenario.g ∧
    Scenario.g.time ≤ 1000000 ∧ Scenario.cfgReal.timespan % 4 = 0 ∧
    Scenario.cfgReal.powLimit * (Scenario.cfgReal.timespan * 4) < 2 ^ 256 := by
  refine ⟨?_, rfl, by decide, rfl, rfl, by decide, rfl, by decide⟩
  intro x hx
  apply Compact.target_compact
  refine Nat.lt_of_le_of_lt hx ?_
  show 0xffff * 256 ^ 26 < 2 ^ 248
  norm_num

/-- **C15 fails when the last header of a period is older than its first one** (which median-time-past permits): the code
subtracts unsigned 32-bit times; a release build wraps and takes four times the timespan, making the target *easier*, where
the rule (negative elapsed time, clamped from below) takes a quarter. -/
theorem C15_negative_timespan_counterexample : ∃ (cfg : Cfg) (s : State) (lastHeight lastTime lastTarget : Nat) (first : Header),
    (lastHeight + 1) % cfg.interval = 0 ∧ cfg.noRetarget = false ∧ cfg.checked = false ∧
    s.getByHeight (lastHeight + 1 - cfg.interval) = some first ∧ lastTime < first.time ∧
    clamp cfg.timespan (lastTime - first.time) = cfg.timespan / 4 ∧
    nextDifficultyTarget cfg s lastHeight lastTime lastTarget = .ok (lastTarget * 4) :=
  ⟨{ Scenario.cfg with interval := 1, compact := id, powLimit := 10 ^ 9 }, Scenario.sAB, 2, 299, 1000, Scenario.a2,
    by decide, rfl, rfl, by decide, by decide, by decide, by decide⟩

/-! ## C08 — proof-of-work, limit and checkpoints of active headers -/

/-- Known headers meet their own target. -/
def PowInv (cfg : Cfg) (s : State) : Prop :=
  ∀ x, (x ∈ s.above ∨ ∃ k, s.orphans.get k = some x) → cfg.hashInt (cfg.hash x) ≤ cfg.target x.bits

/-- Checkpointed heights hold the checkpointed header. -/
def CheckpointInv (cfg : Cfg) (s : State) : Prop :=
  ∀ n h cp, 1 ≤ n → s.getByHeight n = some h → AMap.get cfg.checkpoints n = some cp → cfg.hash h = cp

theorem above_of_headers {s s' : State} (hi : TreeInv cfg U g s) (hi' : TreeInv cfg U g s') (h : s'.headers <+: s.headers) :
    s'.above <+: s.above := by
  rw [hi.headers_eq, hi'.headers_eq] at h
  exact (List.cons_prefix_cons.1 h).2

/-- All headers that are kept, on the active chain or not, hash to at most their own target. -/
theorem pow_inv (ha : Acyclic cfg U) (hg : cfg.genesisHash = cfg.hash g) (hr : Reach cfg U g fail s) : PowInv cfg s := by
  refine reach_induct ha hg (PowInv cfg) ?_ ?_ ?_ ?_ hr
  · rintro x (hx | ⟨k, hx⟩) <;> simp [new, State.above] at hx
  · intro s h e hi hp hu he x hx
    rcases (import_step ha hi he.1 hu).2 x hx with h1 | ⟨rfl, h1, -⟩
    · exact hp x h1
    · exact h1
  · intro s h e hi hp hu he x hx
    rcases (extend_step ha hi hu).2 x hx with h1 | ⟨rfl, h1⟩
    · exact hp x h1
    · exact h1.pow
  · intro s s' hi hi' hp hh ho x hx
    rw [ho] at hx
    rcases hx with hx | ⟨k, hx⟩
    · exact hp x (.inl ((above_of_headers hi hi' hh).subset hx))
    · simp at hx

/-- **C08 (proof-of-work).** Every header of the active chain other than genesis hashes to at most its own target. -/
theorem C08_proof_of_work (ha : Acyclic cfg U) (hg : cfg.genesisHash = cfg.hash g) (hr : Reach cfg U g fail s)
    {n : Nat} {h : Header} (hn : s.getByHeight (n + 1) = some h) : cfg.hashInt (cfg.hash h) ≤ cfg.target h.bits := by
  refine pow_inv ha hg hr h (.inl ?_)
  rw [getByHeight_headers, (reach_inv ha hg hr).1.headers_eq, List.getElem?_cons_succ] at hn
  exact List.mem_of_getElem? hn

theorem checkpoint_step {clock : Nat} {s s' : State} {n : Nat} {b : Header} {hs : List Header} (hi : TreeInv cfg U g s)
    (hi' : TreeInv cfg U g s') (hst : ChainStep cfg U clock s s' n b hs) (hp : CheckpointInv cfg s) :
    CheckpointInv cfg s' := by
  intro i h cp h1 hget hcp
  rw [hst.get hi hi'] at hget
  split at hget
  · exact hp i h cp h1 hget hcp
  · rename_i hlt
    obtain ⟨t, ht, -, hc⟩ := validateHeaders_get hst.valid _ h hget
    refine hc.checkpoint cp ?_
    rw [ht]
    have : n + (i - n - 1) + 1 = i := by omega
    simp only [this]
    exact hcp

theorem checkpoint_inv (ha : Acyclic cfg U) (hg : cfg.genesisHash = cfg.hash g) (hr : Reach cfg U g fail s) :
    CheckpointInv cfg s := by
  refine reach_induct ha hg (CheckpointInv cfg) ?_ ?_ ?_ ?_ hr
  · intro n h cp h1 hn
    cases n with
    | zero => omega
    | succ n => simp [new, State.getByHeight, State.chain] at hn
  · intro s h e hi hp hu he
    obtain ⟨n, b, hs, hst⟩ := (import_step ha hi he.1 hu).1
    obtain ⟨s', r, e1, i1, -⟩ := importBlock_spec ha hi he.1 hu
    rw [e1] at hst ⊢
    exact checkpoint_step hi i1 hst hp
  · intro s h e hi hp hu he
    obtain ⟨n, b, hs, hst⟩ := (extend_step (e := e) ha hi hu).1
    obtain ⟨s', r, e1, i1, -⟩ := extendTip_spec ha hi e hu
    rw [e1] at hst ⊢
    exact checkpoint_step hi i1 hst hp
  · intro s s' hi hi' hp hh _ n h cp h1 hn
    rw [getByHeight_headers] at hn
    exact hp n h cp h1 (by
      obtain ⟨t, ht⟩ := hh
      rw [getByHeight_headers, ← ht, List.getElem?_append_left (List.getElem?_eq_some_iff.1 hn).1]
      exact hn)

/-- **C08 (checkpoints).** At every checkpointed height that the active chain reaches, it holds the checkpointed header. -/
theorem C08_checkpoints (ha : Acyclic cfg U) (hg : cfg.genesisHash = cfg.hash g) (hr : Reach cfg U g fail s)
    {n : Nat} {h : Header} {cp : Nat} (h1 : 1 ≤ n) (hn : s.getByHeight n = some h)
    (hcp : AMap.get cfg.checkpoints n = some cp) : cfg.hash h = cp :=
  checkpoint_inv ha hg hr n h cp h1 hn hcp

/-- Known headers have a target within the limit. -/
def LimitInv (cfg : Cfg) (g : Header) (s : State) : Prop :=
  ∀ x, (x ∈ g :: s.above ∨ ∃ k, s.orphans.get k = some x) → cfg.target x.bits ≤ cfg.powLimit

theorem requiredBits_limit (hi : TreeInv cfg U g s) (hl : LimitInv cfg g s)
    (hmin : cfg.target cfg.powLimitBits ≤ cfg.powLimit)
    (hcompact : ∀ x, cfg.target (cfg.compact x) ≤ x) {h : Header} {b : Nat}
    (hb : requiredBits cfg s s.last h = .ok b) : cfg.target b ≤ cfg.powLimit := by
  have hget : ∀ {n : Nat} {x : Header}, s.getByHeight n = some x → cfg.target x.bits ≤ cfg.powLimit := by
    intro n x hx
    rw [getByHeight_headers, hi.headers_eq] at hx
    exact hl x (.inl (List.mem_of_getElem? hx))
  have hlast : cfg.target s.last.header.bits ≤ cfg.powLimit := by
    obtain ⟨x, h1, h2⟩ := (view_of_inv hi).tip
    have := congrArg Prod.snd h2
    simp only [State.tip] at this
    rw [this]; exact hget h1
  unfold requiredBits at hb
  split at hb
  · cases ha : addU32 cfg s.last.header.time (cfg.spacing * 2) with
    | panic => simp [ha] at hb
    | err e => simp [ha] at hb
    | ok lim =>
      simp only [ha, Res.ok_bind] at hb
      split at hb
      · simp only [Res.ok.injEq] at hb; rw [← hb]; exact hmin
      · unfold nextMinDifficultyTarget at hb
        cases hc : (Res.assert cfg.allowMin : Res Err Unit) with
        | panic => simp [hc] at hb
        | err e => simp [hc] at hb
        | ok u =>
          simp only [hc, Res.ok_bind] at hb
          split at hb
          · rename_i p hp
            simp only [Res.ok.injEq] at hb
            rw [← hb]
            have := List.mem_of_find?_eq_some hp
            rw [List.mem_reverse, mem_iter (view_of_inv hi)] at this
            exact hget this
          · simp only [Res.ok.injEq] at hb; rw [← hb]; exact hmin
  · unfold nextDifficultyTarget at hb
    split at hb
    · simp only [Res.ok.injEq] at hb; rw [← hb]
      exact Nat.le_trans (hcompact _) hlast
    · simp only at hb
      split at hb
      · simp only [Res.ok.injEq] at hb; rw [← hb]
        cases hq : s.getByHeight (s.last.height - (cfg.interval - 1)) with
        | some x => simp only [Option.getD_some]; exact hget hq
        | none =>
          simp only [Option.getD_none]
          rw [hi.head]
          exact hl g (.inl List.mem_cons_self)
      · cases hs : subU32 cfg s.last.header.time
            ((s.getByHeight (s.last.height - (cfg.interval - 1))).getD s.head.header).time with
        | panic => simp [hs] at hb
        | err e => simp [hs] at hb
        | ok a =>
          simp only [hs, Res.ok_bind, Res.ok.injEq] at hb
          rw [← hb]
          have hcap : ∀ x, (if x > cfg.powLimit then cfg.powLimit else x) ≤ cfg.powLimit := by
            intro x; split <;> omega
          exact Nat.le_trans (hcompact _) (hcap _)

/-- All headers that are kept, on the active chain or not, have a target within the limit. -/
theorem limit_inv (ha : Acyclic cfg U) (hg : cfg.genesisHash = cfg.hash g)
    (hgl : cfg.target g.bits ≤ cfg.powLimit) (hmin : cfg.target cfg.powLimitBits ≤ cfg.powLimit)
    (hcompact : ∀ x, cfg.target (cfg.compact x) ≤ x) (hr : Reach cfg U g fail s) : LimitInv cfg g s := by
  refine reach_induct ha hg (LimitInv cfg g) ?_ ?_ ?_ ?_ hr
  · rintro x (hx | ⟨k, hx⟩)
    · simp [new, State.above] at hx; rw [hx]; exact hgl
    · simp [new] at hx
  · intro s h e hi hp hu he x hx
    rw [List.mem_cons, or_assoc] at hx
    rcases hx with rfl | hx
    · exact hgl
    · rcases (import_step ha hi he.1 hu).2 x hx with h1 | ⟨rfl, -, h1⟩
      · refine hp x ?_
        rw [List.mem_cons, or_assoc]; exact .inr h1
      · exact h1
  · intro s h e hi hp hu he x hx
    rw [List.mem_cons, or_assoc] at hx
    rcases hx with rfl | hx
    · exact hgl
    · rcases (extend_step ha hi hu).2 x hx with h1 | ⟨rfl, h1⟩
      · refine hp x ?_
        rw [List.mem_cons, or_assoc]; exact .inr h1
      · obtain ⟨b, hb, ht⟩ := h1.bits
        rw [ht]
        exact requiredBits_limit hi hp hmin hcompact hb
  · intro s s' hi hi' hp hh ho x hx
    rw [ho] at hx
    rcases hx with hx | ⟨k, hx⟩
    · exact hp x (.inl ((List.cons_prefix_cons.2 ⟨rfl, above_of_headers hi hi' hh⟩).subset hx))
    · simp at hx

/-- **C08 (limit).** If the compact form never decodes to more than what was encoded, and genesis and the minimum-difficulty
bits are within the limit, then every active header's target is within the limit — also for headers added by `extend_tip`. -/
theorem C08_target_limit (ha : Acyclic cfg U) (hg : cfg.genesisHash = cfg.hash g)
    (hgl : cfg.target g.bits ≤ cfg.powLimit) (hmin : cfg.target cfg.powLimitBits ≤ cfg.powLimit)
    (hcompact : ∀ x, cfg.target (cfg.compact x) ≤ x) (hr : Reach cfg U g fail s)
    {n : Nat} {h : Header} (hn : s.getByHeight n = some h) : cfg.target h.bits ≤ cfg.powLimit := by
  refine limit_inv ha hg hgl hmin hcompact hr h (.inl ?_)
  rw [getByHeight_headers, (reach_inv ha hg hr).1.headers_eq] at hn
  exact List.mem_of_getElem? hn

/-- Toy configuration with a checkpoint at height 2 for `a2`. -/
def Scenario.cfgCp : Cfg := { Scenario.cfg with checkpoints := [(2, 12)] }

theorem Scenario.acyclicCp : Acyclic Scenario.cfgCp Scenario.U := ⟨id, fun _ h => h⟩

/-- Branch A active under the checkpoint. -/
def Scenario.sCp : State :=
  (importBlocks Scenario.cfgCp (new Scenario.cfgCp Scenario.g [Scenario.g])
    [(Scenario.a1, Scenario.e), (Scenario.b1, Scenario.e), (Scenario.a2, Scenario.e)]).1

theorem Scenario.reachCp (fail : Bool) : Reach Scenario.cfgCp Scenario.U Scenario.g fail Scenario.sCp := by
  refine Reach.importBlocks _ .init ?_ (by decide)
  intro p hp
  simp only [List.mem_cons, List.not_mem_nil, or_false] at hp
  rcases hp with rfl | rfl | rfl <;> exact ⟨by decide, Scenario.eOk _⟩

/-- Non-vacuity: a reachable tree of height two with a checkpointed block, all assumptions of the C08 theorems met. -/
example : Scenario.sCp.headers = [Scenario.g, Scenario.a1, Scenario.a2] ∧
    AMap.get Scenario.cfgCp.checkpoints 2 = some (Scenario.cfgCp.hash Scenario.a2) ∧
    Scenario.cfgCp.target Scenario.g.bits ≤ Scenario.cfgCp.powLimit ∧
    Compact.target (Compact.compact 12345678) ≤ 12345678 :=
  ⟨by decide, by decide, by decide, (Compact.target_compact (by norm_num)).1⟩

/-! ## C09 — contextual rules of accepted headers -/

/-- The target required by consensus for header `h` on top of the chain `chain` (genesis first), in terms of `h`'s own
ancestors: between adjustments the last target (on networks with minimum-difficulty blocks: the limit if `h` is late, else the
last target that was not a minimum-difficulty one); at adjustments the clamped and capped rescaling. -/
def specTarget (cfg : Cfg) (chain : List Header) (h : Header) : Option Nat :=
  chain.getLast?.bind fun last =>
  if chain.length % cfg.interval ≠ 0 then
    if cfg.allowMin then
      if h.time > last.time + cfg.spacing * 2 then some (cfg.target cfg.powLimitBits)
      else (chain.zipIdx.reverse.find? (fun p => p.1.bits ≠ cfg.powLimitBits ∨ p.2 % cfg.interval = 0)).map
        (fun p => cfg.target p.1.bits)
    else some (cfg.target last.bits)
  else
    chain[chain.length - cfg.interval]?.bind fun first =>
    some (cfg.target (cfg.compact (min cfg.powLimit
      (cfg.target last.bits * clamp cfg.timespan (last.time - first.time) / cfg.timespan))))

/-- The contextual rules for header `h` on top of the chain `chain`, accepted at network time `clock`. -/
structure RuleOK (cfg : Cfg) (clock : Nat) (chain : List Header) (h : Header) : Prop where
  after_median : ∃ m, IsMedian (windowTimes chain) m ∧ m < h.time
  not_future : h.time ≤ clock + 2 * 60 * 60
  difficulty : specTarget cfg chain h = some (cfg.target h.bits)

/-- Timestamps for which the code's 32-bit arithmetic does not wrap when `h` is put on top of `chain`. -/
structure NoWrap (cfg : Cfg) (clock : Nat) (chain : List Header) : Prop where
  clock : clock + 7200 < 2 ^ 32
  late : ∀ last, chain.getLast? = some last → last.time + cfg.spacing * 2 < 2 ^ 32
  elapsed : ∀ first last, chain[chain.length - cfg.interval]? = some first → chain.getLast? = some last →
    first.time ≤ last.time

/-- Parameters for which the theorem is stated: retargeting on, positive interval, decoding stable under re-encoding. -/
structure ParamsOK (cfg : Cfg) : Prop where
  interval : 0 < cfg.interval
  retarget : cfg.noRetarget = false
  canon : ∀ b, cfg.target (cfg.compact (cfg.target b)) = cfg.target b

theorem iter_zip (s : State) : s.iter = s.headers.zipIdx.map (fun p => (p.2, p.1)) := by
  apply List.ext_getElem?
  intro i
  simp [State.iter, State.headers, List.getElem?_zipIdx, List.getElem?_map]
  rfl

theorem rule_of_checked (hp : ParamsOK cfg) (hi : TreeInv cfg U g s) {n clock : Nat} {b h : Header}
    (hb : s.getByHeight n = some b) (hmin : cfg.allowMin = false ∨ n = s.height)
    (hw : NoWrap cfg clock (s.headers.take (n + 1)))
    (hc : Checked cfg clock s ⟨n, b⟩ h) : RuleOK cfg clock (s.headers.take (n + 1)) h := by
  have hlt : n < s.headers.length := by
    rw [getByHeight_headers] at hb
    exact (List.getElem?_eq_some_iff.1 hb).1
  have hlen : (s.headers.take (n + 1)).length = n + 1 := by simp; omega
  have hlast : (s.headers.take (n + 1)).getLast? = some b := by
    rw [List.getLast?_eq_getElem?, hlen, List.getElem?_take]
    simp only [Nat.add_sub_cancel, Nat.lt_succ_self, ite_true]
    rw [← getByHeight_headers]; exact hb
  obtain ⟨m, hm, hm'⟩ := hc.median
  obtain ⟨m2, hm2, hmed⟩ := C16_median_time_past s (n := n + 1) (by omega) (by omega)
  have hm : medianTimePast s (n + 1) = .ok m := hm
  rw [hm2] at hm
  simp only [Res.ok.injEq] at hm
  obtain ⟨f, hf, hf'⟩ := hc.future
  have hfe : f = clock + 7200 := by
    have := hw.clock
    simp only [addU32, maxFutureBlockTime, this, ite_true, Res.ok.injEq] at hf
    exact hf.symm
  refine ⟨⟨m2, hmed, by omega⟩, by omega, ?_⟩
  obtain ⟨bits, hbits, ht⟩ := hc.bits
  rw [ht]
  unfold requiredBits at hbits
  simp only [specTarget, hlast, hlen, Option.bind_some]
  by_cases hmod : (n + 1) % cfg.interval = 0
  · -- adjustment
    have h1 : (cfg.allowMin && (n + 1) % cfg.interval != 0) = false := by simp [hmod]
    simp only [h1, Bool.false_eq_true, ite_false] at hbits
    rw [if_neg (by simpa using hmod)]
    have hge : cfg.interval ≤ n + 1 := by
      by_contra hlt'
      rw [Nat.mod_eq_of_lt (by omega)] at hmod
      omega
    have hpi := hp.interval
    have hfirst : ∃ first, s.getByHeight (n + 1 - cfg.interval) = some first := by
      rw [← Option.isSome_iff_exists, (view_of_inv hi).defined, hi.height_eq]
      have : s.headers.length = s.tail.length + 1 := by simp [State.headers, State.chain]
      omega
    obtain ⟨first, hfirst⟩ := hfirst
    have hfirst' : (s.headers.take (n + 1))[n + 1 - cfg.interval]? = some first := by
      rw [List.getElem?_take, if_pos (by omega), ← getByHeight_headers]; exact hfirst
    have hel := hw.elapsed first b (by rw [hlen]; exact hfirst') hlast
    unfold nextDifficultyTarget at hbits
    rw [if_neg (by omega)] at hbits
    have hadj : n - (cfg.interval - 1) = n + 1 - cfg.interval := by omega
    simp only [hadj, hfirst, Option.getD_some, hp.retarget, Bool.false_eq_true, ite_false, subU32, hel, ite_true,
      Res.ok_bind, Res.ok.injEq] at hbits
    rw [hfirst']
    simp only [Option.bind_some, Option.some.injEq]
    rw [← hbits]
    have hcl : (if b.time - first.time < cfg.timespan / 4 then cfg.timespan / 4
        else if b.time - first.time > cfg.timespan * 4 then cfg.timespan * 4 else b.time - first.time) =
        clamp cfg.timespan (b.time - first.time) := by
      unfold clamp
      split
      · omega
      · split <;> omega
    rw [hcl]
    have hmn : ∀ x L : Nat, (if x > L then L else x) = min L x := by intro x L; split <;> omega
    rw [hmn]
  · rw [if_pos (by simpa using hmod)]
    by_cases hal : cfg.allowMin = true
    · have hn : n = s.height := hmin.resolve_left (by simp [hal])
      have h1 : (cfg.allowMin && (n + 1) % cfg.interval != 0) = true := by simp [hmod, hal]
      have hlate := hw.late b hlast
      simp only [h1, ite_true, addU32, hlate, Res.ok_bind] at hbits
      rw [if_pos hal]
      have htake : s.headers.take (n + 1) = s.headers := by
        apply List.take_of_length_le
        rw [hn, hi.height_eq]; simp [State.headers, State.chain]
      by_cases hl : h.time > b.time + cfg.spacing * 2
      · rw [if_pos hl] at hbits ⊢
        simp only [Res.ok.injEq] at hbits; rw [hbits]
      · rw [if_neg hl] at hbits ⊢
        simp only [nextMinDifficultyTarget, hal, Res.assert_true, Res.ok_bind] at hbits
        rw [htake]
        rw [iter_zip, ← List.map_reverse, List.find?_map] at hbits
        have hfun : ((fun p : Nat × Header => p.2.bits != cfg.powLimitBits || p.1 % cfg.interval == 0) ∘
            (fun p : Header × Nat => (p.2, p.1))) =
            (fun p : Header × Nat => decide (p.1.bits ≠ cfg.powLimitBits ∨ p.2 % cfg.interval = 0)) := by
          funext p
          simp only [Function.comp_apply]
          rw [Bool.eq_iff_iff]
          simp
        rw [hfun] at hbits
        -- genesis always qualifies
        have hex : ∃ p, s.headers.zipIdx.reverse.find?
            (fun p : Header × Nat => decide (p.1.bits ≠ cfg.powLimitBits ∨ p.2 % cfg.interval = 0)) = some p := by
          rw [← Option.isSome_iff_exists, List.find?_isSome]
          refine ⟨(g, 0), ?_, by simp⟩
          rw [List.mem_reverse, hi.headers_eq]
          simp
        obtain ⟨p, hpp⟩ := hex
        rw [hpp] at hbits ⊢
        simp only [Option.map_some, Res.ok.injEq] at hbits ⊢
        rw [hbits]
    · have hal' : cfg.allowMin = false := by simpa using hal
      have h1 : (cfg.allowMin && (n + 1) % cfg.interval != 0) = false := by simp [hal']
      simp only [h1, Bool.false_eq_true, ite_false] at hbits
      rw [if_neg hal]
      rw [C15_unchanged hmod] at hbits
      simp only [Res.ok.injEq] at hbits
      rw [← hbits, hp.canon]

/-- **C09 (single import).** Whenever an import changes the tip, the first header it connects — in particular every header that
extends the chain by itself — obeys the contextual rules with respect to its own ancestors.  (Missing from the full claim: the
further headers of a branch activated at once, see `C09_counterexample`; on networks with minimum-difficulty blocks also the
first header of a branch that forks below the tip.) -/
theorem C09_first_connected_partial (ha : Acyclic cfg U) (hg : cfg.genesisHash = cfg.hash g) (hr : Reach cfg U g fail s)
    (hp : ParamsOK cfg) {e : Env} (he : EnvOk fail e) {h : Header} (hu : U h) {s' : State}
    {header : Header} {hash height n : Nat} {x : Header} {rev conn : List (Nat × Header)}
    (hi : importBlock cfg e s h = (s', .ok (.tipChanged header hash height rev ((n + 1, x) :: conn))))
    (hmin : cfg.allowMin = false ∨ rev = []) (hw : NoWrap cfg e.clock (s'.headers.take (n + 1))) :
    RuleOK cfg e.clock (s'.headers.take (n + 1)) x := by
  have i0 := (reach_inv ha hg hr).1
  obtain ⟨s2, r2, e1, i1, o1⟩ := importBlock_spec ha i0 he.1 hu
  rw [hi] at e1
  obtain ⟨rfl, rfl⟩ := Prod.mk.inj e1
  cases o1 with
  | selected hk _ _ _ _ o =>
    generalize hrev : rev = rev' at o
    generalize hconn : ((n + 1, x) :: conn) = conn' at o
    cases o with
    | changed c hv f1 f2 hsw hl hst hmax hbetter =>
      have hle : c.forkHeight ≤ s.tail.length := hv.1.fork_le
      have habove : s'.above = s.above.take c.forkHeight ++ c.headers := hsw.above
      have hdrop : s'.headers.drop (c.forkHeight + 1) = c.headers := by
        rw [i1.headers_eq, List.drop_succ_cons, habove]
        exact List.drop_left' (by simp [State.above]; omega)
      have htake : s'.headers.take (c.forkHeight + 1) = s.headers.take (c.forkHeight + 1) := by
        rw [i1.headers_take, i0.headers_take, habove]
        congr 1
        exact List.take_left' (by simp [State.above]; omega)
      have hget : s'.chain[c.forkHeight + 1]? = some ⟨n + 1, x⟩ := by
        have h0 : (s'.chain.drop (c.forkHeight + 1))[0]?.map (fun b => (b.height, b.header)) = some (n + 1, x) := by
          rw [← List.getElem?_map, ← hconn]; rfl
        rw [List.getElem?_drop] at h0
        cases hq : s'.chain[c.forkHeight + 1 + 0]? with
        | none => simp [hq] at h0
        | some b =>
          simp only [hq, Option.map_some, Option.some.injEq, Prod.mk.injEq] at h0
          have : b = ⟨n + 1, x⟩ := by cases b; simp_all
          rw [← this]
      have hn : c.forkHeight = n := by
        have := i1.heights _ _ hget
        simp only at this
        omega
      have hx : c.headers[0]? = some x := by
        rw [← hdrop, List.getElem?_drop, Nat.add_zero, State.headers, List.getElem?_map, hget]; rfl
      rw [← hn, htake] at hw ⊢
      have hbase : s.getByHeight c.forkHeight = some c.forkHeader := by
        have h2 : s.chain[c.forkHeight]? = some ⟨c.forkHeight, c.forkHeader⟩ := hv.1.forkBlk
        rw [State.getByHeight, h2]; rfl
      have hval := hv.2
      unfold validateBranch at hval
      rw [validateHeaders_withOrphan] at hval
      obtain ⟨t, t1, t2, t3⟩ := validateHeaders_get hval 0 x hx
      have : t = ⟨c.forkHeight, c.forkHeader⟩ := by
        cases t
        simp only [Nat.add_zero] at t1
        simp only [List.getElem?_cons_zero, Option.some.injEq] at t2
        rw [t1, t2]
      rw [this] at t3
      refine rule_of_checked hp i0 hbase ?_ hw t3
      rcases hmin with h1 | h1
      · exact .inl h1
      · right
        rw [h1] at hrev
        have hnil : s.chain.drop (c.forkHeight + 1) = [] := by
          have := hrev.symm
          rw [List.map_eq_nil_iff] at this
          exact this
        rw [List.drop_eq_nil_iff] at hnil
        simp only [State.chain, List.length_cons] at hnil
        rw [i0.height_eq]; omega

/-- **C09 (tip extension).** Every header accepted by `extend_tip` obeys the contextual rules. -/
theorem C09_extend_tip (ha : Acyclic cfg U) (hg : cfg.genesisHash = cfg.hash g) (hr : Reach cfg U g fail s)
    (hp : ParamsOK cfg) {e : Env} {h : Header} (hu : U h) {s' : State} {header : Header} {hash height : Nat}
    {rev conn : List (Nat × Header)}
    (hi : extendTip cfg e s h = (s', .ok (.tipChanged header hash height rev conn))) (hw : NoWrap cfg e.clock s.headers) :
    s'.headers = s.headers ++ [h] ∧ RuleOK cfg e.clock s.headers h := by
  have i0 := (reach_inv ha hg hr).1
  obtain ⟨s2, r2, e1, i1, ho⟩ := extendTip_spec ha i0 e hu
  rw [hi] at e1
  obtain ⟨rfl, rfl⟩ := Prod.mk.inj e1
  rcases ho with ⟨h1, -⟩ | ⟨_, h1, -⟩ | ⟨h1, -⟩ | ⟨h1, -⟩ | ⟨-, -, hpv, hv, hab, -⟩
  · simp at h1
  · simp at h1
  · simp at h1
  · simp at h1
  · refine ⟨by rw [i1.headers_eq, i0.headers_eq, hab]; rfl, ?_⟩
    have htake : s.headers.take (s.height + 1) = s.headers := by
      apply List.take_of_length_le
      rw [i0.height_eq]; simp [State.headers, State.chain]
    rw [← htake] at hw ⊢
    have h0 := step_refl (s' := s) (clock := e.clock) i0 rfl
    exact rule_of_checked hp i0 h0.base (.inr rfl) hw (validate_ok_iff.1 hv)

/-- Every header of the list obeys the rules with respect to the ones before it, at some time it was accepted. -/
def ChainRules (cfg : Cfg) (headers : List Header) : Prop :=
  ∀ n h, headers[n + 1]? = some h → ∃ clock, RuleOK cfg clock (headers.take (n + 1)) h

/-- **C09 (histories).** Importing a header keeps "every active header obeys the rules with respect to its own ancestors" if it
connects no more than one header. -/
theorem C09_in_order_partial (ha : Acyclic cfg U) (hg : cfg.genesisHash = cfg.hash g) (hr : Reach cfg U g fail s)
    (hp : ParamsOK cfg) {e : Env} (he : EnvOk fail e) {h : Header} (hu : U h) {s' : State}
    {header : Header} {hash height : Nat} {p : Nat × Header} {rev : List (Nat × Header)}
    (hi : importBlock cfg e s h = (s', .ok (.tipChanged header hash height rev [p])))
    (hmin : cfg.allowMin = false ∨ rev = []) (hw : ∀ n, NoWrap cfg e.clock (s'.headers.take n))
    (hrules : ChainRules cfg s.headers) : ChainRules cfg s'.headers := by
  have i0 := (reach_inv ha hg hr).1
  obtain ⟨⟨n, hn, hn', ht, hrv, hcn⟩, -⟩ := import_report ha i0 he.1 hu hi
  obtain ⟨s2, r2, e1, i1, -⟩ := importBlock_spec ha i0 he.1 hu
  rw [hi] at e1
  obtain ⟨rfl, rfl⟩ := Prod.mk.inj e1
  have hv0 := view_of_inv i0
  have hv1 := view_of_inv i1
  have hhead : ∀ i, i < n + 1 → s'.headers[i]? = s.headers[i]? := by
    intro i hlt
    have h1 := congrArg (fun l => l[i]?) ht
    simp only [List.getElem?_take, hlt, ite_true, hv0.iter, hv1.iter] at h1
    rw [← getByHeight_headers, ← getByHeight_headers]
    cases h2 : s'.getByHeight i <;> cases h3 : s.getByHeight i <;> simp_all
  have htk : ∀ i, i ≤ n + 1 → s'.headers.take i = s.headers.take i := by
    intro i hle
    apply List.ext_getElem?
    intro j
    simp only [List.getElem?_take]
    split
    · exact hhead j (by omega)
    · rfl
  have hp0 : p = (n + 1, p.2) ∧ s'.headers[n + 1]? = some p.2 := by
    have h1 : (s'.iter.drop (n + 1))[0]? = some p := by rw [← hcn]; rfl
    rw [List.getElem?_drop, Nat.add_zero, hv1.iter] at h1
    cases h2 : s'.getByHeight (n + 1) with
    | none => simp [h2] at h1
    | some y =>
      simp only [h2, Option.map_some, Option.some.injEq] at h1
      rw [← h1]
      exact ⟨rfl, by rw [← getByHeight_headers, h2]⟩
  have hlen : s'.headers.length = n + 2 := by
    have h1 : (s'.iter.drop (n + 1)).length = 1 := by rw [← hcn]; rfl
    have h2 : s'.iter.length = s'.headers.length := by simp [State.iter, State.headers]
    rw [List.length_drop, h2] at h1
    omega
  intro i x hx
  by_cases hlt : i + 1 < n + 1
  · rw [hhead _ hlt] at hx
    rw [htk _ (by omega)]
    exact hrules i x hx
  · have hi' : i = n := by
      have := (List.getElem?_eq_some_iff.1 hx).1
      omega
    subst hi'
    rw [hp0.2] at hx
    have hx := Option.some.inj hx
    subst hx
    rw [hp0.1] at hi
    exact ⟨e.clock, C09_first_connected_partial ha hg hr hp he hu hi hmin (hw _)⟩

/-- Non-vacuity: in the toy configuration, importing `a3` on top of the example tree connects one header, the parameters are
fine and nothing wraps. -/
example : ∃ s', importBlock Scenario.cfg Scenario.e Scenario.sAB Scenario.a3 =
      (s', .ok (.tipChanged Scenario.a3 13 3 [] [(2 + 1, Scenario.a3)])) ∧
    ParamsOK Scenario.cfg ∧ NoWrap Scenario.cfg Scenario.e.clock (s'.headers.take 3) := by
  refine ⟨_, rfl, ⟨by decide, rfl, fun _ => rfl⟩, ⟨by decide, ?_, ?_⟩⟩
  · intro last h
    have : last = Scenario.a2 := by
      have h2 : some Scenario.a2 = some last := h
      exact (Option.some.inj h2).symm
    subst this; decide
  · intro first last h1 h2
    have e1 : some Scenario.g = some first := h1
    have e2 : some Scenario.a2 = some last := h2
    rw [← Option.some.inj e1, ← Option.some.inj e2]
    decide

/-- Second block of branch B with a time stamp below the median of its own ancestors. -/
def Scenario.b2old : Header := Scenario.mk 22 21 150 10

/-- **C09 fails in general** (defect of the code): headers of a branch are checked against the *active* chain, not against their
own ancestors.  If the child `b2old` arrives before its parent `b1`, both become active although the time of `b2old` (150) is not
above the median time of its ancestors (201). -/
theorem C09_counterexample :
    (importBlocks Scenario.cfg (new Scenario.cfg Scenario.g [Scenario.g])
      [(Scenario.b2old, Scenario.e), (Scenario.b1, Scenario.e)]).1.headers = [Scenario.g, Scenario.b1, Scenario.b2old] ∧
    ∀ clock, ¬ RuleOK Scenario.cfg clock [Scenario.g, Scenario.b1] Scenario.b2old := by
  refine ⟨by decide, ?_⟩
  rintro clock ⟨⟨m, hm, hlt⟩, -, -⟩
  have h1 : IsMedian (windowTimes [Scenario.g, Scenario.b1]) 201 := by decide
  have := hm.unique h1
  subst this
  exact absurd hlt (by decide)

/-! ## C10 — checkpoints and re-organisations -/

/-- **C10 (rejection).** A header whose parent is active below a checkpoint passed by the chain is rejected and the
tree does not change.  (The checkpoints are a `BTreeMap`: they are listed in ascending order, as those of the built-in networks are by
`C135_checkpoints`.) -/
theorem C10_fork_below_checkpoint_rejected (ha : Acyclic cfg U) (hg : cfg.genesisHash = cfg.hash g)
    (hasc : cfg.checkpoints.Pairwise (·.1 < ·.1))
    (hr : Reach cfg U g fail s) {e : Env} (he : EnvOk fail e) {h : Header} (hu : U h) {n : Nat} {b : Header}
    (hb : s.getByHeight n = some b) (hprev : h.prev = cfg.hash b) {p : Nat × Nat} (hp : p ∈ cfg.checkpoints)
    (hpassed : p.1 ≤ s.height) (hbelow : n < p.1) (hnp : (importBlock cfg e s h).2 ≠ .panic) :
    (importBlock cfg e s h).1 = s ∧ ∃ er, (importBlock cfg e s h).2 = .err er := by
  have hlow : n < s.lastCheckpoint cfg := Nat.lt_of_lt_of_le hbelow (le_lastCheckpoint hasc hp hpassed)
  have i0 := (reach_inv ha hg hr).1
  obtain ⟨s2, r2, e1, i1, o1⟩ := importBlock_spec ha i0 he.1 hu
  rw [e1] at hnp ⊢
  have hidx : s.index.get h.prev = some n := by
    rw [hprev]
    exact (i0.index _ n).2 ⟨⟨n, b⟩, getByHeight_blk i0 hb, rfl⟩
  cases o1 with
  | panic => exact absurd rfl hnp
  | duplicate => exact ⟨rfl, _, rfl⟩
  | invalid => exact ⟨rfl, _, rfl⟩
  | height => exact ⟨rfl, _, rfl⟩
  | missing hk hp =>
    have := (isKnown_false.1 hp).1
    rw [hidx] at this; simp at this
  | selected hk _ _ _ hcp o =>
    have := hcp n hidx
    omega

/-- **C10 (single call).** A step that leaves the chain at or above a checkpoint height `n` it had reached does not change the
headers up to `n`. -/
theorem C10_same_up_to_checkpoint (ha : Acyclic cfg U) (cf : CollisionFree cfg U) {s s' : State}
    (i0 : TreeInv cfg U g s) (i1 : TreeInv cfg U g s') (c0 : CheckpointInv cfg s) (c1 : CheckpointInv cfg s') {n cp : Nat}
    (hpos : 1 ≤ n) (hcp : AMap.get cfg.checkpoints n = some cp) (h0 : n ≤ s.height) (h1 : n ≤ s'.height) :
    s'.headers.take (n + 1) = s.headers.take (n + 1) := by
  obtain ⟨x, hx⟩ := Option.isSome_iff_exists.1 (((view_of_inv i0).defined n).2 h0)
  obtain ⟨y, hy⟩ := Option.isSome_iff_exists.1 (((view_of_inv i1).defined n).2 h1)
  have ex := c0 n x cp hpos hx hcp
  have ey := c1 n y cp hpos hy hcp
  rw [getByHeight_headers, i0.headers_eq] at hx
  rw [getByHeight_headers, i1.headers_eq] at hy
  have px := path_take n i0.path x hx
  have py := path_take n i1.path y hy
  rw [ex] at px
  rw [ey] at py
  have := gpath_unique ha cf px (fun h hh => i0.tailU h (List.mem_of_mem_take hh)) py
    (fun h hh => i1.tailU h (List.mem_of_mem_take hh))
  rw [i0.headers_take, i1.headers_take, this]

/-- **C10 (partial).** Once the active chain has passed a checkpoint, a batch import never changes the headers up to the
checkpoint, provided no chain of presented headers shorter than the checkpoint carries as much work as the chain up to the
checkpoint.  (Without this proviso the claim is false, see `C10_counterexample`.) -/
theorem C10_checkpoint_final_partial (ha : Acyclic cfg U) (cf : CollisionFree cfg U) (hg : cfg.genesisHash = cfg.hash g)
    (hr : Reach cfg U g false s) {hs : List (Header × Env)} (hu : ∀ p ∈ hs, U p.1 ∧ EnvOk false p.2)
    {n cp : Nat} (hpos : 1 ≤ n) (hcp : AMap.get cfg.checkpoints n = some cp) (hn : n ≤ s.height)
    (hwork : ∀ l t, Path cfg.hash (cfg.hash g) l t → (∀ x ∈ l, U x) → l.length < n →
      totalWork cfg (g :: l) < totalWork cfg (s.headers.take (n + 1))) :
    n ≤ (importBlocks cfg s hs).1.height ∧ (importBlocks cfg s hs).1.headers.take (n + 1) = s.headers.take (n + 1) := by
  have i0 := (reach_inv ha hg hr).1
  have c0 := checkpoint_inv ha hg hr
  have key := batch_induct (fail := false) ha
    (fun s1 => TreeInv cfg U g s1 ∧ CheckpointInv cfg s1 ∧ n ≤ s1.height ∧ s1.headers.take (n + 1) = s.headers.take (n + 1))
    (by
      rintro s1 h e - ⟨i1, c1, hn1, ht1⟩ hu he
      obtain ⟨s2, r, e1, i2, -⟩ := importBlock_spec ha i1 he.1 hu
      obtain ⟨m, b, hs', hst⟩ := (import_step ha i1 he.1 hu).1
      have hw := (import_work ha i1 hu he).1
      rw [e1] at hst hw ⊢
      simp only at hst hw ⊢
      have c2 := checkpoint_step i1 i2 hst c1
      have hn2 : n ≤ s2.height := by
        by_contra hlt
        have hlt : s2.height < n := by omega
        have hl : s2.above.length < n := by rw [i2.height_eq] at hlt; simpa [State.above] using hlt
        have h1 := hwork s2.above _ i2.path i2.tailU hl
        rw [← i2.headers_eq, ← i2.work, ← ht1] at h1
        have h2 : totalWork cfg (s1.headers.take (n + 1)) ≤ s1.chainwork := by
          rw [i1.work]
          conv_rhs => rw [← List.take_append_drop (n + 1) s1.headers]
          rw [totalWork_append]; omega
        omega
      refine ⟨i2, c2, hn2, ?_⟩
      rw [C10_same_up_to_checkpoint ha cf i1 i2 c1 c2 hpos hcp hn1 hn2, ht1])
    i0 ⟨i0, c0, hn, rfl⟩ hu
  exact key.2.2

/-- The work proviso holds in particular when all headers carry the same positive work. -/
theorem C10_equal_work (hi : TreeInv cfg U g s) {w n : Nat} (hw : ∀ h, U h → cfg.work h.bits = w) (hpos : 0 < w)
    (hn : n ≤ s.height) {l : List Header} (hl : ∀ x ∈ l, U x) (hlen : l.length < n) :
    totalWork cfg (g :: l) < totalWork cfg (s.headers.take (n + 1)) := by
  have hsum : ∀ {l : List Header}, (∀ x ∈ l, U x) → totalWork cfg l = l.length * w := by
    intro l
    induction l with
    | nil => simp [totalWork]
    | cons x l ih =>
      intro h
      have h1 := ih (fun y hy => h y (List.mem_cons_of_mem _ hy))
      simp only [totalWork, List.map_cons, List.sum_cons, List.length_cons] at h1 ⊢
      rw [h1, hw x (h x List.mem_cons_self), Nat.add_mul]; omega
  have hlen2 : (s.above.take n).length = n := by
    rw [List.length_take, State.above, List.length_map]
    rw [hi.height_eq] at hn; omega
  have h2 := hsum (fun x hx => hi.tailU x (List.mem_of_mem_take hx) : ∀ x ∈ s.above.take n, U x)
  have h1 := hsum hl
  rw [hi.headers_take]
  simp only [totalWork, List.map_cons, List.sum_cons] at h1 h2 ⊢
  rw [h1, h2, hlen2]
  have : l.length * w < n * w := Nat.mul_lt_mul_of_pos_right hlen hpos
  omega

/-- Non-vacuity: a reachable tree above its checkpoint, with a competing known branch. -/
example : 2 ≤ Scenario.sCp.height ∧ AMap.get Scenario.cfgCp.checkpoints 2 = some 12 ∧
    Scenario.cfgCp.checkpoints.Pairwise (·.1 < ·.1) ∧ Scenario.sCp.isKnown 21 = true ∧
    (importBlock Scenario.cfgCp Scenario.e Scenario.sCp Scenario.b2).2 = .ok .tipUnchanged ∧
    (importBlock Scenario.cfgCp Scenario.e Scenario.sCp (Scenario.mk 31 1 500 99)).2 = .err (.invalidHeight 1) := by decide

/-- A single heavy block on top of genesis whose child is known but not connected. -/
def Scenario.heavy : Header := Scenario.mk 30 21 201 1000

/-- **C10 fails in general** (defect of the code): the check that a fork is not below the last checkpoint only looks at the
parent of the imported header.  If `b1` is already known as a stale header, its child `heavy` re-organises the chain to a branch
of height two, replacing the checkpointed block at height 3. -/
theorem C10_counterexample :
    let cfg : Cfg := { Scenario.cfg with checkpoints := [(3, 13)] }
    let s0 := (importBlocks cfg (new cfg Scenario.g [Scenario.g])
      [(Scenario.a1, Scenario.e), (Scenario.b1, Scenario.e), (Scenario.a2, Scenario.e), (Scenario.a3, Scenario.e)]).1
    s0.headers = [Scenario.g, Scenario.a1, Scenario.a2, Scenario.a3] ∧ s0.lastCheckpoint cfg = 3 ∧
    (importBlocks cfg s0 [(Scenario.heavy, Scenario.e)]).1.headers = [Scenario.g, Scenario.b1, Scenario.heavy] := by
  decide

end Verif.Chain
