import Verif.Chain.Heaviest
import Verif.Chain.Scenario

/-!
# The chain with the most work wins: C124
-/

set_option autoImplicit false

namespace Verif.Chain
open AMap

variable {cfg : Cfg} {U : Header → Prop} {g : Header} {s : State} {fail : Bool}

theorem take_base {n : Nat} {b : Header} (hb : s.getByHeight n = some b) :
    n < s.headers.length ∧ (s.headers.take (n + 1)).getLast? = some b := by
  rw [getByHeight_headers] at hb
  have hn := (List.getElem?_eq_some_iff.1 hb).1
  refine ⟨hn, ?_⟩
  rw [List.getLast?_eq_getElem?, List.length_take, Nat.min_eq_left (by omega), List.getElem?_take]
  simp only [Nat.add_sub_cancel, Nat.lt_succ_self, ite_true]
  exact hb

/-- Headers each of which may follow the ones before it are linked. -/
theorem ValidBeyond.path {clock : Nat} : ∀ {hs base : List Header} {b : Header}, ValidBeyond cfg clock base hs →
    base.getLast? = some b → ∀ l, (b :: hs).getLast? = some l → Path cfg.hash (cfg.hash b) hs (cfg.hash l)
  | [], base, b, _, _, l, hl => by
    simp only [List.getLast?_singleton, Option.some.injEq] at hl
    subst hl; rfl
  | x :: hs, base, b, hv, hb, l, hl => by
    obtain ⟨l', hl', hp⟩ := (hv 0 x rfl).linked
    simp only [List.take_zero, List.append_nil] at hl'
    rw [hb] at hl'
    cases hl'
    refine ⟨hp, ValidBeyond.path (clock := clock) (base := base ++ [x]) ?_ (by simp) l (by rwa [List.getLast?_cons_cons] at hl)⟩
    intro i h hi
    have := hv (i + 1) h (by simpa using hi)
    simpa using this

/-- The import of the last header of a fork that obeys the rules of its own chain succeeds, and the resulting chain carries at
least the work of that fork's. -/
theorem heaviest_step (hc : cfg.checked = false) (hp : ParamsOK cfg) (hmin : cfg.allowMin = false) (ha : Acyclic cfg U)
    (hi : TreeInv cfg U g s) {e : Env} (he : EnvOk false e) {h : Header} (hu : U h) {n : Nat} {b : Header} {init : List Header}
    (hb : s.getByHeight n = some b) (hcp : s.lastCheckpoint cfg ≤ n)
    (hknown : ∀ x ∈ init, s.orphans.get (cfg.hash x) = some x) (hnew : s.isKnown (cfg.hash h) = false)
    (hv : ValidBeyond cfg e.clock (s.headers.take (n + 1)) (init ++ [h]))
    (hw : NoWrapBeyond cfg e.clock (s.headers.take (n + 1)) (init ++ [h]))
    (hlen : (init ++ [h]).length ≤ cfg.interval)
    (hlater : ∀ x ∈ init ++ [h], ∀ y ∈ s.headers.drop (n + 1), y.time < x.time) :
    ∃ s' r, importBlock cfg e s h = (s', .ok r) ∧ TreeInv cfg U g s' ∧
      ValidBranch cfg e.clock (s.withOrphan cfg h) ⟨cfg.hash h, init ++ [h], n, b⟩ ∧
      SelectOutcome cfg e (s.withOrphan cfg h) s' (.ok r) := by
  obtain ⟨hn, hbase⟩ := take_base hb
  have hk := isKnown_false.1 hnew
  have hpath := hv.path hbase h (by rw [← List.cons_append, List.getLast?_concat])
  have hval := fork_validates hp hmin hb hlen hlater hv hw
  have io : TreeInv cfg U g (s.withOrphan cfg h) := inv_insertOrphan hi hu hk.1
  have hbr : ValidBranch cfg e.clock (s.withOrphan cfg h) ⟨cfg.hash h, init ++ [h], n, b⟩ := by
    refine ⟨⟨rfl, by simp, getByHeight_blk hi hb, hpath, ?_⟩, ?_⟩
    · intro x hx
      show (s.orphans.insert (cfg.hash h) h).get (cfg.hash x) = some x
      rw [AMap.get_insert]
      rcases List.mem_append.1 hx with hx | hx
      · have := hknown x hx
        rw [if_neg (by rintro he; rw [he] at hk; rw [hk.2] at this; cases this)]
        exact this
      · rw [List.mem_singleton] at hx
        subst hx
        rw [if_pos rfl]
    · show validateHeaders cfg e.clock (s.withOrphan cfg h) ⟨n, b⟩ (init ++ [h]) = .ok ()
      rw [validateHeaders_withOrphan]
      exact hval
  have hvn := hv init.length h (by simp)
  -- where the parent of `h` is
  have hparent : (init = [] ∧ h.prev = cfg.hash b) ∨ (∃ x ∈ init, h.prev = cfg.hash x) := by
    obtain ⟨l, hl, hpr⟩ := hvn.linked
    simp only [List.take_left] at hl
    rcases List.eq_nil_or_concat init with rfl | ⟨M, x, rfl⟩
    · left
      rw [List.append_nil, hbase] at hl
      cases hl
      exact ⟨rfl, hpr⟩
    · right
      rw [List.concat_eq_append, ← List.append_assoc, List.getLast?_concat] at hl
      cases hl
      exact ⟨_, by simp, hpr⟩
  have hidxb : s.index.get (cfg.hash b) = some n := (hi.index _ _).2 ⟨_, getByHeight_blk hi hb, rfl⟩
  have hnotidx : ∀ x ∈ init, s.index.get (cfg.hash x) = none := fun x hx => (hi.orphans _ _ (hknown x hx)).2.2
  obtain ⟨s', r, e1, i1, o1⟩ := importBlock_spec ha hi he.1 hu
  cases o1 with
  | panic h' => rw [hc] at h'; cases h'
  | duplicate h' => rw [hnew] at h'; cases h'
  | invalid er _ _ h' =>
    rcases h' with ⟨h1, h'⟩ | h' | h'
    · rcases hparent with ⟨rfl, hpr⟩ | ⟨x, hx, hpr⟩
      · have h2 := index_last hi
        rw [← h1, hpr, hidxb] at h2
        cases h2
        have h3 : s.last = ⟨s.height, b⟩ := by
          have h4 := headers_last s
          rw [List.getLast?_eq_getElem?, headers_length hi] at h4
          rw [getByHeight_headers] at hb
          have : s.headers[s.height + 1 - 1]? = s.headers[s.height]? := rfl
          rw [this, hb] at h4
          have h5 : s.last = ⟨s.height, s.last.header⟩ := rfl
          rw [h5, ← Option.some.inj h4]
        rw [h3] at h'
        simp only [List.nil_append, validateHeaders, h'] at hval
        cases hval
      · have h2 := index_last hi
        rw [← h1, hpr, hnotidx x hx] at h2
        cases h2
    · have := hvn.pow; omega
    · have := hvn.limit; omega
  | height m _ h1 h2 =>
    rcases hparent with ⟨-, hpr⟩ | ⟨x, hx, hpr⟩
    · rw [hpr, hidxb] at h1
      cases h1
      omega
    · rw [hpr, hnotidx x hx] at h1
      cases h1
  | missing _ h1 =>
    rw [isKnown_false] at h1
    rcases hparent with ⟨-, hpr⟩ | ⟨x, hx, hpr⟩
    · rw [hpr, hidxb] at h1; cases h1.1
    · rw [hpr, hknown x hx] at h1; cases h1.2
  | selected _ _ _ _ _ o =>
    cases r with
    | panic => cases o with | panic h' => rw [hc] at h'; cases h'
    | err er =>
      cases o with
      | store c h' =>
        have := he.2 rfl
        rcases h' with h' | h'
        · rw [this.1] at h'; cases h'
        · rw [this.2] at h'; cases h'
    | ok r => exact ⟨s', r, e1, i1, hbr, o⟩

/-- **C124.** (With the restrictions named below.)  Let `init ++ [h]` be headers on top of an active block, not below a checkpoint the chain has passed, each of
which obeys the rules of the chain *it is on*, all of them known but the last.  Then importing the last one succeeds, and the
resulting chain carries at least the work of theirs.  Partial: only for networks without the minimum-difficulty rule, forks of no more headers than a
retarget period, and headers later than all the headers they would displace: see `C124_counterexample`. -/
theorem C124_heaviest_partial (hc : cfg.checked = false) (hp : ParamsOK cfg) (hmin : cfg.allowMin = false) (ha : Acyclic cfg U)
    (hg : cfg.genesisHash = cfg.hash g) (hr : Reach cfg U g fail s)
    {e : Env} (he : EnvOk false e) {h : Header} (hu : U h) {n : Nat} {b : Header} {init : List Header}
    (hb : s.getByHeight n = some b) (hcp : ∀ p ∈ cfg.checkpoints, p.1 ≤ s.height → p.1 ≤ n)
    (hknown : ∀ x ∈ init, s.orphans.get (cfg.hash x) = some x) (hnew : s.isKnown (cfg.hash h) = false)
    (hv : ValidBeyond cfg e.clock (s.headers.take (n + 1)) (init ++ [h]))
    (hw : NoWrapBeyond cfg e.clock (s.headers.take (n + 1)) (init ++ [h]))
    (hlen : (init ++ [h]).length ≤ cfg.interval)
    (hlater : ∀ x ∈ init ++ [h], ∀ y ∈ s.headers.drop (n + 1), y.time < x.time) :
    ∃ s' r, importBlock cfg e s h = (s', .ok r) ∧ s'.chainWork = totalWork cfg s'.headers ∧
      totalWork cfg (s.headers.take (n + 1) ++ (init ++ [h])) ≤ s'.chainWork := by
  have hi := (reach_inv ha hg hr).1
  obtain ⟨s', r, h1, i1, hbr, o⟩ := heaviest_step hc hp hmin ha hi he hu hb (lastCheckpoint_le_of hcp) hknown hnew hv hw hlen hlater
  refine ⟨s', r, h1, i1.work, ?_⟩
  have io : TreeInv cfg U g (s.withOrphan cfg h) := inv_insertOrphan hi hu (isKnown_false.1 hnew).1
  have h2 : totalWork cfg (s.headers.take (n + 1) ++ (init ++ [h])) + _ = s.chainwork + _ :=
    fork_total io ⟨cfg.hash h, init ++ [h], n, b⟩
  cases o with
  | unchanged hall =>
    have h3 := (hall _ hbr).1
    show _ ≤ s.chainwork
    omega
  | changed c hvb f1 f2 hsw hlst hst hmax hbetter =>
    have h3 := (hmax _ hbr).1
    have h4 := switched_work io i1 hsw
    have h5 : (s.withOrphan cfg h).chainwork = s.chainwork := rfl
    rw [h5] at h4
    show _ ≤ s'.chainwork
    omega

end Verif.Chain
