import Verif.Cbf.PropsMgr
import Verif.Cbf.Scenario
import Verif.Inv.Keep

/-!
# C129: the filters kept

Filters are kept while the scan has not come to their height, and in the cache (whose size is bounded: C27).
-/

set_option autoImplicit false

namespace Verif.Cbf

section
variable (p : Params)

/-! ## Specification -/

/-- Filters that were requested and are awaited, and filters that were received and are to be scanned. -/
def Mgr.awaited (m : Mgr) : Nat := m.rescan.requested.length + m.rescan.received.length

/-! ## Lemmas -/

theorem processLoop_less : ∀ (fuel : Nat) (r : Rescan), (r.processLoop p fuel).1.received.length ≤ r.received.length
  | 0, r => Nat.le_refl _
  | fuel + 1, r => by
    unfold Rescan.processLoop
    cases h : r.received.get r.current with
    | none => exact Nat.le_refl _
    | some x =>
      have := processLoop_less fuel { r with received := r.received.erase r.current, current := r.current + 1 }
      exact this.trans (Inv.length_erase_le _ _)

theorem process_less (r : Rescan) : (r.process p).1.received.length ≤ r.received.length := by
  have := processLoop_less p r.received.length r
  unfold Rescan.process
  simp only
  split
  · split <;> exact this
  · exact this

theorem filter_ne_lt {l : List Nat} {x : Nat} (h : x ∈ l) : (l.filter (· ≠ x)).length + 1 ≤ l.length := by
  have : (l.filter (· ≠ x)).length < l.length := by
    rw [← List.countP_eq_length_filter]
    exact List.countP_lt_length_iff.2 ⟨x, h, by simp⟩
  omega

theorem afterFilter_rescan (m : Mgr) (ms : List (Nat × Nat)) : (m.afterFilter ms).rescan = m.rescan ∧ (m.afterFilter ms).filters = m.filters := by
  have h := (requestBlocks_frame ms m).1
  unfold Mgr.afterFilter
  simp only
  split
  · exact ⟨by rw [h]; rfl, by rw [h]; rfl⟩
  · rw [h]; exact ⟨rfl, rfl⟩

/-! ## Theorems -/

/-- **C129.** Whatever filters are received, from whomever: no more filters are awaited or kept than before. -/
theorem C129_filters (e : Env) (t : Tree) {m m' : Mgr} {a ft b : Nat} {f : Filter} (h : m.step p e t (.cfilter a ft b f) = .ok m') : m'.awaited ≤ m.awaited := by
  simp only [Mgr.step] at h
  have hc := receivedCFilter_cases p e t m a ft b f
  generalize m.receivedCFilter p e t a ft b f = q at hc h
  cases hc with
  | ignored => cases h; exact Nat.le_refl _
  | invalid => cases h; exact Nat.le_refl _
  | unsolicited => cases h; simp only [Mgr.awaited, (afterFilter_rescan _ _).1]; exact Nat.le_refl _
  | scanned k c r ms es n _ _ _ hk _ hpr =>
    cases h
    have h1 := process_less p { m.rescan with requested := m.rescan.requested.filter (· ≠ k), cache := c.2, received := m.rescan.received.insert k (f, b, false) }
    have h2 := (process_facts p _ hpr).2.2.2.2.2.2.1
    rw [hpr] at h1
    simp only at h1 h2
    have h3 := filter_ne_lt hk
    have h4 := Inv.length_insert_le m.rescan.received k (f, b, false)
    simp only [Mgr.awaited, (afterFilter_rescan _ _).1, h2]
    omega
  | panicked => cases h

/-- **C129.** A filter that is not awaited is not kept: neither to be scanned nor in the cache. -/
theorem C129_filter_unasked (e : Env) (t : Tree) {m m' : Mgr} {a ft b : Nat} {f : Filter} (h : m.step p e t (.cfilter a ft b f) = .ok m')
    (hb : ∀ k, t.heightOf b = some k → k ∉ m.rescan.requested) : m'.rescan = m.rescan ∧ m'.filters = m.filters := by
  simp only [Mgr.step] at h
  have hc := receivedCFilter_cases p e t m a ft b f
  generalize m.receivedCFilter p e t a ft b f = q at hc h
  cases hc with
  | ignored => cases h; exact ⟨rfl, rfl⟩
  | invalid => cases h; exact ⟨rfl, rfl⟩
  | unsolicited =>
    cases h
    exact afterFilter_rescan _ _
  | scanned k c r ms es n _ hh _ hk _ hpr => exact absurd hk (hb k hh)
  | panicked => cases h

end

/-! ## Concrete cases -/

namespace Scenario

/-- Three filters are awaited; the second is received before the first and is kept; received again it is not. -/
example : look Mgr.awaited (m0.run p scan) = some 3 ∧ look (fun m => (m.rescan.requested, m.rescan.received.keys)) (m0.run p (scan ++ [f2 100003])) = some ([1, 3], [2]) ∧
    look Mgr.awaited (m0.run p (scan ++ [f2 100003, f2 100004])) = some 3 ∧ look Mgr.awaited (m0.run p (scan ++ [f2 100003, f1 100004])) = some 1 := by decide +kernel

example : ∃ m m', m0.run p (scan ++ [f2 100003]) = .ok m ∧ m.step p (at_ 100004) t (.cfilter 1 0 102 [2]) = .ok m' ∧ m'.rescan = m.rescan ∧ m'.awaited ≤ m.awaited := by
  have h : look (fun m => (m.rescan.requested, look (fun _ => ()) (m.step p (at_ 100004) t (.cfilter 1 0 102 [2])))) (m0.run p (scan ++ [f2 100003])) = some ([1, 3], some ()) := by decide +kernel
  cases h1 : m0.run p (scan ++ [f2 100003]) with
  | ok m =>
    rw [h1] at h
    simp only [look, Option.some.injEq, Prod.mk.injEq] at h
    cases h2 : m.step p (at_ 100004) t (.cfilter 1 0 102 [2]) with
    | ok m' =>
      refine ⟨m, m', rfl, h2, (C129_filter_unasked p _ _ h2 fun k hk => ?_).1, C129_filters p _ _ h2⟩
      have : t.heightOf 102 = some 2 := by decide
      rw [this, Option.some.injEq] at hk
      rw [h.1, ← hk]; decide
    | err => rw [h2] at h; simp at h
    | panic => rw [h2] at h; simp at h
  | err => rw [h1] at h; simp [look] at h
  | panic => rw [h1] at h; simp [look] at h

end Scenario

end Verif.Cbf
