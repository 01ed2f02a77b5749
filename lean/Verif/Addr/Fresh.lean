import Verif.Addr.Lemmas

/-!
# The address manager: how many addresses can still be drawn before the clock of the address book advances
-/

set_option autoImplicit false

namespace Verif.Addr

/-- The address was not drawn for a while. -/
def rested (m : Mgr) (p : Ip × Known) : Bool := decide (sampleTimeout ≤ m.lastIdle.getD 0 - p.2.lastSampled.getD 0)

/-- How many addresses were not drawn for a while. -/
def Mgr.fresh (m : Mgr) : Nat := m.peers.countP (rested m)

section count
variable {K V : Type} [DecidableEq K]

theorem countP_erase_le (f : K × V → Bool) (m : AMap K V) (k : K) : (m.erase k).countP f ≤ m.countP f :=
  (List.filter_sublist).countP_le

theorem countP_erase_lt {f : K × V → Bool} {m : AMap K V} {k : K} {v : V} (h : m.get k = some v) (hf : f (k, v) = true) :
    (m.erase k).countP f + 1 ≤ m.countP f := by
  rw [List.countP_eq_countP_filter_add m f (fun p => decide (p.1 ≠ k))]
  have : 0 < (m.filter (fun p => !decide (p.1 ≠ k))).countP f := by
    rw [List.countP_pos_iff]
    exact ⟨(k, v), List.mem_filter.2 ⟨AMap.mem_of_get h, by simp⟩, hf⟩
  unfold AMap.erase
  omega

theorem countP_insert (f : K × V → Bool) (m : AMap K V) (k : K) (v : V) : (m.insert k v).countP f = (m.erase k).countP f + (if f (k, v) = true then 1 else 0) := by
  unfold AMap.insert
  rw [List.countP_cons]

/-- Replacing a value by one that counts only if the old one did. -/
theorem countP_replace {f : K × V → Bool} {m : AMap K V} {k : K} {v w : V} (h : m.get k = some v) (hf : f (k, w) = true → f (k, v) = true) :
    (m.insert k w).countP f ≤ m.countP f := by
  rw [countP_insert]
  have h1 := countP_erase_le f m k
  split
  · rename_i hw
    exact countP_erase_lt h (hf hw)
  · exact h1

end count

variable {cfg : Config}

theorem update_fresh (m : Mgr) (ip : Ip) (f : Known → Known) (hf : ∀ k, (f k).lastSampled = k.lastSampled) : (m.update ip f).fresh ≤ m.fresh ∧ (m.update ip f).lastIdle = m.lastIdle := by
  unfold Mgr.update
  cases h : m.peers.get ip with
  | none => exact ⟨Nat.le_refl _, rfl⟩
  | some ka =>
    refine ⟨?_, rfl⟩
    exact countP_replace (f := rested m) h (fun hw => by simpa [rested, hf] using hw)

theorem ban_fresh {m m' : Mgr} {ip : Ip} (h : m.ban ip = .ok m') : m'.fresh ≤ m.fresh ∧ m'.lastIdle = m.lastIdle := by
  unfold Mgr.ban at h
  split at h
  · cases h
  · split at h
    · cases h; exact ⟨Nat.le_refl _, rfl⟩
    · cases h
      exact ⟨countP_erase_le (rested m) _ _, rfl⟩

/-- What is told about connections makes no address fresh. -/
theorem told_fresh {m m' : Mgr} {op : Op} {c : Option (NetAddr × Source)} (h : m.step cfg op = .ok (c, m'))
    (ho : (∃ now a, op = .attempted now a) ∨ (∃ a, op = .connected a) ∨ (∃ now a sv ob rc, op = .negotiated now a sv ob rc) ∨ ∃ a r, op = .disconnected a r) :
    m'.fresh ≤ m.fresh ∧ m'.lastIdle = m.lastIdle := by
  rcases ho with ⟨now, a, rfl⟩ | ⟨a, rfl⟩ | ⟨now, a, sv, ob, rc, rfl⟩ | ⟨a, r, rfl⟩
  · simp only [Mgr.step, Res.ok.injEq, Prod.mk.injEq] at h
    rw [← h.2]
    exact update_fresh m a.ip _ (fun _ => rfl)
  · simp only [Mgr.step, Res.ok.injEq, Prod.mk.injEq] at h
    rw [← h.2]
    unfold Mgr.peerConnected
    split <;> exact ⟨Nat.le_refl _, rfl⟩
  · simp only [Mgr.step, Res.ok.injEq, Prod.mk.injEq] at h
    rw [← h.2]
    have h1 : (m.addLocal rc).fresh = m.fresh ∧ (m.addLocal rc).lastIdle = m.lastIdle := by
      unfold Mgr.addLocal; split <;> exact ⟨rfl, rfl⟩
    rw [← h1.1, ← h1.2]
    show ((m.addLocal rc).negotiate now a sv ob).fresh ≤ _ ∧ ((m.addLocal rc).negotiate now a sv ob).lastIdle = _
    generalize m.addLocal rc = m1
    unfold Mgr.negotiate
    split
    · exact ⟨Nat.le_refl _, rfl⟩
    · have h2 : (m1.addSource ob a).fresh = m1.fresh ∧ (m1.addSource ob a).lastIdle = m1.lastIdle := by
        unfold Mgr.addSource; split <;> exact ⟨rfl, rfl⟩
      rw [← h2.1, ← h2.2]
      generalize m1.addSource ob a = m2
      cases hg : m2.peers.get a.ip with
      | none => simp only [hg, Nat.le_refl, and_self]
      | some ka =>
        simp only [hg]
        have h3 : (m2.askFirst a ka).fresh = m2.fresh ∧ (m2.askFirst a ka).lastIdle = m2.lastIdle := by
          unfold Mgr.askFirst; split <;> exact ⟨rfl, rfl⟩
        rw [← h3.1, ← h3.2]
        exact update_fresh _ _ (Known.negotiated now sv) (fun _ => rfl)
  · simp only [Mgr.step] at h
    cases hd : m.peerDisconnected a r with
    | ok x =>
      simp only [hd, Res.ok.injEq, Prod.mk.injEq] at h
      rw [← h.2]
      unfold Mgr.peerDisconnected at hd
      split at hd
      · cases r with
        | permanent => exact ban_fresh (m := { m with connected := sdel m.connected a.ip, sources := sdel m.sources a }) hd
        | dial => exact ban_fresh (m := { m with connected := sdel m.connected a.ip, sources := sdel m.sources a }) hd
        | transient => cases hd; exact ⟨Nat.le_refl _, rfl⟩
        | other => cases hd; exact ⟨Nat.le_refl _, rfl⟩
      · cases hd; exact ⟨Nat.le_refl _, rfl⟩
    | err x => simp [hd] at h
    | panic => simp [hd] at h

theorem sampleIps_some {m : Mgr} {time : Nat} {pred : Known → Bool} {x : Ip × Known} : ∀ {ips : List Ip}, m.sampleIps cfg time pred ips = .ok (some x) →
    m.peers.get x.1 = some x.2 ∧ m.eligible cfg time pred x.1 x.2 = true
  | [], h => by cases h
  | ip :: ips, h => by
    simp only [Mgr.sampleIps] at h
    cases hg : m.peers.get ip with
    | none => simp [hg] at h
    | some ka =>
      simp only [hg] at h
      split at h
      · rename_i he
        cases h
        exact ⟨hg, he⟩
      · exact sampleIps_some h

theorem sampleRanges_some {m : Mgr} {e : Env} {time : Nat} {pred : Known → Bool} {x : Ip × Known} : ∀ {rs : List (List Ip)}, m.sampleRanges cfg e time pred rs = .ok (some x) →
    m.peers.get x.1 = some x.2 ∧ m.eligible cfg time pred x.1 x.2 = true
  | [], h => by cases h
  | r :: rs, h => by
    simp only [Mgr.sampleRanges] at h
    split at h
    · cases h
    · cases hs : m.sampleIps cfg time pred (e.ips r) with
      | ok o =>
        cases o with
        | none => simp only [hs] at h; exact sampleRanges_some h
        | some y => simp only [hs, Res.ok.injEq, Option.some.injEq] at h; subst h; exact sampleIps_some hs
      | err y => simp [hs] at h
      | panic => simp [hs] at h

/-- Drawing an address uses it up. -/
theorem sample_fresh {m m' : Mgr} {e : Env} {pred : Known → Bool} {c : Option (NetAddr × Source)} (h : m.step cfg (.sample e pred) = .ok (c, m')) :
    c.toList.length + m'.fresh ≤ m.fresh ∧ m'.lastIdle = m.lastIdle := by
  have h : m.sampleWith cfg e pred = .ok (c, m') := h
  unfold Mgr.sampleWith at h
  split at h
  · cases h; exact ⟨by simp, rfl⟩
  · cases ht : m.lastIdle with
    | none => simp [ht] at h
    | some time =>
      simp only [ht] at h
      cases hr : m.sampleRanges cfg e time pred (e.ranges (m.ranges.map (·.2))) with
      | ok o =>
        cases o with
        | none => simp only [hr] at h; cases h; exact ⟨by simp, ht⟩
        | some x =>
          obtain ⟨ip, ka⟩ := x
          simp only [hr, Res.ok.injEq, Prod.mk.injEq] at h
          obtain ⟨rfl, rfl⟩ := h
          obtain ⟨h1, h2⟩ := sampleRanges_some hr
          refine ⟨?_, rfl⟩
          have hb : rested m (ip, ka) = true := by
            simp only [Mgr.eligible, Bool.and_eq_true, Bool.not_eq_true', decide_eq_false_iff_not] at h2
            simp only [rested, ht, Option.getD_some, decide_eq_true_eq]
            have := h2.1.1.2
            omega
          have ha : rested m (ip, { ka with lastSampled := some time }) = false := by
            simp [rested, ht, sampleTimeout]
          have hm : rested { m with peers := m.peers.insert ip { ka with lastSampled := some time }, lastIdle := some time } = rested m := by
            funext p; simp [rested, ht]
          show 1 + (m.peers.insert ip { ka with lastSampled := some time }).countP (rested { m with peers := m.peers.insert ip { ka with lastSampled := some time }, lastIdle := some time }) ≤
            m.peers.countP (rested m)
          rw [hm]
          rw [countP_insert, ha]
          have : (m.peers.erase ip).countP (rested m) + 1 ≤ _ := countP_erase_lt (f := rested m) h1 hb
          simp only [Bool.false_eq_true, if_false]
          omega
      | err y => simp [hr] at h
      | panic => simp [hr] at h

end Verif.Addr
