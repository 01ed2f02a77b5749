import Verif.Chain.PropsAccept

/-!
# Forks that obey the rules of the chain they are on

The code checks the headers of a fork against the *active* chain: the median time past and the first header of a retarget
period are looked up by height in the active chain (cache.rs:198-215, 440-511).  Here it is shown when that comes to the same
as checking them against their own ancestors.
-/

set_option autoImplicit false

namespace Verif.Chain
open AMap

variable {cfg : Cfg} {U : Header → Prop} {g : Header} {s : State} {fail : Bool}

/-! ## Median time past -/

/-- The time the code uses for height `k`: that of the active chain, 0 above its tip. -/
def timeAt (s : State) (k : Nat) : Nat := ((s.headers[k]?).map (·.time)).getD 0

/-- The timestamps of which `median_time_past(n)` is the median, also above the tip. -/
theorem median_window (s : State) {n m : Nat} (h : medianTimePast s n = .ok m) (t : Nat)
    (hc : (n - (n - 11)) / 2 < ((List.range (n - (n - 11))).map (fun j => timeAt s (n - 11 + j))).countP (· < t)) : m < t := by
  unfold medianTimePast at h
  cases ha : (Res.assert (n != 0) : Res Err Unit) with
  | panic => simp [ha] at h
  | err e => simp [ha] at h
  | ok u =>
    have hle : n - medianTimeSpan ≤ n := by omega
    simp only [ha, Res.ok_bind, State.range, hle, ite_true] at h
    have hspan : medianTimeSpan = 11 := rfl
    rw [hspan] at h
    have hw : List.take (n - (n - 11)) (((s.chain.drop (n - 11)).take (n - (n - 11))).map (·.header.time) ++
        List.replicate (11 - ((s.chain.drop (n - 11)).take (n - (n - 11))).length) 0) =
        (List.range (n - (n - 11))).map (fun j => timeAt s (n - 11 + j)) := by
      apply List.ext_getElem?
      intro j
      rw [List.getElem?_map, List.getElem?_take]
      by_cases hj : j < n - (n - 11)
      · rw [if_pos hj, List.getElem?_range hj]
        simp only [Option.map_some, timeAt, State.headers, List.getElem?_map]
        by_cases hk : n - 11 + j < s.chain.length
        · rw [List.getElem?_append_left (by simp; omega), List.getElem?_map, List.getElem?_take, if_pos hj,
            List.getElem?_drop, List.getElem?_eq_getElem hk]
          rfl
        · rw [List.getElem?_append_right (by simp; omega), List.getElem?_eq_none (by omega : s.chain.length ≤ n - 11 + j)]
          rw [List.getElem?_replicate, if_pos]
          · rfl
          · simp; omega
      · rw [if_neg hj, List.getElem?_eq_none (by simp; omega)]
        rfl
    rw [hw] at h
    unfold Res.unwrap at h
    split at h
    · rename_i v hv
      simp only [Res.ok.injEq] at h
      subst h
      have h1 := sorted_get_median (List.pairwise_insertionSort (· ≤ ·) _) hv
      by_contra hge
      have h2 := (List.perm_insertionSort (· ≤ ·) ((List.range (n - (n - 11))).map (fun j => timeAt s (n - 11 + j)))).countP_eq
        (fun x => decide (x < v))
      have h3 : ((List.range (n - (n - 11))).map (fun j => timeAt s (n - 11 + j))).countP (· < t) ≤
          ((List.range (n - (n - 11))).map (fun j => timeAt s (n - 11 + j))).countP (· < v) := by
        apply List.countP_mono_left
        intro x _ hx
        simp at hx ⊢; omega
      have := h1.1
      omega
    · simp at h

/-- The timestamps of the up to eleven last headers of a chain, by position. -/
theorem windowTimes_range (c : List Header) :
    windowTimes c = (List.range (c.length - (c.length - 11))).map (fun j => ((c[c.length - 11 + j]?).map (·.time)).getD 0) := by
  unfold windowTimes
  apply List.ext_getElem?
  intro j
  rw [List.getElem?_map, List.getElem?_map, List.getElem?_drop]
  by_cases hj : j < c.length - (c.length - 11)
  · have hlt : c.length - 11 + j < c.length := by omega
    simp only [List.getElem?_range hj, Option.map_some, List.getElem?_eq_getElem hlt, Option.getD_some]
  · rw [List.getElem?_eq_none (by omega : c.length ≤ c.length - 11 + j), List.getElem?_eq_none (by simp; omega)]
    rfl

/-- If `h` is later than the median of its own ancestors and than every active header above the fork, it is later than the
median the code computes. -/
theorem median_fork {n : Nat} (hn : n < s.headers.length) {pre : List Header} {h : Header} {m m' : Nat}
    (hmed : IsMedian (windowTimes (s.headers.take (n + 1) ++ pre)) m') (hm' : m' < h.time)
    (hlater : ∀ y ∈ s.headers.drop (n + 1), y.time < h.time)
    (hm : medianTimePast s (n + pre.length + 1) = .ok m) : m < h.time := by
  have hl : (s.headers.take (n + 1) ++ pre).length = n + pre.length + 1 := by simp; omega
  refine median_window s hm h.time ?_
  have h1 := hmed.2.2
  have hlen : (windowTimes (s.headers.take (n + 1) ++ pre)).length = n + pre.length + 1 - (n + pre.length + 1 - 11) := by
    rw [windowTimes_range, List.length_map, List.length_range, hl]
  rw [hlen] at h1
  refine Nat.lt_of_lt_of_le h1 ?_
  rw [windowTimes_range, hl, List.countP_map, List.countP_map]
  apply List.countP_mono_left
  intro j _ hj
  simp only [Function.comp_apply, decide_eq_true_eq] at hj ⊢
  unfold timeAt
  by_cases hk : n + pre.length + 1 - 11 + j < n + 1
  · have : (s.headers.take (n + 1) ++ pre)[n + pre.length + 1 - 11 + j]? = s.headers[n + pre.length + 1 - 11 + j]? := by
      rw [List.getElem?_append_left (by simp; omega), List.getElem?_take, if_pos hk]
    rw [this] at hj
    omega
  · cases hq : s.headers[n + pre.length + 1 - 11 + j]? with
    | none => simp; omega
    | some y =>
      have := hlater y (List.mem_of_getElem? (i := n + pre.length + 1 - 11 + j - (n + 1)) (by
        rw [List.getElem?_drop, ← hq]; congr 1; omega))
      simpa using this

/-! ## One header of a fork -/

/-- A header of a fork that obeys the rules of its own chain passes the checks. -/
theorem fork_checked (hp : ParamsOK cfg) (hmin : cfg.allowMin = false) {n clock : Nat} (hn : n < s.headers.length)
    {pre : List Header} {h l : Header} (hl : (s.headers.take (n + 1) ++ pre).getLast? = some l)
    (hw : NoWrap cfg clock (s.headers.take (n + 1) ++ pre)) (hv : ValidNext cfg clock (s.headers.take (n + 1) ++ pre) h)
    (hi : pre.length < cfg.interval) (hlater : ∀ y ∈ s.headers.drop (n + 1), y.time < h.time) :
    Checked cfg clock s ⟨n + pre.length, l⟩ h := by
  have hlen : (s.headers.take (n + 1) ++ pre).length = n + pre.length + 1 := by simp; omega
  obtain ⟨l', hl', hprev⟩ := hv.linked
  rw [hl] at hl'
  cases hl'
  obtain ⟨m, hm, hm'⟩ := hv.rules.after_median
  obtain ⟨m2, hm2⟩ := medianTimePast_ok s (n := n + pre.length + 1) (by omega)
  refine ⟨hprev.symm, ?_, hv.pow, ?_, ⟨m2, hm2, median_fork hn hm hm' hlater hm2⟩, clock + 7200, ?_, hv.rules.not_future⟩
  · have hd := hv.rules.difficulty
    simp only [specTarget, hl, hlen, Option.bind_some] at hd
    have h1 : (cfg.allowMin && (n + pre.length + 1) % cfg.interval != 0) = false := by simp [hmin]
    simp only [requiredBits, h1, Bool.false_eq_true, ite_false]
    by_cases hmod : (n + pre.length + 1) % cfg.interval = 0
    · rw [if_neg (by simpa using hmod)] at hd
      have hge : cfg.interval ≤ n + pre.length + 1 := by
        by_contra hlt'
        rw [Nat.mod_eq_of_lt (by omega)] at hmod
        omega
      have hpi := hp.interval
      cases hfirst : (s.headers.take (n + 1) ++ pre)[n + pre.length + 1 - cfg.interval]? with
      | none => rw [hfirst] at hd; cases hd
      | some first =>
        rw [hfirst] at hd
        simp only [Option.bind_some, Option.some.injEq] at hd
        have hel := hw.elapsed first l (by rw [hlen]; exact hfirst) hl
        have hadj : n + pre.length - (cfg.interval - 1) = n + pre.length + 1 - cfg.interval := by omega
        unfold nextDifficultyTarget
        rw [if_neg (by simpa using hmod)]
        rw [List.getElem?_append_left (by simp; omega), List.getElem?_take, if_pos (by omega), ← getByHeight_headers] at hfirst
        simp only [hadj, hfirst, Option.getD_some, hp.retarget, Bool.false_eq_true, ite_false, subU32, hel, ite_true,
          Res.ok_bind, Res.ok.injEq]
        refine ⟨_, rfl, ?_⟩
        rw [← hd]
        have hcl : (if l.time - first.time < cfg.timespan / 4 then cfg.timespan / 4
            else if l.time - first.time > cfg.timespan * 4 then cfg.timespan * 4 else l.time - first.time) =
            clamp cfg.timespan (l.time - first.time) := by
          unfold clamp
          split
          · omega
          · split <;> omega
        rw [hcl]
        have hmn : ∀ x L : Nat, (if x > L then L else x) = min L x := by intro x L; split <;> omega
        rw [hmn]
    · rw [if_pos (by simpa using hmod), if_neg (by simp [hmin])] at hd
      simp only [Option.some.injEq] at hd
      rw [C15_unchanged hmod]
      exact ⟨_, rfl, by rw [hp.canon, hd]⟩
  · intro cp hcp
    refine hv.checkpoint cp ?_
    rw [hlen]; exact hcp
  · have := hw.clock
    simp only [addU32, maxFutureBlockTime, this, ite_true]

/-- `hs` may follow the chain `base` at network time `clock`: each header may follow the chain made of `base` and the headers
before it. -/
def ValidBeyond (cfg : Cfg) (clock : Nat) (base hs : List Header) : Prop :=
  ∀ (i : Nat) (h : Header), hs[i]? = some h → ValidNext cfg clock (base ++ hs.take i) h

/-- See `NoWrap`, for all headers of `hs`. -/
def NoWrapBeyond (cfg : Cfg) (clock : Nat) (base hs : List Header) : Prop :=
  ∀ i, i < hs.length → NoWrap cfg clock (base ++ hs.take i)

/-- A fork whose headers obey the rules of their own chain passes the code's validation, which goes by the active chain, if it
has no more headers than a retarget period and they are later than all headers they would displace. -/
theorem fork_validates (hp : ParamsOK cfg) (hmin : cfg.allowMin = false) {n clock : Nat} {b : Header}
    (hb : s.getByHeight n = some b) {hs : List Header} (hlen : hs.length ≤ cfg.interval)
    (hlater : ∀ h ∈ hs, ∀ y ∈ s.headers.drop (n + 1), y.time < h.time)
    (hv : ValidBeyond cfg clock (s.headers.take (n + 1)) hs) (hw : NoWrapBeyond cfg clock (s.headers.take (n + 1)) hs) :
    validateHeaders cfg clock s ⟨n, b⟩ hs = .ok () := by
  have hn : n < s.headers.length := by
    rw [getByHeight_headers] at hb
    exact (List.getElem?_eq_some_iff.1 hb).1
  have hlast : (s.headers.take (n + 1)).getLast? = some b := by
    rw [List.getLast?_eq_getElem?, List.length_take, Nat.min_eq_left (by omega), List.getElem?_take]
    simp only [Nat.add_sub_cancel, Nat.lt_succ_self, ite_true]
    rw [← getByHeight_headers]; exact hb
  have key : ∀ (post pre : List Header) (l : Header), hs = pre ++ post →
      (s.headers.take (n + 1) ++ pre).getLast? = some l → validateHeaders cfg clock s ⟨n + pre.length, l⟩ post = .ok () := by
    intro post
    induction post with
    | nil => intro _ _ _ _; rfl
    | cons x post ih =>
      intro pre l heq hl
      have hx : hs[pre.length]? = some x := by rw [heq]; simp
      have htake : hs.take pre.length = pre := by rw [heq]; simp
      have hlt : pre.length < hs.length := by rw [heq]; simp
      have h1 := hv pre.length x hx
      have h2 := hw pre.length hlt
      rw [htake] at h1 h2
      have hc := fork_checked hp hmin hn hl h2 h1 (by omega) (hlater x (by rw [heq]; simp))
      simp only [validateHeaders, validate_ok_iff.2 hc, Res.ok_bind]
      have := ih (pre ++ [x]) x (by rw [heq]; simp) (by rw [← List.append_assoc]; simp)
      rw [List.length_append] at this
      exact this
  have := key hs [] b rfl (by simpa using hlast)
  simpa using this

end Verif.Chain
