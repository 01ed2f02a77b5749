import Verif.Time.Model

/-!
# Network-adjusted time: C32, C33
-/

set_option autoImplicit false

namespace Verif.Time

variable {K : Type} [DecidableEq K]

/-! ## Specification -/

/-- The samples taken into account: the first one of each source, of the first 200 sources. -/
def kept : List (K × Int) → List (K × Int) → List (K × Int)
  | acc, [] => acc
  | acc, x :: xs => if acc.length = 200 ∨ x.1 ∈ acc.map (·.1) then kept acc xs else kept (acc ++ [x]) xs

/-- `m` is the median of a list of odd length: an element with no more than half of the elements on either side. -/
def IsMedian (l : List Int) (m : Int) : Prop :=
  m ∈ l ∧ 2 * l.countP (fun x => decide (x < m)) < l.length ∧ 2 * l.countP (fun x => decide (m < x)) < l.length

/-- What the offset has to be for a list of samples (including our own zero): nothing below 5 samples; otherwise the median of
the longest odd prefix if it is at most 70 minutes, else 0. -/
def IsOffset (samples : List Int) (offset : Int) : Prop :=
  (samples.length < 5 → offset = 0) ∧
  (5 ≤ samples.length → ∃ m, IsMedian (samples.take (samples.length - (samples.length + 1) % 2)) m ∧
    offset = if m.natAbs ≤ 4200 then m else 0)

/-- A sequence of samples. -/
def Adjusted.run (checked : Bool) : Adjusted K → List (K × Int) → Res Unit (Adjusted K)
  | a, [] => .ok a
  | a, (k, x) :: l => a.record checked k x >>= fun a => Adjusted.run checked a l

/-! ## Medians -/

theorem countP_lt_le (l : List Int) (m : Int) (k : Nat) (hs : l.Pairwise (· ≤ ·)) (hk : l[k]? = some m) :
    l.countP (fun x => decide (x < m)) ≤ k := by
  rw [List.getElem?_eq_some_iff] at hk
  obtain ⟨hlt, hm⟩ := hk
  conv_lhs => rw [← List.take_append_drop k l]
  rw [List.countP_append]
  have h2 : (l.drop k).countP (fun x => decide (x < m)) = 0 := by
    rw [List.countP_eq_zero]
    intro x hx
    rw [List.mem_drop_iff_getElem] at hx
    obtain ⟨i, hi, rfl⟩ := hx
    have := List.pairwise_iff_getElem.1 hs k (k + i) hlt (by omega)
    simp only [decide_eq_true_eq]
    rcases Nat.eq_zero_or_pos i with rfl | hi'
    · have e : l[k + 0] = m := hm
      omega
    · have := this (by omega)
      omega
  have := List.countP_le_length (l := l.take k) (p := fun x => decide (x < m))
  rw [List.length_take] at this
  omega

theorem countP_gt_le (l : List Int) (m : Int) (k : Nat) (hs : l.Pairwise (· ≤ ·)) (hk : l[k]? = some m) :
    l.countP (fun x => decide (m < x)) ≤ l.length - (k + 1) := by
  rw [List.getElem?_eq_some_iff] at hk
  obtain ⟨hlt, hm⟩ := hk
  conv_lhs => rw [← List.take_append_drop (k + 1) l]
  rw [List.countP_append]
  have h2 : (l.take (k + 1)).countP (fun x => decide (m < x)) = 0 := by
    rw [List.countP_eq_zero]
    intro x hx
    rw [List.mem_take_iff_getElem] at hx
    obtain ⟨i, hi, rfl⟩ := hx
    have := List.pairwise_iff_getElem.1 hs i k (by omega) hlt
    simp only [decide_eq_true_eq]
    rcases Nat.lt_or_ge i k with hi' | hi'
    · have := this hi'
      omega
    · have e : i = k := by omega
      subst e
      omega
  have := List.countP_le_length (l := l.drop (k + 1)) (p := fun x => decide (m < x))
  rw [List.length_drop] at this
  omega

/-- The middle element of the sorted list is the median. -/
theorem sorted_median (l : List Int) (m : Int) (hodd : l.length % 2 = 1)
    (hm : (l.insertionSort (· ≤ ·))[l.length / 2]? = some m) : IsMedian l m := by
  have hp : (l.insertionSort (· ≤ ·)).Perm l := List.perm_insertionSort _ l
  have hs : (l.insertionSort (· ≤ ·)).Pairwise (· ≤ ·) := by
    exact List.pairwise_insertionSort _ l
  refine ⟨hp.subset (List.mem_of_getElem? hm), ?_, ?_⟩
  · have := countP_lt_le _ m _ hs hm
    rw [hp.countP_eq] at this
    omega
  · have := countP_gt_le _ m _ hs hm
    rw [hp.countP_eq, hp.length_eq] at this
    omega

/-- The median is unique. -/
theorem IsMedian.unique {l : List Int} {a b : Int} (ha : IsMedian l a) (hb : IsMedian l b) : a = b := by
  have key : ∀ {x y : Int}, IsMedian l x → IsMedian l y → ¬ x < y := by
    intro x y hx hy hxy
    -- elements above `x` and elements below `y` cover the list
    have h1 : l.length ≤ l.countP (fun z => decide (x < z)) + l.countP (fun z => decide (z < y)) := by
      clear hx hy ha hb
      induction l with
      | nil => simp
      | cons z l ih =>
        simp only [List.countP_cons, List.length_cons]
        by_cases h : x < z
        · simp only [h, decide_true, if_true]; omega
        · have h' : z < y := by omega
          simp only [h', decide_true, if_true]; omega
    have := hx.2.2
    have := hy.2.1
    omega
  have h1 := key ha hb
  have h2 := key hb ha
  omega

/-! ## One sample -/

theorem adjust_spec (checked : Bool) (samples : List Int) (offset : Int) (hne : ∀ x ∈ samples, x ≠ i64Min) :
    (samples.length < 5 ∨ samples.length % 2 = 0 → Adjusted.adjust checked samples offset = .ok offset) ∧
    (5 ≤ samples.length → samples.length % 2 = 1 → ∃ m, IsMedian samples m ∧
      Adjusted.adjust checked samples offset = .ok (if m.natAbs ≤ 4200 then m else 0)) := by
  have hlen : (samples.insertionSort (· ≤ ·)).length = samples.length := List.length_insertionSort _ _
  constructor
  · intro h
    unfold Adjusted.adjust
    simp only [hlen, minTimeSamples]
    split
    · rfl
    · rw [if_neg (by omega)]
  · intro h5 hodd
    have hlt : samples.length / 2 < (samples.insertionSort (· ≤ ·)).length := by omega
    refine ⟨_, sorted_median samples _ hodd (List.getElem?_eq_getElem hlt), ?_⟩
    unfold Adjusted.adjust
    simp only [hlen, minTimeSamples]
    rw [if_neg (by omega), if_pos hodd, List.getElem?_eq_getElem hlt]
    simp only
    have hmem : (samples.insertionSort (· ≤ ·))[samples.length / 2] ∈ samples :=
      (List.perm_insertionSort _ samples).subset (List.getElem_mem hlt)
    rw [absI64, if_neg (hne _ hmem), Res.ok_bind, maxTimeAdjustment]
    congr 2
    simp only [eq_iff_iff]
    omega

/-- The state reached from a list of kept samples. -/
structure Matches (a : Adjusted K) (ks : List (K × Int)) : Prop where
  sources : a.sources = ks.map (·.1)
  samples : a.samples = 0 :: ks.map (·.2)
  offset : IsOffset a.samples a.offset
  nodup : (ks.map (·.1)).Nodup
  length : ks.length ≤ 200

omit [DecidableEq K] in
theorem new_matches (t : Nat) : Matches (Adjusted.new t : Adjusted K) [] :=
  ⟨rfl, rfl, ⟨fun _ => rfl, by simp [Adjusted.new]⟩, by simp, by simp⟩

theorem record_matches (checked : Bool) (a : Adjusted K) (ks : List (K × Int)) (k : K) (x : Int) (hm : Matches a ks)
    (hx : x ≠ i64Min) (hks : ∀ y ∈ ks, y.2 ≠ i64Min) :
    ∃ a', a.record checked k x = .ok a' ∧ a'.localTime = a.localTime ∧ Matches a' (kept ks [(k, x)]) := by
  unfold Adjusted.record maxTimeSamples
  simp only [kept]
  by_cases h1 : ks.length = 200
  · rw [if_pos (by rw [hm.sources]; simpa using h1), if_pos (Or.inl h1)]
    exact ⟨a, rfl, rfl, hm⟩
  rw [if_neg (by rw [hm.sources]; simpa using h1)]
  by_cases h2 : k ∈ ks.map (·.1)
  · rw [if_pos (by rw [hm.sources]; exact h2), if_pos (Or.inr h2)]
    exact ⟨a, rfl, rfl, hm⟩
  rw [if_neg (by rw [hm.sources]; exact h2), if_neg (by rintro (h | h); exacts [h1 h, h2 h])]
  have hne : ∀ y ∈ a.samples ++ [x], y ≠ i64Min := by
    rw [hm.samples]
    intro y hy
    simp only [List.cons_append, List.mem_cons, List.mem_append, List.mem_map, List.not_mem_nil, or_false] at hy
    rcases hy with rfl | ⟨z, hz, rfl⟩ | rfl
    · decide
    · exact hks z hz
    · exact hx
  obtain ⟨s1, s2⟩ := adjust_spec checked (a.samples ++ [x]) a.offset hne
  have hmk : ∀ o, IsOffset (a.samples ++ [x]) o →
      Matches (K := K) { a with sources := a.sources ++ [k], samples := a.samples ++ [x], offset := o } (ks ++ [(k, x)]) := by
    intro o ho
    refine ⟨by simp [hm.sources], by simp [hm.samples], ho, ?_, ?_⟩
    · simp only [List.map_append, List.map_cons, List.map_nil]
      rw [List.nodup_append]
      refine ⟨hm.nodup, by simp, ?_⟩
      intro y hy z hz
      simp at hz
      rintro rfl
      exact h2 (hz ▸ hy)
    · have := hm.length
      simp; omega
  obtain ⟨o1, o2⟩ := hm.offset
  by_cases h5 : (a.samples ++ [x]).length < 5
  · rw [s1 (Or.inl h5)]
    refine ⟨_, rfl, rfl, hmk _ ⟨fun _ => o1 ?_, fun h => absurd h (by omega)⟩⟩
    simp at h5; omega
  · by_cases hodd : (a.samples ++ [x]).length % 2 = 1
    · obtain ⟨m, hmed, hr⟩ := s2 (by omega) hodd
      rw [hr]
      refine ⟨_, rfl, rfl, hmk _ ⟨fun h => absurd h h5, fun _ => ⟨m, ?_, rfl⟩⟩⟩
      have : (a.samples ++ [x]).length - ((a.samples ++ [x]).length + 1) % 2 = (a.samples ++ [x]).length := by omega
      rw [this, List.take_length]
      exact hmed
    · rw [s1 (Or.inr (by omega))]
      refine ⟨_, rfl, rfl, hmk _ ⟨fun h => absurd h h5, fun _ => ?_⟩⟩
      have hl : (a.samples ++ [x]).length = a.samples.length + 1 := by simp
      obtain ⟨m, m1, m2⟩ := o2 (by omega)
      refine ⟨m, ?_, m2⟩
      have e1 : (a.samples ++ [x]).length - ((a.samples ++ [x]).length + 1) % 2 = a.samples.length := by omega
      have e2 : a.samples.length - (a.samples.length + 1) % 2 = a.samples.length := by omega
      rw [e1, List.take_append_of_le_length (Nat.le_refl _), List.take_length]
      rw [e2, List.take_length] at m1
      exact m1

theorem kept_cons (ks : List (K × Int)) (x : K × Int) (l : List (K × Int)) :
    kept ks (x :: l) = kept (kept ks [x]) l := by
  simp only [kept]
  split <;> rfl

theorem kept_mem (ks l : List (K × Int)) : ∀ y ∈ kept ks l, y ∈ ks ∨ y ∈ l := by
  induction l generalizing ks with
  | nil => intro y hy; exact Or.inl hy
  | cons x l ih =>
    intro y hy
    rw [kept_cons] at hy
    rcases ih _ y hy with h | h
    · simp only [kept] at h
      split at h
      · exact Or.inl h
      · simp at h; rcases h with h | rfl
        · exact Or.inl h
        · simp
    · simp [h]

theorem run_matches (checked : Bool) (l : List (K × Int)) : ∀ (a : Adjusted K) (ks : List (K × Int)), Matches a ks →
    (∀ y ∈ l, y.2 ≠ i64Min) → (∀ y ∈ ks, y.2 ≠ i64Min) →
    ∃ a', a.run checked l = .ok a' ∧ a'.localTime = a.localTime ∧ Matches a' (kept ks l) := by
  induction l with
  | nil => intro a ks hm _ _; exact ⟨a, rfl, rfl, hm⟩
  | cons x l ih =>
    obtain ⟨k, x⟩ := x
    intro a ks hm hl hks
    obtain ⟨a1, h1, h2, h3⟩ := record_matches checked a ks k x hm (hl (k, x) (by simp)) hks
    obtain ⟨a2, g1, g2, g3⟩ := ih a1 _ h3 (fun y hy => hl y (by simp [hy])) (by
      intro y hy
      rcases kept_mem ks [(k, x)] y hy with h | h
      · exact hks y h
      · simp at h; subst h; exact hl _ (by simp))
    refine ⟨a2, by simp only [Adjusted.run, h1, Res.ok_bind, g1], by rw [g2, h2], ?_⟩
    rw [kept_cons]
    exact g3

/-! ## Theorems -/

/-- C33.  After any sequence of samples (none the least `i64`), in either build, recording does not crash, the samples taken
into account are our own zero and the first one of each of the first 200 sources, and the offset is what `IsOffset` says: zero
below 5 samples, then the median (`IsMedian`, unique by `IsMedian.unique`) at the last odd count if it is at most 70 minutes and
zero otherwise; it stays when the count becomes even. -/
theorem C33_median_partial (checked : Bool) (now : Nat) (l : List (K × Int)) (hl : ∀ y ∈ l, y.2 ≠ i64Min) :
    ∃ a, (Adjusted.new now).run checked l = .ok a ∧ a.samples = 0 :: (kept [] l).map (·.2) ∧ IsOffset a.samples a.offset := by
  obtain ⟨a, h1, _, h3⟩ := run_matches checked l _ [] (new_matches now) hl (by simp)
  exact ⟨a, h1, h3.samples, h3.offset⟩

theorem IsOffset.bounded {s : List Int} {o : Int} (h : IsOffset s o) : -4200 ≤ o ∧ o ≤ 4200 := by
  by_cases h5 : s.length < 5
  · rw [h.1 h5]; omega
  · obtain ⟨m, _, h2⟩ := h.2 (by omega)
    subst h2
    split
    · omega
    · omega

/-- C32.  After any sequence of samples (none the least `i64`), the offset is within 70 minutes, every source is counted at most
once, at most 200 sources and 201 samples (with our own zero) are kept, and for local times further than 70 minutes from the
ends of the 32-bit range the adjusted time is exactly local time plus offset. -/
theorem C32_bounded_partial (checked : Bool) (now : Nat) (l : List (K × Int)) (hl : ∀ y ∈ l, y.2 ≠ i64Min) :
    ∃ a, (Adjusted.new now).run checked l = .ok a ∧ -4200 ≤ a.offset ∧ a.offset ≤ 4200 ∧
      a.sources.Nodup ∧ a.sources.length ≤ 200 ∧ a.samples.length ≤ 201 ∧
      (∀ t, 4200 ≤ t → t + 4200 < 2 ^ 32 → ∃ r, a.from checked t = .ok r ∧ (r : Int) = t + a.offset) ∧
      a.get checked = a.from checked (now % 2 ^ 32) := by
  obtain ⟨a, h1, h2, h3⟩ := run_matches checked l _ [] (new_matches now) hl (by simp)
  obtain ⟨b1, b2⟩ := h3.offset.bounded
  refine ⟨a, h1, b1, b2, h3.sources ▸ h3.nodup, ?_, ?_, ?_, ?_⟩
  · rw [h3.sources]; simpa using h3.length
  · rw [h3.samples]; have := h3.length; simp; omega
  · intro t ht1 ht2
    unfold Adjusted.from
    split
    · have : a.offset.toNat % 2 ^ 32 = a.offset.toNat := Nat.mod_eq_of_lt (by omega)
      simp only [this]
      rw [if_pos (by omega)]
      exact ⟨_, rfl, by omega⟩
    · have : a.offset.natAbs % 2 ^ 32 = a.offset.natAbs := Nat.mod_eq_of_lt (by omega)
      simp only [this]
      rw [if_pos (by omega)]
      exact ⟨_, rfl, by omega⟩
  · unfold Adjusted.get; rw [h2]; rfl

/-- C32 is false without the restriction: in a build without overflow checks, the least `i64` passes the limit because its
absolute value is itself.  Peers control the sample (their `version` timestamp minus our time, peermgr.rs:524). -/
theorem C32_min_offset : (Adjusted.new 1700000000 : Adjusted Nat).run false
      [(1, i64Min), (2, i64Min), (3, i64Min), (4, i64Min)] =
    .ok ⟨[1, 2, 3, 4], [0, i64Min, i64Min, i64Min, i64Min], i64Min, 1700000000⟩ := by decide

/-- With overflow checks the same samples crash the client. -/
theorem C32_min_panics : (Adjusted.new 1700000000 : Adjusted Nat).run true
      [(1, i64Min), (2, i64Min), (3, i64Min), (4, i64Min)] = .panic := by decide

/-- C33, a sequence with a repeated source and an adjustment. -/
example : (Adjusted.new 100000 : Adjusted Nat).run true [(1, 42), (2, 47), (1, 9000), (3, 4201), (4, 4201), (5, 7)] =
    .ok ⟨[1, 2, 3, 4, 5], [0, 42, 47, 4201, 4201, 7], 47, 100000⟩ := by decide

example : IsMedian [0, 42, 47, 4201, 4201] 47 := by unfold IsMedian; decide

end Verif.Time
