import Verif.Book.Model
/-!
# C154: random choices
-/

set_option autoImplicit false

namespace Verif.Book

variable {K V α : Type}

/-! ## Picking one -/

/-- **C154.** An entry is picked if and only if one matches. -/
theorem C154_some {entries : List (K × V)} {p : K → V → Bool} {ix : Nat} (hix : ix < (entries.filter fun e => p e.1 e.2).length ∨ entries.filter (fun e => p e.1 e.2) = []) :
    (sampleWith entries p ix ≠ none) ↔ ∃ e ∈ entries, p e.1 e.2 = true := by
  unfold sampleWith
  dsimp only
  rcases hix with h | h
  · have hne : (entries.filter fun e => p e.1 e.2) ≠ [] := by intro h0; rw [h0] at h; simp at h
    rw [if_neg (by simpa using hne), List.getElem?_eq_getElem h]
    obtain ⟨e, he⟩ := List.exists_mem_of_ne_nil _ hne
    rw [List.mem_filter] at he
    exact ⟨fun _ => ⟨e, he⟩, fun _ => by simp⟩
  · rw [h]
    simp only [List.isEmpty_nil, if_true, ne_eq, not_true_eq_false, false_iff, not_exists, not_and]
    intro e he hp
    have : e ∈ entries.filter fun e => p e.1 e.2 := List.mem_filter.mpr ⟨he, hp⟩
    rw [h] at this
    simp at this

/-- **C154.** What is picked is in the book and matches. -/
theorem C154_match {entries : List (K × V)} {p : K → V → Bool} {ix : Nat} {e : K × V} (h : sampleWith entries p ix = some e) : e ∈ entries ∧ p e.1 e.2 = true := by
  unfold sampleWith at h
  dsimp only at h
  split at h
  · simp at h
  · exact List.mem_filter.mp (List.mem_of_getElem? h)

/-- **C154.** Every match can be picked, each by exactly one of the numbers that can be drawn. -/
theorem C154_fair {entries : List (K × V)} (hn : entries.Nodup) {p : K → V → Bool} {e : K × V} (he : e ∈ entries) (hp : p e.1 e.2 = true) :
    ∃ ix, ix < (entries.filter fun e => p e.1 e.2).length ∧ sampleWith entries p ix = some e ∧ ∀ ix', sampleWith entries p ix' = some e → ix' = ix := by
  have hm : e ∈ entries.filter fun e => p e.1 e.2 := List.mem_filter.mpr ⟨he, hp⟩
  have hne : ¬ (entries.filter fun e => p e.1 e.2).isEmpty = true := by
    intro h
    rw [List.isEmpty_iff] at h
    rw [h] at hm
    simp at hm
  obtain ⟨ix, hix, hg⟩ := List.mem_iff_getElem.mp hm
  refine ⟨ix, hix, ?_, fun ix' h' => ?_⟩
  · unfold sampleWith
    dsimp only
    rw [if_neg hne, List.getElem?_eq_getElem hix, hg]
  · unfold sampleWith at h'
    dsimp only at h'
    rw [if_neg hne] at h'
    obtain ⟨h1, h2⟩ := List.getElem?_eq_some_iff.mp h'
    exact (List.Nodup.getElem_inj_iff (hn.filter _)).mp (by rw [h2, hg])

/-! ## Shuffling -/

theorem swap_eq {l : List α} {i j : Nat} (hi : i < l.length) (hj : j < l.length) : swap l i j = (l.set i l[j]).set j l[i] := by
  unfold swap
  rw [List.getElem?_eq_getElem hi, List.getElem?_eq_getElem hj]

theorem swap_perm (l : List α) (i j : Nat) : (swap l i j).Perm l := by
  by_cases hi : i < l.length
  · by_cases hj : j < l.length
    · rw [swap_eq hi hj]
      exact List.set_set_perm hi hj
    · unfold swap
      rw [List.getElem?_eq_none (Nat.le_of_not_lt hj), List.getElem?_eq_getElem hi]
  · unfold swap
    rw [List.getElem?_eq_none (Nat.le_of_not_lt hi)]

theorem swap_length (l : List α) (i j : Nat) : (swap l i j).length = l.length := (swap_perm l i j).length_eq

theorem swap_get {l : List α} {i j : Nat} (hi : i < l.length) (hj : j < l.length) (p : Nat) :
    (swap l i j)[p]? = if p = j then l[i]? else if p = i then l[j]? else l[p]? := by
  rw [swap_eq hi hj, List.getElem?_set, List.getElem?_set, List.length_set]
  by_cases h1 : p = j
  · subst h1; simp [hj, hi]
  · have h1' : ¬ j = p := fun h => h1 h.symm
    by_cases h2 : p = i
    · subst h2; simp [hj, hi, h1, h1']
    · have h2' : ¬ i = p := fun h => h2 h.symm
      simp [h1, h1', h2, h2']

theorem swap_swap {l : List α} {i j : Nat} (hi : i < l.length) (hj : j < l.length) : swap (swap l i j) i j = l := by
  apply List.ext_getElem?
  intro p
  have hi' : i < (swap l i j).length := by rw [swap_length]; exact hi
  have hj' : j < (swap l i j).length := by rw [swap_length]; exact hj
  rw [swap_get hi' hj', swap_get hi hj, swap_get hi hj, swap_get hi hj]
  by_cases h1 : p = j
  · subst h1
    by_cases h2 : i = p
    · subst h2; simp
    · simp [h2]
  · by_cases h2 : p = i
    · subst h2; simp [h1]
    · simp [h1, h2]

theorem rounds_perm (c : Nat → Nat) (l : List α) : ∀ k, (rounds c l k).Perm l
  | 0 => List.Perm.refl _
  | k + 1 => (swap_perm _ _ _).trans (rounds_perm c l k)

theorem rounds_length (c : Nat → Nat) (l : List α) (k : Nat) : (rounds c l k).length = l.length := (rounds_perm c l k).length_eq

/-- The first `k` rounds do not touch what is behind place `k`. -/
theorem rounds_behind {c : Nat → Nat} (hc : Choices c) (l : List α) : ∀ k, k < l.length → ∀ p, k < p → (rounds c l k)[p]? = l[p]?
  | 0, _, _, _ => rfl
  | k + 1, hk, p, hp => by
    have h1 := hc (k + 1)
    simp only [rounds]
    rw [swap_get (by rw [rounds_length]; exact hk) (by rw [rounds_length]; omega), if_neg (by omega), if_neg (by omega)]
    exact rounds_behind hc l k (by omega) p (by omega)

theorem rounds_congr {c c' : Nat → Nat} (l : List α) : ∀ k, (∀ i, i ≤ k → c i = c' i) → rounds c l k = rounds c' l k
  | 0, _ => rfl
  | k + 1, h => by
    simp only [rounds]
    rw [rounds_congr l k fun i hi => h i (by omega), h (k + 1) (Nat.le_refl _)]

/-- The rounds make every order of the first `k + 1` elements. -/
theorem rounds_every {l : List α} : ∀ (k : Nat), k < l.length → ∀ l' : List α, l'.Perm l → (∀ p, k < p → l'[p]? = l[p]?) →
    ∃ c, Choices c ∧ rounds c l k = l'
  | 0, hk, l', hp, hb => by
    refine ⟨fun _ => 0, fun i => Nat.zero_le i, ?_⟩
    show l = l'
    cases l with
    | nil => simp at hk
    | cons x t =>
      cases l' with
      | nil => exact absurd hp.length_eq (by simp)
      | cons y t' =>
        have ht : t' = t := by
          apply List.ext_getElem?
          intro p
          have := hb (p + 1) (by omega)
          simpa using this
        subst ht
        have : List.Perm [y] [x] := (List.perm_append_right_iff t').mp hp
        rw [List.perm_singleton] at this
        simp only [List.cons.injEq, and_true] at this
        rw [this]
  | k + 1, hk, l', hp, hb => by
    have hlen := hp.length_eq
    have hdrop : l'.drop (k + 2) = l.drop (k + 2) := by
      apply List.ext_getElem?
      intro p
      rw [List.getElem?_drop, List.getElem?_drop]
      exact hb _ (by omega)
    have htake : (l'.take (k + 2)).Perm (l.take (k + 2)) := by
      rw [← List.perm_append_right_iff (l.drop (k + 2)), List.take_append_drop]
      conv_lhs => rw [← hdrop, List.take_append_drop]
      exact hp
    have hx : l[k + 1] ∈ l'.take (k + 2) := by
      rw [htake.mem_iff]
      exact List.mem_iff_getElem.mpr ⟨k + 1, by rw [List.length_take]; omega, List.getElem_take⟩
    obtain ⟨j, hj, hjx⟩ := List.mem_iff_getElem.mp hx
    rw [List.length_take] at hj
    rw [List.getElem_take] at hjx
    have hj' : j < l'.length := by omega
    have hk' : k + 1 < l'.length := by omega
    obtain ⟨c, hc, he⟩ := rounds_every k (by omega) (swap l' (k + 1) j) ((swap_perm _ _ _).trans hp) (fun p hpk => by
      rw [swap_get hk' hj']
      by_cases h1 : p = j
      · subst h1
        have : p = k + 1 := by omega
        subst this
        rw [if_pos rfl, List.getElem?_eq_getElem hk', List.getElem?_eq_getElem hk, hjx]
      · rw [if_neg h1]
        by_cases h2 : p = k + 1
        · subst h2
          rw [if_pos rfl, List.getElem?_eq_getElem hj', List.getElem?_eq_getElem hk, hjx]
        · rw [if_neg h2]
          exact hb p (by omega))
    refine ⟨fun i => if i = k + 1 then j else c i, fun i => ?_, ?_⟩
    · dsimp only
      split
      · omega
      · exact hc i
    · simp only [rounds, if_true]
      rw [rounds_congr (c' := c) l k (fun i hi => by rw [if_neg (by omega)]), he, swap_swap hk' hj']

/-- Different draws make different orders. -/
theorem rounds_unique {l : List α} (hn : l.Nodup) {c c' : Nat → Nat} (hc : Choices c) (hc' : Choices c') : ∀ (k : Nat), k < l.length → rounds c l k = rounds c' l k →
    ∀ i, 1 ≤ i → i ≤ k → c i = c' i
  | 0, _, _, i, h1, h2 => absurd h1 (by omega)
  | k + 1, hk, he, i, h1, h2 => by
    have key : ∀ {d : Nat → Nat}, Choices d → (rounds d l (k + 1))[d (k + 1)]? = l[k + 1]? := by
      intro d hd
      have hb := hd (k + 1)
      simp only [rounds]
      rw [swap_get (by rw [rounds_length]; exact hk) (by rw [rounds_length]; omega), if_pos rfl]
      exact rounds_behind hd l k (by omega) (k + 1) (by omega)
    have e1 := key hc
    have e2 := key hc'
    rw [← he, List.getElem?_eq_getElem hk] at e2
    rw [List.getElem?_eq_getElem hk] at e1
    obtain ⟨g1, f1⟩ := List.getElem?_eq_some_iff.mp e1
    obtain ⟨g2, f2⟩ := List.getElem?_eq_some_iff.mp e2
    have hsame : c (k + 1) = c' (k + 1) := (List.Nodup.getElem_inj_iff ((rounds_perm c l (k + 1)).nodup_iff.mpr hn)).mp (by rw [f1, f2])
    have hb := hc (k + 1)
    have hprev : rounds c l k = rounds c' l k := by
      simp only [rounds] at he
      have := congrArg (fun m => swap m (k + 1) (c (k + 1))) he
      rw [swap_swap (by rw [rounds_length]; exact hk) (by rw [rounds_length]; omega)] at this
      rw [← hsame, swap_swap (by rw [rounds_length]; exact hk) (by rw [rounds_length]; omega)] at this
      exact this
    by_cases hik : i = k + 1
    · subst hik; exact hsame
    · exact rounds_unique hn hc hc' k (by omega) hprev i h1 (by omega)

/-- **C154.** A shuffled book has the same entries, each as often as before. -/
theorem C154_shuffled (c : Nat → Nat) (l : List α) : (shuffle c l).Perm l := rounds_perm c l _

/-- **C154.** Every order can come up. -/
theorem C154_every_order {l l' : List α} (h : l'.Perm l) : ∃ c, Choices c ∧ shuffle c l = l' := by
  cases hl : l with
  | nil =>
    subst hl
    exact ⟨fun _ => 0, fun i => Nat.zero_le i, (List.perm_nil.mp h).symm⟩
  | cons x t =>
    rw [← hl]
    have hpos : 0 < l.length := by rw [hl]; simp
    refine rounds_every (l.length - 1) (by omega) l' h fun p hp => ?_
    rw [List.getElem?_eq_none (by have := h.length_eq; omega), List.getElem?_eq_none (by omega)]

/-- **C154.** Every order comes up for only one of the sequences of draws (the draw of round `i` being one of `i + 1` numbers), so that all orders are equally likely if the draws are. -/
theorem C154_uniform {l : List α} (hn : l.Nodup) {c c' : Nat → Nat} (hc : Choices c) (hc' : Choices c') :
    shuffle c l = shuffle c' l ↔ ∀ i, 1 ≤ i → i < l.length → c i = c' i := by
  constructor
  · intro h i h1 h2
    exact rounds_unique hn hc hc' (l.length - 1) (by omega) h i h1 (by omega)
  · intro h
    have : ∀ k, k < l.length ∨ k = 0 → rounds c l k = rounds c' l k := by
      intro k
      induction k with
      | zero => exact fun _ => rfl
      | succ k ih =>
        intro hk
        have hk' : k + 1 < l.length := by omega
        simp only [rounds]
        rw [ih (.inl (by omega)), h (k + 1) (by omega) hk']
    exact this _ (by omega)

/-! ## Taking turns -/

/-- **C154.** Going round among some keys does not end, and always gives one of them; without keys it ends at once. -/
theorem C154_turns (keys : List K) (n : Nat) : (keys = [] → cycle keys n = none) ∧ (keys ≠ [] → ∃ k ∈ keys, cycle keys n = some k) := by
  unfold cycle
  refine ⟨fun h => by rw [h]; rfl, fun h => ?_⟩
  have hpos : n % keys.length < keys.length := Nat.mod_lt _ (List.length_pos_iff.mpr h)
  exact ⟨_, List.getElem_mem hpos, List.getElem?_eq_getElem hpos⟩

theorem cycle_iff {keys : List K} (hn : keys.Nodup) {j : Nat} (hj : j < keys.length) (i : Nat) : cycle keys i = some keys[j] ↔ i % keys.length = j := by
  unfold cycle
  have hpos : i % keys.length < keys.length := Nat.mod_lt _ (by omega)
  rw [List.getElem?_eq_getElem hpos, Option.some.injEq]
  exact List.Nodup.getElem_inj_iff hn

theorem count_mod {m j : Nat} (hj : j < m) : ∀ n, (List.range n).countP (fun i => decide (i % m = j)) = (n + (m - 1 - j)) / m
  | 0 => by
    rw [Nat.zero_add, Nat.div_eq_of_lt (by omega)]; rfl
  | n + 1 => by
    rw [List.range_succ, List.countP_append, count_mod hj n, List.countP_singleton]
    have hm : 0 < m := by omega
    have e : n + 1 + (m - 1 - j) = n + (m - 1 - j) + 1 := by omega
    rw [e, Nat.succ_div]
    congr 1
    have hiff : m ∣ n + (m - 1 - j) + 1 ↔ n % m = j := by
      have : n + (m - 1 - j) + 1 + j = n + m := by omega
      constructor
      · rintro ⟨q, hq⟩
        have hn : n + m = m * q + j := by omega
        have h1 : (n + m) % m = j := by rw [hn, Nat.mul_add_mod, Nat.mod_eq_of_lt hj]
        rwa [Nat.add_mod_right] at h1
      · intro h
        have h1 := Nat.div_add_mod n m
        exact ⟨n / m + 1, by rw [Nat.mul_add, Nat.mul_one]; omega⟩
    by_cases hd : n % m = j
    · rw [if_pos (hiff.mpr hd)]; simp [hd]
    · rw [if_neg (fun h => hd (hiff.mp h))]; simp [hd]

/-- **C154.** Tasks given to keys in turns are spread evenly: of `n` tasks, each of `m` keys gets `n / m`, rounded down or up. -/
theorem C154_even [DecidableEq K] {keys : List K} (hn : keys.Nodup) {k : K} (hk : k ∈ keys) (n : Nat) :
    n / keys.length ≤ given keys n k ∧ given keys n k ≤ (n + keys.length - 1) / keys.length := by
  obtain ⟨j, hj, rfl⟩ := List.mem_iff_getElem.mp hk
  have h : given keys n keys[j] = (n + (keys.length - 1 - j)) / keys.length := by
    rw [← count_mod hj n]
    unfold given
    apply List.countP_congr
    intro i _
    simp only [decide_eq_true_eq]
    exact cycle_iff hn hj i
  rw [h]
  exact ⟨Nat.div_le_div_right (by omega), Nat.div_le_div_right (by omega)⟩

/-- **C154.** Nobody else is given any. -/
theorem C154_nobody_else [DecidableEq K] {keys : List K} {k : K} (hk : k ∉ keys) (n : Nat) : given keys n k = 0 := by
  unfold given
  rw [List.countP_eq_zero]
  intro i _
  simp only [decide_eq_true_eq]
  intro h
  exact hk (List.mem_of_getElem? h)

namespace Scenarios

/-- Three entries, two of which match. -/
example : sampleWith [(1, 10), (2, 20), (3, 11)] (fun _ v => v % 2 == 0) 1 = some (2, 20) ∧ sampleWith [(1, 10), (2, 20), (3, 11)] (fun _ v => v % 2 == 1) 0 = some (3, 11) ∧
    sampleWith [(1, 10)] (fun _ v => v % 2 == 1) 0 = none := by decide

/-- All six orders of three elements, by the six sequences of draws. -/
example : (([0, 1].flatMap fun a => [0, 1, 2].map fun b => shuffle (fun i => if i = 1 then a else if i = 2 then b else 0) [1, 2, 3]) : List (List Nat)) =
    [[3, 1, 2], [2, 3, 1], [2, 1, 3], [3, 2, 1], [1, 3, 2], [1, 2, 3]] := by decide

/-- Seven tasks for three keys. -/
example : given [4, 5, 6] 7 4 = 3 ∧ given [4, 5, 6] 7 5 = 2 ∧ given [4, 5, 6] 7 6 = 2 ∧ given [4, 5, 6] 7 1 = 0 := by decide

end Scenarios

end Verif.Book
