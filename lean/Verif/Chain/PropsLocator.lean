import Verif.Chain.Props
import Verif.Chain.Checkpoint
import Mathlib.Tactic.NormNum

/-!
# Property theorems about block locators: C12
-/

set_option autoImplicit false

namespace Verif.Chain
open AMap

variable {cfg : Cfg} {U : Header → Prop} {g : Header} {s : State} {fail : Bool}

/-! ## Specification -/

/-- Distance between the `i`-th entry of a locator and the next one (counting from 0): one for the first eight, then
doubling: 1,1,1,1,1,1,1,1,2,4,8,… -/
def gap (i : Nat) : Nat := if i < 8 then 1 else 2 ^ (i - 7)

/-- The heights of a locator from height `start`, given that it starts with the `i`-th entry. -/
structure IsLocatorFrom (i start : Nat) (l : List Nat) : Prop where
  head : l.head? = some start
  last : l.getLast? = some 0
  step : ∀ j a b, l[j]? = some a → l[j + 1]? = some b → 0 < a ∧ b = a - gap (i + j)

/-- The heights of a full locator: it starts at `start`, goes down by the `gap`s (cut at zero) and ends with genesis. -/
abbrev IsLocator (start : Nat) (l : List Nat) : Prop := IsLocatorFrom 0 start l

/-! ## Lemmas -/

/-- `step` before the `i`-th iteration. -/
def prevStep (i : Nat) : Nat := if i ≤ 8 then 1 else 2 ^ (i - 8)

/-- Sum of the first `i` gaps. -/
def offset (i : Nat) : Nat := if i ≤ 8 then i else 6 + 2 ^ (i - 7)

theorem gap_pos (i : Nat) : 0 < gap i := by
  unfold gap; split
  · omega
  · exact Nat.two_pow_pos _

theorem offset_succ (i : Nat) : offset (i + 1) = offset i + gap i := by
  unfold offset gap
  by_cases h : i < 8
  · rw [if_pos (by omega), if_pos (by omega), if_pos h]
  · rw [if_neg (by omega), if_neg h]
    by_cases h8 : i = 8
    · subst h8; rfl
    · rw [if_neg (by omega)]
      have : i + 1 - 7 = (i - 7) + 1 := by omega
      rw [this, Nat.pow_succ]; omega

theorem prevStep_succ (i : Nat) : (if i ≥ 8 then prevStep i * 2 else prevStep i) = gap i ∧ prevStep (i + 1) = gap i := by
  unfold prevStep gap
  by_cases h : i < 8
  · simp [h, show ¬ i ≥ 8 by omega, show i ≤ 8 by omega, show i + 1 ≤ 8 by omega]
  · have e : i + 1 - 8 = i - 7 := by omega
    by_cases h8 : i = 8
    · subst h8; simp
    · simp only [h, show i ≥ 8 by omega, show ¬ i ≤ 8 by omega, show ¬ i + 1 ≤ 8 by omega, ite_true, ite_false, e,
        and_true]
      rw [← Nat.pow_succ]; congr 1; omega

theorem locatorsLoop_spec {start : Nat} (hs : start < 2 ^ 64) (fuel : Nat) :
    ∀ (h i : Nat) (idx : List Nat), h ≤ fuel → idx.length = i → (h = 0 ∨ h + offset i = start) →
      ∃ l, locatorsLoop fuel idx (prevStep i) h = .ok (idx ++ l) ∧ IsLocatorFrom i h (l ++ [0]) := by
  induction fuel with
  | zero =>
    intro h i idx hf hl _
    have : h = 0 := by omega
    subst this
    refine ⟨[], by simp [locatorsLoop], ⟨rfl, rfl, ?_⟩⟩
    intro j a b _ hb
    simp at hb
  | succ fuel ih =>
    intro h i idx hf hl hinv
    by_cases h0 : h = 0
    · subst h0
      refine ⟨[], by simp [locatorsLoop], ⟨rfl, rfl, ?_⟩⟩
      intro j a b _ hb
      simp at hb
    · have hpos : h > 0 := by omega
      have hoff := hinv.resolve_left h0
      have hgap : gap i < 2 ^ 64 := by
        unfold gap
        split
        · norm_num
        · unfold offset at hoff
          by_cases h8 : i ≤ 8
          · have : i = 8 := by omega
            subst this; norm_num
          · rw [if_neg h8] at hoff
            omega
      obtain ⟨p1, p2⟩ := prevStep_succ i
      obtain ⟨l, e1, e2⟩ := ih (h - gap i) (i + 1) (idx ++ [h]) (by have := gap_pos i; omega) (by simp [hl])
        (by rw [offset_succ]; omega)
      refine ⟨h :: l, ?_, ?_⟩
      · unfold locatorsLoop
        rw [if_pos hpos]
        simp only [hl, p1]
        rw [p2] at e1
        rw [if_neg (by omega), e1]
        simp
      · refine ⟨rfl, ?_, ?_⟩
        · rw [List.cons_append, List.getLast?_cons]
          rw [e2.last]; rfl
        · intro j a b ha hb
          cases j with
          | zero =>
            simp only [List.cons_append, List.getElem?_cons_zero, Option.some.injEq] at ha
            simp only [List.cons_append, List.getElem?_cons_succ] at hb
            have hh := e2.head
            rw [List.head?_eq_getElem?] at hh
            rw [hh] at hb
            simp only [Option.some.injEq] at hb
            subst ha
            exact ⟨hpos, by rw [← hb]; rfl⟩
          | succ j =>
            simp only [List.cons_append, List.getElem?_cons_succ] at ha hb
            have := e2.step j a b ha hb
            rw [show i + (j + 1) = i + 1 + j by omega]
            exact this

theorem locatorsIndexes_spec {start : Nat} (hs : start < 2 ^ 64) :
    ∃ l, locatorsIndexes start = .ok l ∧ IsLocator start l := by
  obtain ⟨l, e1, e2⟩ := locatorsLoop_spec hs start start 0 [] (Nat.le_refl _) rfl (.inr rfl)
  have hp : prevStep 0 = 1 := rfl
  rw [hp] at e1
  refine ⟨l ++ [0], ?_, e2⟩
  unfold locatorsIndexes
  rw [e1]; rfl

/-- A locator descends strictly. -/
theorem IsLocatorFrom.descending {i start : Nat} {l : List Nat} (h : IsLocatorFrom i start l) : l.Pairwise (· > ·) := by
  induction l generalizing i start with
  | nil => exact List.Pairwise.nil
  | cons a l ih =>
    cases l with
    | nil => simp
    | cons b l =>
      have hab := h.step 0 a b rfl rfl
      have hrec : IsLocatorFrom (i + 1) b (b :: l) := by
        refine ⟨rfl, ?_, ?_⟩
        · have := h.last
          rw [List.getLast?_cons_cons] at this; exact this
        · intro j x y hx hy
          have := h.step (j + 1) x y hx hy
          rw [show i + 1 + j = i + (j + 1) by omega]; exact this
      have hp := ih hrec
      have hgt : a > b := by have := gap_pos (i + 0); omega
      rw [List.pairwise_cons]
      refine ⟨?_, hp⟩
      intro x hx
      rcases List.mem_cons.1 hx with rfl | hx
      · exact hgt
      · exact Nat.lt_trans (List.rel_of_pairwise_cons hp hx) hgt

theorem locatorHashesLoop_spec (hv : ∀ n, (s.getByHeight n).isSome ↔ n ≤ s.height) (cp : Nat) {l : List Nat}
    (hd : l.Pairwise (· > ·)) (hle : ∀ n ∈ l, n ≤ s.height) :
    (locatorHashesLoop cfg s cp l).map some = (l.filter (cp ≤ ·)).map (fun n => (s.getByHeight n).map cfg.hash) := by
  induction l with
  | nil => rfl
  | cons a l ih =>
    obtain ⟨h1, h2⟩ := List.pairwise_cons.1 hd
    unfold locatorHashesLoop
    by_cases hlt : a < cp
    · rw [if_pos hlt]
      have : (a :: l).filter (cp ≤ ·) = [] := by
        rw [List.filter_eq_nil_iff]
        intro x hx
        rcases List.mem_cons.1 hx with rfl | hx
        · simp; omega
        · have := h1 x hx
          simp; omega
      rw [this]; rfl
    · rw [if_neg hlt, List.filter_cons_of_pos (by simp; omega)]
      have hd := (hv a).2 (hle a List.mem_cons_self)
      unfold State.getByHeight at hd
      have ih' := ih h2 (fun n hn => hle n (List.mem_cons_of_mem _ hn))
      cases hq : s.chain[a]? with
      | none => simp [hq] at hd
      | some b =>
        simp only [List.map_cons, ih']
        congr 1
        simp [State.getByHeight, hq]

/-! ## C12 -/

theorem locatorHashes_from (ha : Acyclic cfg U) (hg : cfg.genesisHash = cfg.hash g) (hr : Reach cfg U g fail s)
    {start : Nat} (h1 : start ≤ s.height) (h2 : start < 2 ^ 64) :
    ∃ heights hashes, locatorHashes cfg s start = .ok hashes ∧ IsLocator start heights ∧
      hashes.map some = (heights.filter (s.lastCheckpoint cfg ≤ ·)).map (fun n => (s.getByHeight n).map cfg.hash) := by
  have hv := C01_consistent_view ha hg hr
  obtain ⟨l, e1, e2⟩ := locatorsIndexes_spec h2
  refine ⟨l, _, ?_, e2, locatorHashesLoop_spec hv.defined _ e2.descending ?_⟩
  · unfold locatorHashes
    simp [h1, Res.assert, e1]
  · intro n hn
    cases hl : l with
    | nil => rw [hl] at hn; simp at hn
    | cons a t =>
      have hhead := e2.head
      rw [hl] at hhead hn
      simp only [List.head?_cons, Option.some.injEq] at hhead
      subst hhead
      rcases List.mem_cons.1 hn with rfl | hn
      · exact h1
      · have hd := e2.descending
        rw [hl] at hd
        have := List.rel_of_pairwise_cons hd hn
        omega

/-- **C12.** For every height `start` up to the tip (of any 64-bit size), `locator_hashes(start)` does not panic, and the hashes
are those of the active blocks at the locator heights of `start` that are not below a checkpoint the chain has passed, in this
order.  (The checkpoints are a `BTreeMap`: they are listed in ascending order.) -/
theorem C12_locator_hashes (ha : Acyclic cfg U) (hg : cfg.genesisHash = cfg.hash g) (hr : Reach cfg U g fail s)
    (hasc : cfg.checkpoints.Pairwise (·.1 < ·.1)) {start : Nat} (h1 : start ≤ s.height) (h2 : start < 2 ^ 64) :
    ∃ heights hashes, locatorHashes cfg s start = .ok hashes ∧ IsLocator start heights ∧
      hashes.map some = (heights.filter (fun n => decide (∀ p ∈ cfg.checkpoints, p.1 ≤ s.height → p.1 ≤ n))).map
        (fun n => (s.getByHeight n).map cfg.hash) := by
  obtain ⟨heights, hashes, e1, e2, e3⟩ := locatorHashes_from ha hg hr h1 h2
  refine ⟨heights, hashes, e1, e2, e3.trans ?_⟩
  congr 1
  refine List.filter_congr fun n _ => ?_
  rw [decide_eq_decide]
  exact lastCheckpoint_le_iff hasc

/-- **C12 (consequences).** The heights descend strictly; without a checkpoint the last one is genesis. -/
theorem C12_descending {start : Nat} {heights : List Nat} (h : IsLocator start heights) (cp : Nat) :
    (heights.filter (cp ≤ ·)).Pairwise (· > ·) ∧ (∀ n ∈ heights.filter (cp ≤ ·), cp ≤ n ∧ n ≤ start) ∧
      (cp ≤ start → (heights.filter (cp ≤ ·)).head? = some start) ∧
      (cp = 0 → (heights.filter (cp ≤ ·)).getLast? = some 0) := by
  cases hl : heights with
  | nil => have := h.head; rw [hl] at this; simp at this
  | cons a t =>
    have hhead := h.head
    have hd := h.descending
    have hlast := h.last
    rw [hl] at hhead hd hlast
    simp only [List.head?_cons, Option.some.injEq] at hhead
    subst hhead
    refine ⟨hd.filter _, ?_, ?_, ?_⟩
    · intro n hn
      rw [List.mem_filter] at hn
      refine ⟨by simpa using hn.2, ?_⟩
      rcases List.mem_cons.1 hn.1 with rfl | hn
      · exact Nat.le_refl _
      · have := List.rel_of_pairwise_cons hd hn
        omega
    · intro hle
      rw [List.filter_cons_of_pos (by simpa using hle)]; rfl
    · rintro rfl
      have : (a :: t).filter (fun x => decide (0 ≤ x)) = a :: t := by
        rw [List.filter_eq_self]; simp
      rw [this]; exact hlast

/-- **C12 (uniqueness).** The specification determines the locator. -/
theorem C12_unique {i start : Nat} {l l' : List Nat} (h : IsLocatorFrom i start l) (h' : IsLocatorFrom i start l') : l = l' := by
  induction l generalizing i start l' with
  | nil => have := h.head; simp at this
  | cons a t ih =>
    cases l' with
    | nil => have := h'.head; simp at this
    | cons a' t' =>
      have e1 := h.head
      have e2 := h'.head
      simp only [List.head?_cons, Option.some.injEq] at e1 e2
      subst e1; subst e2
      have tl : ∀ {t : List Nat} {b : Nat} {r : List Nat}, IsLocatorFrom i a' (a' :: t) → t = b :: r →
          0 < a' ∧ b = a' - gap i ∧ IsLocatorFrom (i + 1) b t := by
        intro t b r h e
        subst e
        have := h.step 0 a' b rfl rfl
        refine ⟨this.1, this.2, rfl, ?_, ?_⟩
        · have := h.last
          rw [List.getLast?_cons_cons] at this; exact this
        · intro j x y hx hy
          have := h.step (j + 1) x y hx hy
          rw [show i + 1 + j = i + (j + 1) by omega]; exact this
      have z : ∀ {t : List Nat}, IsLocatorFrom i a' (a' :: t) → t = [] → a' = 0 := by
        intro t h e
        subst e
        have := h.last
        simpa using this
      cases ht : t with
      | nil =>
        cases ht' : t' with
        | nil => rfl
        | cons b' r' => have := z h ht; have := (tl h' ht').1; omega
      | cons b r =>
        cases ht' : t' with
        | nil => have := z h' ht'; have := (tl h ht).1; omega
        | cons b' r' =>
          obtain ⟨-, x1, x2⟩ := tl h ht
          obtain ⟨-, y1, y2⟩ := tl h' ht'
          rw [y1, ← x1] at y2
          have := ih x2 y2
          rw [← ht, ← ht', this]

/-- Non-vacuity: the documentation example, and a locator of a reachable tree. -/
example : locatorsIndexes 99 = .ok [99, 98, 97, 96, 95, 94, 93, 92, 91, 89, 85, 77, 61, 29, 0] ∧
    locatorHashes Scenario.cfg Scenario.sAB 2 = .ok [12, 11, 1] := by decide

end Verif.Chain
