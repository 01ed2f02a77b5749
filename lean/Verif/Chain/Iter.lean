/-!
# C126: going through the chain from both ends
-/

set_option autoImplicit false

namespace Verif.Chain.Iter

/-! ## Model -/

/-- `Iter` (common/src/block/iter.rs:7-12).  The chain is a list (there: not empty). -/
structure Iter (T : Type) where
  chain : List T
  next : Nat
  nextBack : Nat

variable {T : Type}

/-- `Iter::new` (common/src/block/iter.rs:16-22). -/
def Iter.new (chain : List T) : Iter T := ⟨chain, 0, chain.length⟩

/-- `next` (common/src/block/iter.rs:28-36). -/
def Iter.front (i : Iter T) : Option (Nat × T) × Iter T :=
  if i.next = i.nextBack then (none, i)
  else (i.chain[i.next]?.map fun x => (i.next, x), { i with next := i.next + 1 })

/-- `next_back` (common/src/block/iter.rs:62-71). -/
def Iter.back (i : Iter T) : Option (Nat × T) × Iter T :=
  if i.nextBack = i.next then (none, i)
  else (i.chain[i.nextBack - 1]?.map fun x => (i.nextBack - 1, x), { i with nextBack := i.nextBack - 1 })

/-! ## Specification -/

/-- The two calls. -/
inductive Call where
  | front
  | back
  deriving DecidableEq, Repr

/-- The calls made, with their answers, most recent first. -/
abbrev Hist (T : Type) := List (Call × Option (Nat × T))

/-- The calls lead from a new iterator over the chain to this one. -/
inductive Run (chain : List T) : Hist T → Iter T → Prop where
  | start : Run chain [] (Iter.new chain)
  | front {h : Hist T} {i : Iter T} (r : Run chain h i) : Run chain ((.front, i.front.1) :: h) i.front.2
  | back {h : Hist T} {i : Iter T} (r : Run chain h i) : Run chain ((.back, i.back.1) :: h) i.back.2

/-- What was got from one end, in order. -/
def got (c : Call) (h : Hist T) : List (Nat × T) := h.reverse.filterMap fun x => if x.1 = c then x.2 else none

/-- The blocks with their heights, lowest first. -/
def heights (chain : List T) : List (Nat × T) := chain.zipIdx.map fun x => (x.2, x.1)

/-! ## Property -/

theorem got_cons (c c' : Call) (r : Option (Nat × T)) (h : Hist T) :
    got c ((c', r) :: h) = got c h ++ (if c' = c then r.toList else []) := by
  unfold got
  rw [List.reverse_cons, List.filterMap_append]
  congr 1
  by_cases e : c' = c
  · cases r <;> simp [e]
  · simp [e]

theorem heights_get (chain : List T) (n : Nat) : (heights chain)[n]? = chain[n]?.map fun x => (n, x) := by
  unfold heights
  rw [List.getElem?_map, List.getElem?_zipIdx]
  cases chain[n]? <;> simp

theorem heights_length (chain : List T) : (heights chain).length = chain.length := by simp [heights]

/-- Where the iterator is. -/
theorem position {chain : List T} {h : Hist T} {i : Iter T} (r : Run chain h i) :
    i.chain = chain ∧ i.next ≤ i.nextBack ∧ i.nextBack ≤ chain.length ∧ got .front h = (heights chain).take i.next ∧
      (got .back h).reverse = (heights chain).drop i.nextBack := by
  induction r with
  | start => exact ⟨rfl, Nat.zero_le _, Nat.le_refl _, rfl, by rw [List.drop_of_length_le (by rw [heights_length]; exact Nat.le_refl _)]; rfl⟩
  | @front h i r ih =>
    obtain ⟨h1, h2, h3, h4, h5⟩ := ih
    rw [got_cons, got_cons, if_pos rfl, if_neg (by simp), List.append_nil, h4, h5]
    unfold Iter.front
    split
    · exact ⟨h1, h2, h3, by simp, rfl⟩
    · refine ⟨h1, by simp only; omega, h3, ?_, rfl⟩
      simp only
      rw [List.take_add_one, heights_get, h1]
  | @back h i r ih =>
    obtain ⟨h1, h2, h3, h4, h5⟩ := ih
    rw [got_cons, got_cons, if_pos rfl, if_neg (by simp), List.append_nil, h4, List.reverse_append, h5]
    unfold Iter.back
    split
    · exact ⟨h1, h2, h3, rfl, by simp⟩
    · refine ⟨h1, by simp only; omega, by simp only; omega, rfl, ?_⟩
      simp only
      have hlt : i.nextBack - 1 < (heights chain).length := by rw [heights_length]; omega
      have hg := heights_get chain (i.nextBack - 1)
      rw [List.getElem?_eq_getElem hlt] at hg
      rw [h1, ← hg, List.drop_eq_getElem_cons hlt, show i.nextBack - 1 + 1 = i.nextBack by omega]
      rfl

/-- **C126.** Whatever calls of `next` and `next_back` are made in whatever order: what was got from the front, what is left, and what was got from the back (reversed) are
together the blocks of the chain with their heights, lowest first.  The next call from the front gives the first of what is left, from the back the last, and nothing if
nothing is left. -/
theorem C126_both_ends {chain : List T} {h : Hist T} {i : Iter T} (r : Run chain h i) :
    ∃ left, got .front h ++ left ++ (got .back h).reverse = heights chain ∧ i.front.1 = left.head? ∧ i.back.1 = left.getLast? := by
  obtain ⟨h1, h2, h3, h4, h5⟩ := position r
  refine ⟨((heights chain).drop i.next).take (i.nextBack - i.next), ?_, ?_, ?_⟩
  · rw [h4, h5, List.append_assoc]
    rw [show (heights chain).drop i.nextBack = ((heights chain).drop i.next).drop (i.nextBack - i.next) by rw [List.drop_drop]; congr 1; omega]
    rw [List.take_append_drop, List.take_append_drop]
  · unfold Iter.front
    split
    · next e => rw [e, Nat.sub_self]; rfl
    · next e =>
      rw [List.head?_take, if_neg (by omega), List.head?_drop, heights_get, h1]
  · unfold Iter.back
    split
    · next e => rw [e, Nat.sub_self]; rfl
    · next e =>
      rw [List.getLast?_take, if_neg (by omega), List.getElem?_drop, heights_get, h1]
      have : i.next + (i.nextBack - i.next - 1) = i.nextBack - 1 := by omega
      rw [this]
      have hlt : i.nextBack - 1 < chain.length := by omega
      rw [List.getElem?_eq_getElem hlt]
      rfl

/-- Three blocks, from both ends. -/
example : ∃ i, Run ["a", "b", "c"] [(.back, none), (.front, some (1, "b")), (.back, some (2, "c")), (.front, some (0, "a"))] i :=
  ⟨_, .back (.front (.back (.front .start)))⟩

end Verif.Chain.Iter
