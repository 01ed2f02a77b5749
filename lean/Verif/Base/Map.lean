/-!
# Finite maps

Association-list model of Rust's `HashMap` / `BTreeMap`.

* `AMap` models a hash map: only `get`, `insert`, `erase`, `len` are order independent; whenever the Rust
  code iterates over a `HashMap`, the model takes the iteration order as an explicit parameter.
* `sinsert` models insertion into a `BTreeMap`: the list is kept sorted by key.
-/

set_option autoImplicit false

namespace Verif

/-- A finite map as an association list (newest binding first, keys kept distinct by `insert`). -/
abbrev AMap (K V : Type) := List (K × V)

namespace AMap
variable {K V : Type} [DecidableEq K]

/-- `HashMap::get`. -/
def get : AMap K V → K → Option V
  | [], _ => none
  | (k', v) :: m, k => if k' = k then some v else get m k

/-- `HashMap::remove` (the map afterwards). -/
def erase (m : AMap K V) (k : K) : AMap K V := m.filter (fun p => p.1 ≠ k)

/-- `HashMap::insert` (the map afterwards). -/
def insert (m : AMap K V) (k : K) (v : V) : AMap K V := (k, v) :: erase m k

/-- `HashMap::contains_key`. -/
def contains (m : AMap K V) (k : K) : Bool := (get m k).isSome

/-- The keys in internal order. -/
def keys (m : AMap K V) : List K := m.map (·.1)

@[simp] theorem get_nil (k : K) : get ([] : AMap K V) k = none := rfl

theorem get_cons (p : K × V) (m : AMap K V) (k : K) :
    get (p :: m) k = if p.1 = k then some p.2 else get m k := rfl

theorem get_erase (m : AMap K V) (k k' : K) :
    get (erase m k) k' = if k = k' then none else get m k' := by
  induction m with
  | nil => simp [erase]
  | cons p m ih =>
    simp only [erase, List.filter_cons] at ih ⊢
    by_cases h : p.1 = k
    · simp only [h, ne_eq, not_true_eq_false, decide_false, Bool.false_eq_true, ite_false, ih, get_cons]
      by_cases h2 : k = k' <;> simp [h2]
    · simp only [ne_eq, h, not_false_eq_true, decide_true, ite_true, get_cons, ih]
      by_cases h2 : p.1 = k'
      · have : ¬ k = k' := fun e => h (h2.trans e.symm)
        simp [h2, this]
      · simp [h2]

@[simp] theorem get_erase_self (m : AMap K V) (k : K) : get (erase m k) k = none := by
  simp [get_erase]

theorem get_erase_ne (m : AMap K V) {k k' : K} (h : k ≠ k') : get (erase m k) k' = get m k' := by
  simp [get_erase, h]

theorem get_insert (m : AMap K V) (k k' : K) (v : V) :
    get (insert m k v) k' = if k = k' then some v else get m k' := by
  simp only [insert, get_cons, get_erase]
  by_cases h : k = k' <;> simp [h]

@[simp] theorem get_insert_self (m : AMap K V) (k : K) (v : V) : get (insert m k v) k = some v := by
  simp [get_insert]

theorem get_insert_ne (m : AMap K V) {k k' : K} (v : V) (h : k ≠ k') :
    get (insert m k v) k' = get m k' := by
  simp [get_insert, h]

theorem get_isSome_iff (m : AMap K V) (k : K) : (get m k).isSome ↔ k ∈ keys m := by
  induction m with
  | nil => simp [keys]
  | cons p m ih =>
    simp only [get_cons, keys, List.map_cons, List.mem_cons]
    by_cases h : p.1 = k
    · simp [h]
    · simp only [h, ite_false, ih, keys]
      constructor
      · exact Or.inr
      · rintro (h' | h')
        · exact absurd h'.symm h
        · exact h'

theorem contains_iff (m : AMap K V) (k : K) : contains m k = true ↔ k ∈ keys m := get_isSome_iff m k

theorem contains_eq_false_iff (m : AMap K V) (k : K) : contains m k = false ↔ get m k = none := by
  simp [contains]

theorem get_eq_none_iff (m : AMap K V) (k : K) : get m k = none ↔ k ∉ keys m := by
  rw [← get_isSome_iff]; simp

theorem mem_of_get {m : AMap K V} {k : K} {v : V} (h : get m k = some v) : (k, v) ∈ m := by
  induction m with
  | nil => simp at h
  | cons p m ih =>
    rw [get_cons] at h
    by_cases hk : p.1 = k
    · simp only [hk, ite_true, Option.some.injEq] at h
      rw [← hk, ← h]; exact List.mem_cons_self
    · simp only [hk, ite_false] at h
      exact List.mem_cons_of_mem _ (ih h)

theorem get_of_mem {m : AMap K V} (hn : (keys m).Nodup) {k : K} {v : V} (h : (k, v) ∈ m) :
    get m k = some v := by
  induction m with
  | nil => simp at h
  | cons p m ih =>
    simp only [keys, List.map_cons, List.nodup_cons] at hn
    rw [get_cons]
    rcases List.mem_cons.1 h with h | h
    · simp [← h]
    · by_cases hk : p.1 = k
      · exact absurd (List.mem_map.2 ⟨(k, v), h, hk.symm⟩) hn.1
      · simp only [hk, ite_false]
        exact ih hn.2 h

theorem mem_keys_erase (m : AMap K V) (k k' : K) : k' ∈ keys (erase m k) ↔ k' ∈ keys m ∧ k' ≠ k := by
  rw [← get_isSome_iff, ← get_isSome_iff, get_erase]
  by_cases h : k = k'
  · simp [h]
  · simp [h, Ne.symm h]

theorem mem_keys_insert (m : AMap K V) (k k' : K) (v : V) :
    k' ∈ keys (insert m k v) ↔ k' = k ∨ k' ∈ keys m := by
  rw [← get_isSome_iff, ← get_isSome_iff, get_insert]
  by_cases h : k = k'
  · simp [h]
  · simp [h, Ne.symm h]

theorem nodup_erase {m : AMap K V} (h : (keys m).Nodup) (k : K) : (keys (erase m k)).Nodup :=
  List.Pairwise.sublist (List.Sublist.map _ List.filter_sublist) h

theorem nodup_insert {m : AMap K V} (h : (keys m).Nodup) (k : K) (v : V) :
    (keys (insert m k v)).Nodup := by
  have h2 := nodup_erase h k
  have h3 : k ∉ keys (erase m k) := by simp [mem_keys_erase]
  exact List.nodup_cons.2 ⟨h3, h2⟩

theorem erase_eq_self {m : AMap K V} {k : K} (h : k ∉ keys m) : erase m k = m := by
  unfold erase
  rw [List.filter_eq_self]
  intro p hp
  have : p.1 ≠ k := fun e => h (List.mem_map.2 ⟨p, hp, e⟩)
  simp [this]

theorem length_insert_new {m : AMap K V} {k : K} (h : k ∉ keys m) (v : V) :
    (insert m k v).length = m.length + 1 := by
  simp [insert, erase_eq_self h]

end AMap

/-- `BTreeMap::insert` on a list kept sorted by `lt`. -/
def sinsert {K V : Type} (lt : K → K → Bool) (k : K) (v : V) : List (K × V) → List (K × V)
  | [] => [(k, v)]
  | (k', v') :: m =>
    if lt k k' then (k, v) :: (k', v') :: m
    else if lt k' k then (k', v') :: sinsert lt k v m
    else (k, v) :: m

end Verif
