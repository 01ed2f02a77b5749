import Mathlib.Data.List.Sort
import Verif.Base.Map

/-!
# Lemmas about `sinsert` (insertion into a `BTreeMap`)
-/

set_option autoImplicit false

namespace Verif

/-- A Boolean strict total order. -/
structure StrictTotal {K : Type} (lt : K → K → Bool) : Prop where
  irrefl : ∀ a, lt a a = false
  trans : ∀ a b c, lt a b = true → lt b c = true → lt a c = true
  tri : ∀ a b, lt a b = false → lt b a = false → a = b

theorem natLt_total : StrictTotal (fun a b : Nat => decide (a < b)) :=
  ⟨by simp, by simp; omega, by simp; omega⟩

/-- Keys strictly ascending. -/
def SSorted {K V : Type} (lt : K → K → Bool) (m : List (K × V)) : Prop :=
  m.Pairwise (fun a b => lt a.1 b.1 = true)

variable {K V : Type} {lt : K → K → Bool}

theorem mem_sinsert (ht : StrictTotal lt) (k : K) (v : V) : ∀ {m : List (K × V)}, SSorted lt m →
    ∀ p, p ∈ sinsert lt k v m ↔ p = (k, v) ∨ (p.1 ≠ k ∧ p ∈ m)
  | [], _, p => by simp [sinsert]
  | (k', v') :: m, hs, p => by
    have hs' := List.pairwise_cons.1 hs
    have ih := mem_sinsert ht k v (m := m) hs'.2 p
    unfold sinsert
    by_cases h1 : lt k k' = true
    · rw [if_pos h1]
      simp only [List.mem_cons]
      constructor
      · rintro (rfl | h | h)
        · exact .inl rfl
        · subst h
          refine .inr ⟨?_, .inl rfl⟩
          rintro rfl
          rw [ht.irrefl] at h1; simp at h1
        · refine .inr ⟨?_, .inr h⟩
          rintro rfl
          have := ht.trans _ _ _ h1 (hs'.1 p h)
          rw [ht.irrefl] at this; simp at this
      · rintro (h | ⟨_, h⟩)
        · exact .inl h
        · exact .inr h
    · rw [if_neg h1]
      by_cases h2 : lt k' k = true
      · rw [if_pos h2, List.mem_cons, ih]
        constructor
        · rintro (rfl | h | ⟨h, h'⟩)
          · refine .inr ⟨?_, List.mem_cons_self⟩
            rintro rfl
            rw [ht.irrefl] at h2; simp at h2
          · exact .inl h
          · exact .inr ⟨h, List.mem_cons_of_mem _ h'⟩
        · rintro (h | ⟨h, h'⟩)
          · exact .inr (.inl h)
          · rcases List.mem_cons.1 h' with h' | h'
            · exact .inl h'
            · exact .inr (.inr ⟨h, h'⟩)
      · rw [if_neg h2]
        have hk := ht.tri k k' (by simpa using h1) (by simpa using h2)
        subst hk
        rw [List.mem_cons]
        constructor
        · rintro (h | h)
          · exact .inl h
          · refine .inr ⟨?_, List.mem_cons_of_mem _ h⟩
            rintro rfl
            have := hs'.1 p h
            rw [ht.irrefl] at this; simp at this
        · rintro (h | ⟨h, h'⟩)
          · exact .inl h
          · rcases List.mem_cons.1 h' with h' | h'
            · subst h'; exact absurd rfl h
            · exact .inr h'

theorem sorted_sinsert (ht : StrictTotal lt) (k : K) (v : V) : ∀ {m : List (K × V)}, SSorted lt m →
    SSorted lt (sinsert lt k v m)
  | [], _ => by simp [sinsert, SSorted]
  | (k', v') :: m, hs => by
    have hs' := List.pairwise_cons.1 hs
    have ih := sorted_sinsert ht k v (m := m) hs'.2
    unfold sinsert
    by_cases h1 : lt k k' = true
    · rw [if_pos h1]
      refine List.pairwise_cons.2 ⟨?_, hs⟩
      intro p hp
      rcases List.mem_cons.1 hp with rfl | hp
      · exact h1
      · exact ht.trans _ _ _ h1 (hs'.1 p hp)
    · rw [if_neg h1]
      by_cases h2 : lt k' k = true
      · rw [if_pos h2]
        refine List.pairwise_cons.2 ⟨?_, ih⟩
        intro p hp
        rcases (mem_sinsert ht k v hs'.2 p).1 hp with rfl | ⟨_, hp⟩
        · exact h2
        · exact hs'.1 p hp
      · rw [if_neg h2]
        have hk := ht.tri k k' (by simpa using h1) (by simpa using h2)
        subst hk
        exact List.pairwise_cons.2 hs'

/-- Several insertions (`BTreeMap::extend`). -/
def sextend (lt : K → K → Bool) (m l : List (K × V)) : List (K × V) :=
  l.foldl (fun m p => sinsert lt p.1 p.2 m) m

theorem sorted_sextend (ht : StrictTotal lt) : ∀ (l : List (K × V)) {m : List (K × V)}, SSorted lt m →
    SSorted lt (sextend lt m l)
  | [], _, h => h
  | p :: l, _, h => sorted_sextend ht l (sorted_sinsert ht p.1 p.2 h)

/-- Membership after several insertions of distinct keys. -/
theorem mem_sextend (ht : StrictTotal lt) : ∀ (l : List (K × V)) {m : List (K × V)}, SSorted lt m →
    (l.map (·.1)).Nodup → ∀ p, p ∈ sextend lt m l ↔ p ∈ l ∨ (p.1 ∉ l.map (·.1) ∧ p ∈ m)
  | [], m, _, _, p => by simp [sextend]
  | q :: l, m, hs, hn, p => by
    have hn' := List.nodup_cons.1 hn
    have ih := mem_sextend ht l (sorted_sinsert ht q.1 q.2 hs) hn'.2 p
    show p ∈ sextend lt (sinsert lt q.1 q.2 m) l ↔ _
    rw [ih, mem_sinsert ht _ _ hs]
    simp only [List.mem_cons, List.map_cons, not_or]
    constructor
    · rintro (h | ⟨h1, h2 | ⟨h2, h3⟩⟩)
      · exact .inl (.inr h)
      · exact .inl (.inl h2)
      · exact .inr ⟨⟨h2, h1⟩, h3⟩
    · rintro ((h | h) | ⟨⟨h1, h2⟩, h3⟩)
      · subst h; exact .inr ⟨hn'.1, .inl rfl⟩
      · exact .inl h
      · exact .inr ⟨h2, .inr ⟨h1, h3⟩⟩

theorem SSorted.nodup {m : List (K × V)} (ht : StrictTotal lt) (h : SSorted lt m) : m.Nodup := by
  refine List.Pairwise.imp ?_ h
  rintro a b hab rfl
  rw [ht.irrefl] at hab; simp at hab

/-- Two strictly sorted lists with the same members are equal. -/
theorem SSorted.ext (ht : StrictTotal lt) {m m' : List (K × V)} (h : SSorted lt m) (h' : SSorted lt m')
    (hm : ∀ p, p ∈ m ↔ p ∈ m') : m = m' := by
  have hp : m.Perm m' := (List.perm_ext_iff_of_nodup (h.nodup ht) (h'.nodup ht)).2 hm
  refine List.Perm.eq_of_pairwise ?_ h h' hp
  intro a b _ _ h1 h2
  have := ht.trans _ _ _ h1 h2
  rw [ht.irrefl] at this; simp at this

end Verif
