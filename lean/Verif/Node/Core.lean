import Verif.Tx.Model
import Mathlib.Data.List.Pairwise
import Mathlib.Data.List.Perm.Basic
import Mathlib.Data.List.Nodup

/-!
# How matches are followed up: the invariant, apart from the machine

`F`: matches found; `R`: blocks reported; `Q`: blocks processed but not yet told to the filter manager; `W`: matches whose blocks are requested
or put aside.  `rem`: blocks requested; `put`: blocks put aside.
-/

set_option autoImplicit false

namespace Verif.Node
open Verif.Tx (Block)

def key (p : Nat × Block) : Nat × Nat := (p.1, p.2.hash)

structure CoreW (byHeight : Nat → Option Nat) (current : Nat) (pending : List Nat) (rem : Nat → Prop) (put : Nat → Option Block)
    (F : List (Nat × Nat)) (R Q : List (Nat × Block)) (W : List (Nat × Nat)) : Prop where
  split : F = (R ++ Q).map key ++ W
  sorted : (Q.map key ++ W).Pairwise (fun x y => x.1 < y.1)
  below : ∀ x ∈ Q.map key ++ W, x.1 < current
  chain : ∀ x ∈ Q.map key ++ W, byHeight x.1 = some x.2
  pend : ∀ h, h ∈ pending ↔ h ∈ (Q.map key ++ W).map (·.1)
  asked : ∀ k, rem k ↔ ∃ h, (h, k) ∈ W ∧ put h = none
  aside : ∀ h b, put h = some b → (h, b.hash) ∈ W
  more : W ≠ [] → ∃ k, rem k

/-- The invariant. -/
def Core (byHeight : Nat → Option Nat) (current : Nat) (pending : List Nat) (rem : Nat → Prop) (put : Nat → Option Block)
    (F : List (Nat × Nat)) (R Q : List (Nat × Block)) : Prop := ∃ W, CoreW byHeight current pending rem put F R Q W

variable {byHeight byHeight' : Nat → Option Nat} {current current' : Nat} {pending pending' : List Nat} {rem rem' : Nat → Prop}
  {put put' : Nat → Option Block} {F : List (Nat × Nat)} {R Q : List (Nat × Block)} {W : List (Nat × Nat)}

theorem Core.congr (c : Core byHeight current pending rem put F R Q) (h1 : ∀ h k, byHeight h = some k → byHeight' h = some k)
    (h3 : ∀ h, h ∈ pending' ↔ h ∈ pending) (h4 : ∀ k, rem' k ↔ rem k) (h5 : ∀ h b, put' h = some b ↔ put h = some b) :
    Core byHeight' current pending' rem' put' F R Q := by
  obtain ⟨W, c⟩ := c
  have h5' : ∀ h, put' h = put h := fun h => Option.ext (h5 h)
  refine ⟨W, c.split, c.sorted, c.below, fun x hx => h1 _ _ (c.chain x hx), fun h => (h3 h).trans (c.pend h), fun k => ?_, fun h b hb => ?_, fun hw => ?_⟩
  · rw [h4, c.asked]; simp only [h5']
  · exact c.aside h b (by rw [← h5']; exact hb)
  · obtain ⟨k, hk⟩ := c.more hw; exact ⟨k, (h4 k).2 hk⟩

/-- Matches are found and their blocks requested. -/
theorem Core.find (c : Core byHeight current pending rem put F R Q)
    {ms : List (Nat × Nat)} (h1 : current ≤ current') (h2 : ∀ x ∈ ms, current ≤ x.1 ∧ x.1 < current') (h3 : ms.Pairwise (fun x y => x.1 < y.1))
    (h4 : ∀ x ∈ ms, byHeight x.1 = some x.2) (h5 : ∀ h, h ∈ pending' ↔ h ∈ pending ∨ h ∈ ms.map (·.1))
    (h6 : ∀ k, rem' k ↔ rem k ∨ k ∈ ms.map (·.2)) (h7 : ∀ h b, put' h = some b ↔ put h = some b) :
    Core byHeight current' pending' rem' put' (F ++ ms) R Q := by
  obtain ⟨W, c⟩ := c
  have h7' : ∀ h, put' h = put h := fun h => Option.ext (h7 h)
  have fresh : ∀ x ∈ ms, put x.1 = none := by
    intro x hx
    cases hr : put x.1 with
    | none => rfl
    | some b =>
      have := c.below _ (List.mem_append_right _ (c.aside _ _ hr))
      have := h2 x hx
      simp only at *
      omega
  refine ⟨W ++ ms, ?_, ?_, ?_, ?_, ?_, ?_, ?_, ?_⟩
  · rw [c.split, List.append_assoc]
  · rw [← List.append_assoc, List.pairwise_append]
    refine ⟨c.sorted, h3, fun a ha b hb => ?_⟩
    have := c.below a ha
    have := (h2 b hb).1
    omega
  · intro x hx
    rw [← List.append_assoc, List.mem_append] at hx
    rcases hx with hx | hx
    · have := c.below x hx; omega
    · exact (h2 x hx).2
  · intro x hx
    rw [← List.append_assoc, List.mem_append] at hx
    rcases hx with hx | hx
    · exact c.chain x hx
    · exact h4 x hx
  · intro h
    rw [h5, c.pend, ← List.append_assoc, List.map_append (l₁ := Q.map key ++ W), List.mem_append]
  · intro k
    rw [h6, c.asked]
    simp only [h7', List.mem_append]
    constructor
    · rintro (⟨h, hw, hr⟩ | hm)
      · exact ⟨h, .inl hw, hr⟩
      · obtain ⟨x, hx, rfl⟩ := List.mem_map.1 hm
        exact ⟨x.1, .inr hx, fresh x hx⟩
    · rintro ⟨h, hw | hm, hr⟩
      · exact .inl ⟨h, hw, hr⟩
      · exact .inr (List.mem_map.2 ⟨_, hm, rfl⟩)
  · intro h b hb
    rw [h7'] at hb
    exact List.mem_append_left _ (c.aside h b hb)
  · intro hw
    rcases W with _ | ⟨w, W⟩
    · rcases ms with _ | ⟨x, ms⟩
      · exact absurd rfl hw
      · exact ⟨x.2, (h6 x.2).2 (.inr (by simp))⟩
    · obtain ⟨k, hk⟩ := c.more (by simp)
      exact ⟨k, (h6 _).2 (.inl hk)⟩

/-- A requested block arrives, and others are still to come. -/
theorem Core.keep (inj : ∀ h h' k, byHeight h = some k → byHeight h' = some k → h = h') (c : Core byHeight current pending rem put F R Q)
    {b : Block} {h0 : Nat} (h1 : rem b.hash) (h2 : byHeight h0 = some b.hash) (h3 : ∀ k, rem' k ↔ k ≠ b.hash ∧ rem k)
    (h4 : ∀ h d, put' h = some d ↔ (h = h0 ∧ d = b) ∨ (h ≠ h0 ∧ put h = some d)) (h5 : ∃ k, rem' k) :
    Core byHeight current pending rem' put' F R Q := by
  obtain ⟨W, c⟩ := c
  have at0 : (h0, b.hash) ∈ W := by
    obtain ⟨h, hw, _⟩ := (c.asked _).1 h1
    rw [inj h0 h b.hash h2 (c.chain _ (List.mem_append_right _ hw))]
    exact hw
  refine ⟨W, c.split, c.sorted, c.below, c.chain, c.pend, ?_, ?_, fun _ => h5⟩
  · intro k
    rw [h3, c.asked]
    constructor
    · rintro ⟨hk, h, hw, hr⟩
      refine ⟨h, hw, ?_⟩
      cases hr' : put' h with
      | none => rfl
      | some d =>
        rcases (h4 h d).1 hr' with ⟨rfl, rfl⟩ | ⟨_, h6⟩
        · have := c.chain _ (List.mem_append_right _ hw)
          simp only [h2, Option.some.injEq] at this
          exact absurd this.symm hk
        · rw [hr] at h6; cases h6
    · rintro ⟨h, hw, hr⟩
      have hne : h ≠ h0 := by
        rintro rfl
        rw [(h4 h b).2 (.inl ⟨rfl, rfl⟩)] at hr
        cases hr
      refine ⟨?_, h, hw, ?_⟩
      · rintro rfl
        exact hne (inj _ _ _ (c.chain _ (List.mem_append_right _ hw)) h2)
      · cases hr' : put h with
        | none => rfl
        | some d => rw [(h4 h d).2 (.inr ⟨hne, hr'⟩)] at hr; cases hr
  · intro h d hd
    rcases (h4 h d).1 hd with ⟨rfl, rfl⟩ | ⟨_, h6⟩
    · exact at0
    · exact c.aside h d h6

/-- The last requested block arrives: all blocks put aside are processed, in order. -/
theorem Core.flush (inj : ∀ h h' k, byHeight h = some k → byHeight h' = some k → h = h') (c : Core byHeight current pending rem put F R Q)
    {b : Block} {h0 : Nat} {D : List (Nat × Block)} (h1 : rem b.hash) (h2 : byHeight h0 = some b.hash) (hall : ∀ k, rem k → k = b.hash)
    (h3 : ∀ k, ¬ rem' k) (h4 : ∀ h, put' h = none) (h5 : D.Pairwise (fun x y => x.1 < y.1))
    (h6 : ∀ h d, (h, d) ∈ D ↔ (h = h0 ∧ d = b) ∨ (h ≠ h0 ∧ put h = some d)) :
    Core byHeight current pending rem' put' F R (Q ++ D) := by
  obtain ⟨W, c⟩ := c
  have at0 : (h0, b.hash) ∈ W := by
    obtain ⟨h, hw, _⟩ := (c.asked _).1 h1
    rw [inj h0 h b.hash h2 (c.chain _ (List.mem_append_right _ hw))]
    exact hw
  have mem : ∀ x, x ∈ D.map key ↔ x ∈ W := by
    rintro ⟨h, k⟩
    rw [List.mem_map]
    constructor
    · rintro ⟨⟨h', d⟩, hd, he⟩
      cases he
      rcases (h6 h' d).1 hd with ⟨rfl, rfl⟩ | ⟨_, h7⟩
      · exact at0
      · exact c.aside _ _ h7
    · intro hw
      cases hr : put h with
      | none =>
        have hk := hall k ((c.asked k).2 ⟨h, hw, hr⟩)
        subst hk
        have : h = h0 := inj _ _ _ (c.chain _ (List.mem_append_right _ hw)) h2
        subst this
        exact ⟨(h, b), (h6 _ _).2 (.inl ⟨rfl, rfl⟩), rfl⟩
      | some d =>
        have hd := c.chain _ (List.mem_append_right _ (c.aside _ _ hr))
        have hk := c.chain _ (List.mem_append_right _ hw)
        simp only at hd hk
        rw [hk, Option.some.injEq] at hd
        by_cases hh : h = h0
        · subst hh
          refine ⟨(h, b), (h6 _ _).2 (.inl ⟨rfl, rfl⟩), ?_⟩
          rw [h2, Option.some.injEq] at hk
          simp [key, hk]
        · exact ⟨(h, d), (h6 _ _).2 (.inr ⟨hh, hr⟩), by simp [key, hd]⟩
  have sD : (D.map key).Pairwise (fun x y => x.1 < y.1) := List.pairwise_map.2 h5
  have sW : W.Pairwise (fun x y => x.1 < y.1) := (List.pairwise_append.1 c.sorted).2.1
  have hD : D.map key = W := by
    have nd : ∀ {l : List (Nat × Nat)}, l.Pairwise (fun x y => x.1 < y.1) → l.Nodup :=
      fun h => h.imp (fun {a b} hab he => by subst he; exact absurd hab (Nat.lt_irrefl _))
    refine ((List.perm_ext_iff_of_nodup (nd sD) (nd sW)).2 mem).eq_of_pairwise ?_ sD sW
    intro a b _ _ hab hba
    omega
  refine ⟨[], ?_, ?_, ?_, ?_, ?_, ?_, ?_, ?_⟩
  · rw [c.split]; simp [hD]
  · simpa [hD] using c.sorted
  · simpa only [List.map_append, hD, List.append_nil] using c.below
  · simpa only [List.map_append, hD, List.append_nil] using c.chain
  · intro h; rw [c.pend, List.map_append (f := key), hD, List.append_nil]
  · intro k; simp [h3]
  · intro h d hd; rw [h4] at hd; cases hd
  · simp

/-- A processed block is told to the filter manager, which reports it. -/
theorem Core.report {x : Nat × Block} (c : Core byHeight current pending rem put F R (x :: Q))
    (h1 : ∀ h, h ∈ pending' ↔ h ∈ pending ∧ h ≠ x.1) : Core byHeight current pending' rem put F (R ++ [x]) Q := by
  obtain ⟨W, c⟩ := c
  have hs := c.sorted
  simp only [List.map_cons, List.cons_append, List.pairwise_cons] at hs
  refine ⟨W, ?_, hs.2, fun y hy => c.below y (by simp only [List.map_cons, List.cons_append]; exact List.mem_cons_of_mem _ hy),
    fun y hy => c.chain y (by simp only [List.map_cons, List.cons_append]; exact List.mem_cons_of_mem _ hy), ?_, c.asked, c.aside, c.more⟩
  · rw [c.split]; simp
  · intro h
    rw [h1, c.pend]
    simp only [List.map_cons, List.cons_append, List.mem_cons]
    constructor
    · rintro ⟨h2 | h2, h3⟩
      · exact absurd h2 h3
      · exact h2
    · intro h2
      refine ⟨.inr h2, ?_⟩
      obtain ⟨y, hy, rfl⟩ := List.mem_map.1 h2
      have := hs.1 y hy
      simp only [key] at this
      omega

theorem Core.pending_head {x : Nat × Block} (c : Core byHeight current pending rem put F R (x :: Q)) : x.1 ∈ pending := by
  obtain ⟨W, c⟩ := c
  rw [c.pend]
  simp [key]

theorem Core.chain_head {x : Nat × Block} (c : Core byHeight current pending rem put F R (x :: Q)) : byHeight x.1 = some x.2.hash := by
  obtain ⟨W, c⟩ := c
  exact c.chain (key x) (by simp)

theorem Core.rem_chain (c : Core byHeight current pending rem put F R Q) {k : Nat} (h : rem k) : ∃ height, byHeight height = some k := by
  obtain ⟨W, c⟩ := c
  obtain ⟨height, hw, _⟩ := (c.asked k).1 h
  exact ⟨height, c.chain _ (List.mem_append_right _ hw)⟩

theorem Core.pending_lt (c : Core byHeight current pending rem put F R Q) : ∀ h ∈ pending, h < current := by
  obtain ⟨W, c⟩ := c
  intro h hh
  rw [c.pend] at hh
  obtain ⟨y, hy, rfl⟩ := List.mem_map.1 hh
  exact c.below y hy

/-- Everything found was reported: a rescan may start anywhere. -/
theorem Core.restart (c : Core byHeight current pending rem put F R Q) (h : R.map key = F) : Core byHeight current' pending rem put F R Q := by
  obtain ⟨W, c⟩ := c
  have h0 : Q.map key ++ W = [] := by
    have := c.split
    rw [← h, List.map_append, List.append_assoc] at this
    simpa using this
  refine ⟨W, c.split, c.sorted, ?_, c.chain, c.pend, c.asked, c.aside, c.more⟩
  rw [h0]; simp

theorem Core.prefix (c : Core byHeight current pending rem put F R Q) : R.map key <+: F := by
  obtain ⟨W, c⟩ := c
  exact ⟨Q.map key ++ W, by rw [c.split]; simp⟩

theorem Core.complete (c : Core byHeight current pending rem put F R []) (h : ∀ k, ¬ rem k) : R.map key = F := by
  obtain ⟨W, c⟩ := c
  have : W = [] := by
    by_contra hw
    obtain ⟨k, hk⟩ := c.more hw
    exact h k hk
  rw [c.split, this]; simp

end Verif.Node
