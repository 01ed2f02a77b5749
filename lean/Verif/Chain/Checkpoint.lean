import Verif.Chain.Model

/-! The height of the last checkpoint passed, said without the search that computes it. -/

set_option autoImplicit false

namespace Verif.Chain

variable {cfg : Cfg} {s : State}

theorem lastCheckpoint_cases (cfg : Cfg) (s : State) :
    (s.lastCheckpoint cfg = 0 ∧ ∀ p ∈ cfg.checkpoints, ¬ p.1 ≤ s.height) ∨
      ∃ hash, (s.lastCheckpoint cfg, hash) ∈ cfg.checkpoints ∧ s.lastCheckpoint cfg ≤ s.height := by
  unfold State.lastCheckpoint
  cases hf : (cfg.checkpoints.reverse.map (·.1)).find? (· ≤ s.height) with
  | none =>
    refine Or.inl ⟨rfl, fun p hp hle => ?_⟩
    exact List.find?_eq_none.1 hf p.1 (List.mem_map.2 ⟨p, List.mem_reverse.2 hp, rfl⟩) (by simpa using hle)
  | some c =>
    obtain ⟨p, hp, rfl⟩ := List.mem_map.1 (List.mem_of_find?_eq_some hf)
    exact Or.inr ⟨p.2, List.mem_reverse.1 hp, by simpa using List.find?_some hf⟩

/-- A height that is not below any checkpoint passed by the chain is not below the last one. -/
theorem lastCheckpoint_le_of {n : Nat} (h : ∀ p ∈ cfg.checkpoints, p.1 ≤ s.height → p.1 ≤ n) : s.lastCheckpoint cfg ≤ n := by
  rcases lastCheckpoint_cases cfg s with ⟨h0, -⟩ | ⟨hash, hm, hle⟩
  · omega
  · exact h _ hm hle

/-- Every checkpoint passed by the chain is at or below the last one. -/
theorem le_lastCheckpoint (hasc : cfg.checkpoints.Pairwise (·.1 < ·.1)) {p : Nat × Nat} (hp : p ∈ cfg.checkpoints)
    (hle : p.1 ≤ s.height) : p.1 ≤ s.lastCheckpoint cfg := by
  unfold State.lastCheckpoint
  have key : ∀ l : List (Nat × Nat), l.Pairwise (fun a b => b.1 < a.1) → p ∈ l →
      p.1 ≤ (((l.map (·.1)).find? (· ≤ s.height)).getD 0) := by
    intro l
    induction l with
    | nil => intro _ h; cases h
    | cons a t ih =>
      intro hpw hm
      rw [List.map_cons, List.find?_cons]
      rcases List.mem_cons.1 hm with rfl | hm
      · simp [hle]
      · have hlt := (List.pairwise_cons.1 hpw).1 p hm
        by_cases hc : a.1 ≤ s.height
        · simp only [hc, decide_true, Option.getD_some]; omega
        · simp only [hc, decide_false]
          exact ih (List.pairwise_cons.1 hpw).2 hm
  exact key _ (List.pairwise_reverse.2 hasc) (List.mem_reverse.2 hp)

/-- Being at or above the last checkpoint is being at or above every checkpoint passed. -/
theorem lastCheckpoint_le_iff (hasc : cfg.checkpoints.Pairwise (·.1 < ·.1)) {n : Nat} :
    s.lastCheckpoint cfg ≤ n ↔ ∀ p ∈ cfg.checkpoints, p.1 ≤ s.height → p.1 ≤ n :=
  ⟨fun h _ hp hle => Nat.le_trans (le_lastCheckpoint hasc hp hle) h, lastCheckpoint_le_of⟩

end Verif.Chain
