import Verif.Peer.Lemmas

/-!
# How many connections the peer manager asks for when one ends
-/

set_option autoImplicit false

namespace Verif.Peer
open Verif.Addr (Sock)

variable {cfg : Config}

/-- Requests to connect. -/
def isConnect : Out → Bool
  | .connect _ => true
  | _ => false

/-- The events the other managers act on. -/
def isMeeting : Out → Bool
  | .evNegotiated _ _ => true
  | .evDisconnected _ _ => true
  | _ => false

theorem connect_count (m : Mgr) (a : Sock) : ∃ l, (m.connect cfg a).2.out = m.out ++ l ∧ l.countP isConnect ≤ 1 := by
  unfold Mgr.connect
  split
  · exact ⟨[], by simp, by simp⟩
  · split
    · exact ⟨[], by simp, by simp⟩
    · refine ⟨[.connect a, .timer connectionTimeout], rfl, Nat.le_refl 1⟩

theorem maintainLoop_count (below : Bool) (delta : Nat) : ∀ (fuel : Nat) (m : Mgr) (src : List Cand) (set : List Sock) (m' : Mgr),
    Mgr.maintainLoop cfg below delta fuel m src set = .ok m' → ∃ l, m'.out = m.out ++ l ∧ l.countP isConnect ≤ fuel
  | 0, m, src, set, m', h => by
    simp only [Mgr.maintainLoop, Res.ok.injEq] at h
    exact ⟨[], by simp [h], by simp⟩
  | fuel + 1, m, src, set, m', h => by
    unfold Mgr.maintainLoop at h
    split at h
    · split at h
      · simp only [Res.ok.injEq] at h
        exact ⟨[], by simp [h], by simp⟩
      · rename_i c src' _
        split at h
        · obtain ⟨l, hl, hc⟩ := maintainLoop_count below delta fuel _ _ _ _ h
          exact ⟨l, hl, by omega⟩
        · rename_i a _
          split at h
          · cases h
          · obtain ⟨l1, hl1, hc1⟩ := connect_count (cfg := cfg) m a
            split at h
            · obtain ⟨l, hl, hc⟩ := maintainLoop_count below delta fuel _ _ _ _ h
              refine ⟨l1 ++ ([.evConnecting a c.2 c.1.services] ++ l), ?_, ?_⟩
              · rw [hl]
                show ((m.connect cfg a).2.out ++ [_]) ++ l = _
                rw [hl1]
                simp
              · rw [List.countP_append, List.countP_append]
                simp [isConnect]
                omega
            · obtain ⟨l, hl, hc⟩ := maintainLoop_count below delta fuel _ _ _ _ h
              refine ⟨l1 ++ l, by rw [hl, hl1, List.append_assoc], ?_⟩
              rw [List.countP_append]
              omega
    · simp only [Res.ok.injEq] at h
      exact ⟨[], by simp [h], by simp⟩

/-- A connection that ends: at most as many requests to connect as addresses drawn. -/
theorem disconnected_count {m m' : Mgr} {a : Sock} {d : Disc} {src : List Cand} (h : m.step cfg (.disconnected a d src) = .ok m') :
    ∃ l, m'.out = m.out ++ l ∧ l.countP isConnect ≤ src.length := by
  have hf : (m.lostEvent a d).countP isConnect = 0 := by
    rw [List.countP_eq_zero]
    intro o ho
    unfold Mgr.lostEvent at ho
    split at ho
    · simp only [List.mem_singleton] at ho; subst ho; simp [isConnect]
    · split at ho
      · simp only [List.mem_singleton] at ho; subst ho; simp [isConnect]
      · cases ho
  rcases peerDisconnected_parts h with ⟨-, h1⟩ | ⟨-, h1⟩
  · obtain ⟨-, rfl⟩ := persistentDisconnected_parts h1
    refine ⟨m.lostEvent a d ++ [.timer _], by simp only [Mgr.forget, List.append_assoc]; rfl, ?_⟩
    rw [List.countP_append, hf]
    simp [isConnect]
  · unfold Mgr.maintain at h1
    split at h1
    · simp only [Res.ok.injEq] at h1
      exact ⟨m.lostEvent a d, by rw [← h1]; rfl, by omega⟩
    · obtain ⟨l, hl, hc⟩ := maintainLoop_count _ _ _ _ _ _ _ h1
      refine ⟨m.lostEvent a d ++ l, by rw [hl]; simp [Mgr.forget], ?_⟩
      rw [List.countP_append]
      omega

end Verif.Peer
