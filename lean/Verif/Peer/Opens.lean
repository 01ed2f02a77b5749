import Verif.Peer.PropsNet

/-!
# Handshakes are completed on open connections
-/

set_option autoImplicit false

namespace Verif.Peer
open Verif.Addr (Sock Ip NetAddr Source domainOf has sadd)

variable {cfg : Config} {tr : List Ip}

/-- In one step: what is connected was connected or just reported as connected; the events on it. -/
theorem step_kind {h : List Op} {m m' : Mgr} {op : Op} (r : Run cfg tr h m) (lg : op.Legal) (e : m.step cfg op = .ok m') (a : Sock) :
    ∃ d, m'.out = m.out ++ d ∧ (m'.kind a = .connected → (m.kind a = .connected ∧ evs a d = []) ∨ evs a d = [true]) := by
  have wc : ∀ {k k' : Kind} {w : List Bool}, WC k w k' → k' = .connected → k = .connected := by
    rintro k k' w (⟨rfl, _⟩ | ⟨_, rfl, _⟩) h <;> simp_all
  have wd : ∀ {k k' : Kind} {w : List Bool}, WD k w k' → k' = .connected → k = .connected := by
    rintro k k' w (⟨rfl, _⟩ | ⟨_, rfl, _⟩) h <;> simp_all
  have wm : ∀ {k k' : Kind} {w : List Bool}, WM k w k' → k' = .connected → k = .connected := by
    rintro k k' w (⟨rfl, _⟩ | ⟨_, rfl, _⟩) h <;> simp_all
  have other : Tr WC m m' ∨ Tr WM m m' → ∃ d, m'.out = m.out ++ d ∧ (m'.kind a = .connected → (m.kind a = .connected ∧ evs a d = []) ∨ evs a d = [true]) := by
    rintro (⟨d, h1, h2⟩ | ⟨d, h1, h2⟩)
    · exact ⟨d, h1, fun hk => .inl ⟨wc (h2 a).1 hk, (h2 a).2⟩⟩
    · exact ⟨d, h1, fun hk => .inl ⟨wm (h2 a).1 hk, (h2 a).2⟩⟩
  cases op with
  | connected b loc link height nonce =>
    obtain ⟨d, h1, h2, -, h4⟩ := connected_trace e
    refine ⟨d, h1, fun hk => ?_⟩
    by_cases hb : b = a
    · subst hb; exact .inr h2
    · obtain ⟨g1, -, g3⟩ := h4 a hb
      exact .inl ⟨g1 ▸ hk, g3⟩
  | disconnected b d src =>
    obtain ⟨d, h1, h2, h3, h4⟩ := lost_trace e
    refine ⟨d, h1, fun hk => ?_⟩
    by_cases hb : b = a
    · subst hb; exact absurd (wc h3 hk) (by simp)
    · obtain ⟨g1, g2⟩ := h4 a hb
      exact .inl ⟨wc g1 hk, g2⟩
  | timer ord src =>
    obtain ⟨m1, ⟨d1, h1, h2⟩, ⟨d2, h3, h4⟩⟩ := timer_tr lg e
    exact ⟨d1 ++ d2, by rw [h3, h1, List.append_assoc], fun hk => .inl ⟨wd (h2 a).1 (wc (h4 a).1 hk), by rw [evs_append, (h2 a).2, (h4 a).2]; rfl⟩⟩
  | attempted b =>
    simp only [Mgr.step, Mgr.peerAttempted] at e
    split at e
    · cases e
    · simp only [Res.ok.injEq] at e
      subst e
      exact ⟨[], by simp, fun hk => .inl ⟨hk, rfl⟩⟩
  | _ => exact other (input_tr (run_inv r) rfl rfl e)

/-- A peer that is connected was reported as connected, and not as disconnected since. -/
theorem run_open {h : List Op} {m : Mgr} (r : Run cfg tr h m) (a : Sock) : m.kind a = .connected → isOpen a m.out = true := by
  induction r with
  | start => intro hk; simp [Mgr.new, Mgr.kind, kindOf] at hk
  | step r lg e ih =>
    intro hk
    obtain ⟨d, h1, h2⟩ := step_kind r lg e a
    rw [h1]
    rcases h2 hk with ⟨g1, g2⟩ | g
    · rw [isOpen_none g2]; exact ih g1
    · exact isOpen_one g

/-- Handshakes are reported as completed on connections that were reported as connected, and not as disconnected since. -/
theorem negotiated_open {h : List Op} {m : Mgr} (r : Run cfg tr h m) {a : Sock} {n : Negotiated} :
    ∀ {l1 l2 : List Out}, m.out = l1 ++ .evNegotiated a n :: l2 → isOpen a l1 = true := by
  induction r with
  | start => intro l1 l2 hl; simp [Mgr.new] at hl
  | @step h m m' op r lg e ih =>
    intro l1 l2 hl
    obtain ⟨x, hm, -⟩ := step_kind r lg e a
    have hx := hm.symm.trans hl
    have new : ∀ u, l1 = m.out ++ u → x = u ++ .evNegotiated a n :: l2 → isOpen a l1 = true := by
      intro u h1 h2
      have ho : .evNegotiated a n ∈ added m m' := by rw [added_of hm, h2]; simp
      obtain ⟨-, c, i, hc, -, -, ha⟩ := reports_step e (a := a) ho (.inl ⟨n, rfl⟩)
      rw [added_of hm, h2] at ha
      cases u with
      | nil =>
        rw [h1, List.append_nil]
        exact run_open r a (by simp [Mgr.kind, hc, kindOf])
      | cons y u =>
        simp only [List.cons_append, List.cons.injEq] at ha
        cases u with
        | nil => simp at ha
        | cons y u => simp at ha
    rcases List.append_eq_append_iff.1 hx with ⟨u, h1, h2⟩ | ⟨u, h1, h2⟩
    · exact new u h1 h2
    · cases u with
      | nil => exact new [] (by simpa using h1.symm) (by simpa using h2.symm)
      | cons y u =>
        simp only [List.cons_append, List.cons.injEq] at h2
        obtain ⟨rfl, h2⟩ := h2
        exact ih h1

end Verif.Peer
