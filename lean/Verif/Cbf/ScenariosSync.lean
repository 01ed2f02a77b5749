import Verif.Cbf.PropsSync
import Verif.Cbf.PropsMatch

/-!
# An endless execution in which the filter headers arrive
-/

set_option autoImplicit false

namespace Verif.Cbf.Scenario

/-- The filter headers of the chain `t`. -/
def es : List Entry := [(5, 6), (1, 62), (2, 623), (3, 6234)]

/-- Peer 1 has been asked for the filter headers. -/
def asked : Mgr := { m0 with peers := [(1, false)], inflight := [(103, 1, 1, 106000)], out := [.getCFHeaders 1 1 103, .timer 6000] }

/-- It did not answer and is asked again. -/
def again : Mgr := { asked with inflight := [(103, 1, 1, 206000)], out := asked.out ++ [.timer 60000, .getCFHeaders 1 1 103, .timer 6000], lastIdle := some 200000 }

/-- It has answered. -/
def told : Mgr := { again with filters := ⟨(5, 6), [(1, 62), (2, 623), (3, 6234)], es⟩, inflight := [], out := again.out ++ [.event (.filterHeadersSynced 3)] }

/-- No answer comes in, the request is sent again and answered; then only timers. -/
def ops : Nat → Op
  | 1 => .cfheaders 1 ⟨0, 103, 6, [1, 2, 3]⟩
  | _ => .timer

def envs : Nat → Env
  | 0 => at_ 200000
  | n + 1 => at_ (300000 + n * 100000)

/-- The states of the execution. -/
def states : Nat → Mgr
  | 0 => asked
  | 1 => again
  | 2 => told
  | n + 3 => match (states (n + 2)).step p (envs (n + 2)) t (ops (n + 2)) with
    | .ok m => m
    | _ => states (n + 2)

/-- Nothing left to do. -/
def Rests (m : Mgr) : Prop := m.inflight = [] ∧ m.filters = ⟨(5, 6), [(1, 62), (2, 623), (3, 6234)], es⟩ ∧ m.peers = [(1, false)] ∧ m.rescan.active = false

theorem rests_timer {m : Mgr} (h : Rests m) (e : Env) (ho : e.order [] = []) : ∃ m' d, m.step p e t .timer = .ok m' ∧ Rests m' ∧ m'.out = m.out ++ d ∧ NoAsk d := by
  obtain ⟨h1, h2, h3, h4⟩ := h
  have hh : m.filters.height = 3 := by rw [h2]; rfl
  have hs : (m.sync p e t : Res Unit Mgr) = .ok m := by
    unfold Mgr.sync
    rw [if_pos (by rw [hh]; decide), if_neg (by decide), if_neg (by rw [hh]; decide)]
    simp [bind, Res.bind, h4]
  have hex : ∀ m1 : Mgr, m1.inflight = [] → Mgr.expire e (e.order m1.inflight.keys) m1 = m1 := fun m1 h => by rw [h, show AMap.keys ([] : AMap Nat (Nat × Nat × Nat)) = [] from rfl, ho]; rfl
  simp only [Mgr.step, Mgr.timerExpired]
  by_cases hd : idleTimeout ≤ e.now - m.lastIdle.getD 0
  · have hi : (m.idle p e t : Res Unit Mgr) = .ok ({ m with lastIdle := some e.now }.emit [.timer idleTimeout]) := by
      unfold Mgr.idle
      rw [if_pos hd, hs]
      rfl
    rw [hi]
    simp only [bind, Res.bind]
    have hr : Rests ({ m with lastIdle := some e.now }.emit [.timer idleTimeout]) := ⟨h1, h2, h3, h4⟩
    have ho : ({ m with lastIdle := some e.now }.emit [.timer idleTimeout]).out = m.out ++ [.timer idleTimeout] := rfl
    generalize ({ m with lastIdle := some e.now }.emit [.timer idleTimeout]) = m2 at hr ho ⊢
    rw [hex m2 hr.1]
    refine ⟨m2, [.timer idleTimeout], ?_, hr, ho, by intro a i k; simp⟩
    split
    · rw [if_neg (by simp [hr.2.2.2])]
    · rfl
  · have hi : (m.idle p e t : Res Unit Mgr) = .ok m := by
      unfold Mgr.idle
      rw [if_neg hd]
    rw [hi]
    simp only [bind, Res.bind]
    rw [hex _ h1]
    refine ⟨m, [], ?_, ⟨h1, h2, h3, h4⟩, by simp, noAsk_nil⟩
    split
    · rw [if_neg (by simp [h4])]
    · rfl

theorem states_next (n : Nat) {m : Mgr} (h : (states (n + 2)).step p (envs (n + 2)) t .timer = .ok m) : states (n + 3) = m := by
  rw [states, show ops (n + 2) = .timer from rfl, h]

theorem rests : ∀ n, Rests (states (n + 2))
  | 0 => ⟨rfl, rfl, rfl, rfl⟩
  | n + 1 => by
    obtain ⟨m', d, h1, h2, -⟩ := rests_timer (rests n) (envs (n + 2)) rfl
    rw [states_next n h1]; exact h2

theorem stepsOn (n : Nat) : ∃ d, (states (n + 2)).step p (envs (n + 2)) t (ops (n + 2)) = .ok (states (n + 3)) ∧ (states (n + 3)).out = (states (n + 2)).out ++ d ∧ NoAsk d := by
  obtain ⟨m', d, h1, -, h2, h3⟩ := rests_timer (rests n) (envs (n + 2)) rfl
  rw [states_next n h1]
  exact ⟨d, h1, h2, h3⟩

theorem step0 : asked.step p (at_ 200000) t .timer = .ok again := rfl

theorem step1 : again.step p (at_ 300000) t (.cfheaders 1 ⟨0, 103, 6, [1, 2, 3]⟩) = .ok told := rfl

/-- C119: the execution meets the conditions of the theorem: the filter headers are missing at first, and a message is lost. -/
theorem serves : Serves p t es states ops envs where
  step
    | 0 => step0
    | 1 => step1
    | n + 2 => by obtain ⟨_, h, -⟩ := stepsOn n; exact h
  fair
    | 0 => fair_at _
    | n + 1 => fair_at _
  store
    | 0 => rfl
    | n + 1 => rfl
  chain n r h := by
    match n with
    | 0 => simp [ops] at h
    | 1 => simp [ops] at h
    | n + 2 => simp [ops] at h
  peers
    | 0 => by rw [states]; simp [asked]
    | 1 => by rw [states]; simp [again, asked]
    | n + 2 => by rw [(rests n).2.2.1]; simp
  timer T n := ⟨n + T + 2, by omega, rfl, by simp only [envs, at_]; omega⟩
  honest n a msg h := by
    match n with
    | 0 => simp [ops] at h
    | 1 =>
      simp only [ops, Op.cfheaders.injEq] at h
      obtain ⟨-, rfl⟩ := h
      exact ⟨1, 103, rfl, rfl, rfl, 3, rfl, by omega, rfl⟩
    | n + 2 => simp [ops] at h
  answered i k := by
    constructor
    · intro h
      obtain ⟨j, hj, d', a, h1, h2⟩ := h 2
      obtain ⟨n, rfl⟩ := Nat.exists_eq_add_of_le hj
      obtain ⟨d, -, h3, h4⟩ := stepsOn n
      rw [show 2 + n = n + 2 by omega] at h1
      have : d' = d := List.append_cancel_left (h1.symm.trans h3)
      subst this
      exact absurd h2 (h4 a i k)
    · intro h
      obtain ⟨j, hj, a, msg, h1, -⟩ := h 2
      obtain ⟨n, rfl⟩ := Nat.exists_eq_add_of_le hj
      rw [show 2 + n = n + 2 by omega] at h1
      simp [ops] at h1

theorem es_chain : FilterChain p es := by
  refine ⟨⟨(5, 6), rfl, rfl, rfl⟩, fun h a b ha hb => ?_⟩
  match h with
  | 0 => simp [es] at ha hb; subst ha; subst hb; rfl
  | 1 => simp [es] at ha hb; subst ha; subst hb; rfl
  | 2 => simp [es] at ha hb; subst ha; subst hb; rfl
  | h + 3 => simp [es] at hb

/-- C119: the theorem applies to it. -/
example : ∃ n, (∀ j, n ≤ j → (states j).filters.all = es ∧ (states j).filters.store = es) ∧ .event (.filterHeadersSynced 3) ∈ (states n).out := by
  obtain ⟨n, h1, h2⟩ := C119_filter_headers_arrive es_chain (by decide) (by decide) (by decide) (by intro c h; cases h) ⟨es.tail, by rw [states]; rfl⟩ (by rw [states]; rfl) serves
  exact ⟨n, h1, h2 (by rw [states]; decide)⟩

/-- The first request was lost and sent again. -/
example : again.out = [.getCFHeaders 1 1 103, .timer 6000, .timer idleTimeout, .getCFHeaders 1 1 103, .timer 6000] := rfl

end Verif.Cbf.Scenario
