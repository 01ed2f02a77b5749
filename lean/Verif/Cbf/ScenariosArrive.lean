import Verif.Cbf.PropsArrive
import Verif.Cbf.ScenariosSync

/-!
# An endless execution in which a rescan gets to the tip
-/

set_option autoImplicit false

namespace Verif.Cbf.Scenario

/-- The user asks for a rescan from height 1 on; the request for filter headers is still unanswered. -/
def s1 : Mgr := { asked with
  rescan := { asked.rescan with active := true, current := 1, start := 1, watch := [2] }, out := asked.out ++ [.event (.rescanStarted 1 none)] }

/-- The request was lost and is sent again. -/
def s2 : Mgr := { s1 with
  inflight := [(103, 1, 1, 306000)], lastIdle := some 300000, out := s1.out ++ [.timer 60000, .getCFHeaders 1 1 103, .timer 6000] }

/-- The filter headers are there, the filters are asked for. -/
def s3 : Mgr := { s2 with
  rescan := { s2.rescan with requested := [1, 2, 3] }, filters := ⟨(5, 6), [(1, 62), (2, 623), (3, 6234)], es⟩, inflight := [],
  out := s2.out ++ [.getCFilters 1 1 103, .timer 6000, .event (.filterHeadersSynced 3)] }

/-- The answer was lost, they are asked for again. -/
def s4 : Mgr := { s3 with
  lastIdle := some 500000, out := s3.out ++ [.timer 60000, .getCFilters 1 1 103, .timer 6000] }

/-- The filters come in out of order. -/
def s5 : Mgr := { s4 with
  rescan := { s4.rescan with cache := ⟨[(2, [2])], 1, 100⟩, requested := [1, 3], received := [(2, [2], 102, false)] },
  out := s4.out ++ [.event (.filterReceived 1 102 2 [2]), .event (.scanned 1)] }

def s6 : Mgr := { s5 with
  rescan := { s5.rescan with cache := ⟨[(2, [2]), (3, [3])], 2, 100⟩, requested := [1], received := [(3, [3], 103, false), (2, [2], 102, false)] },
  out := s5.out ++ [.event (.filterReceived 1 103 3 [3]), .event (.scanned 1)] }

/-- Everything is scanned. -/
def s7 : Mgr := { s6 with
  rescan := { s6.rescan with current := 4, cache := ⟨[(1, [1]), (2, [2]), (3, [3])], 3, 100⟩, requested := [], received := [] },
  lastProcessed := some 800000, pending := [2],
  out := s6.out ++ [.event (.filterReceived 1 101 1 [1]), .event (.filterProcessed 101 1 true false false), .event (.filterProcessed 102 2 true true false),
    .event (.filterProcessed 103 3 true false false), .getBlock 102] }

def ops2 : Nat → Op
  | 0 => .rescan (.included 1) .unbounded [2]
  | 2 => .cfheaders 1 ⟨0, 103, 6, [1, 2, 3]⟩
  | 4 => .cfilter 1 0 102 [2]
  | 5 => .cfilter 1 0 103 [3]
  | 6 => .cfilter 1 0 101 [1]
  | _ => .timer

def envs2 (n : Nat) : Env := at_ (200000 + n * 100000)

/-- The states of the execution. -/
def states2 : Nat → Mgr
  | 0 => asked
  | 1 => s1
  | 2 => s2
  | 3 => s3
  | 4 => s4
  | 5 => s5
  | 6 => s6
  | 7 => s7
  | n + 8 => match (states2 (n + 7)).step p (envs2 (n + 7)) t .timer with
    | .ok m => m
    | _ => states2 (n + 7)

/-- Nothing left to do but to wait for new blocks. -/
def Waiting (m : Mgr) : Prop := m.inflight = [] ∧ m.filters = ⟨(5, 6), [(1, 62), (2, 623), (3, 6234)], es⟩ ∧ m.peers = [(1, false)] ∧
  m.rescan.current = 4

/-- Neither filter headers nor filters are asked for. -/
def NoReq (o : List Out) : Prop := NoAsk o ∧ ∀ k, ¬ Asked t o k

theorem noReq_timers {o : List Out} (h : ∀ x ∈ o, ∃ n, x = .timer n) : NoReq o := by
  refine ⟨fun a i k hk => ?_, fun k ⟨a, s, st, h1, _⟩ => ?_⟩
  · obtain ⟨n, hn⟩ := h _ hk; cases hn
  · obtain ⟨n, hn⟩ := h _ h1; cases hn

theorem waiting_timer {m : Mgr} (h : Waiting m) (e : Env) (ho : e.order [] = []) :
    ∃ m' d, m.step p e t .timer = .ok m' ∧ Waiting m' ∧ m'.out = m.out ++ d ∧ NoReq d := by
  obtain ⟨h1, h2, h3, h4⟩ := h
  have hg : ∀ m1 : Mgr, Waiting m1 → m1.getCFilters e t m1.rescan.current m1.filters.height = (m1, .err .invalidRange) := by
    intro m1 ⟨_, g2, g3, g4⟩
    unfold Mgr.getCFilters
    rw [if_neg (by rw [g3]; simp), if_pos (by rw [g4, g2]; decide)]
  have hs : (m.sync p e t : Res Unit Mgr) = .ok m := by
    have hh : m.filters.height = 3 := by rw [h2]; rfl
    unfold Mgr.sync
    rw [if_pos (by rw [hh]; decide), if_neg (by decide), if_neg (by rw [hh]; decide)]
    simp only [bind, Res.bind]
    rw [hg m ⟨h1, h2, h3, h4⟩]
    split <;> rfl
  have hex : ∀ m1 : Mgr, m1.inflight = [] → Mgr.expire e (e.order m1.inflight.keys) m1 = m1 := fun m1 h => by rw [h, show AMap.keys ([] : AMap Nat (Nat × Nat × Nat)) = [] from rfl, ho]; rfl
  have hend : ∀ m1 : Mgr, Waiting m1 → ∃ m', ((if requestTimeout ≤ e.now - m1.lastProcessed.getD 0 then
      if m1.rescan.active then
        match ({ m1 with rescan := m1.rescan.reset } : Mgr).getCFilters e t ({ m1 with rescan := m1.rescan.reset } : Mgr).rescan.current ({ m1 with rescan := m1.rescan.reset } : Mgr).filters.height with
        | (_, .panic) => .panic
        | (m, _) => .ok m
      else .ok m1
    else .ok m1) : Res Unit Mgr) = .ok m' ∧ Waiting m' ∧ m'.out = m1.out := by
    intro m1 w
    have w' : Waiting { m1 with rescan := m1.rescan.reset } := w
    split
    · split
      · rw [hg _ w']; exact ⟨_, rfl, w', rfl⟩
      · exact ⟨_, rfl, w, rfl⟩
    · exact ⟨_, rfl, w, rfl⟩
  simp only [Mgr.step, Mgr.timerExpired]
  by_cases hd : idleTimeout ≤ e.now - m.lastIdle.getD 0
  · have hi : (m.idle p e t : Res Unit Mgr) = .ok ({ m with lastIdle := some e.now }.emit [.timer idleTimeout]) := by
      unfold Mgr.idle
      rw [if_pos hd, hs]
      rfl
    rw [hi]
    simp only [bind, Res.bind]
    have hr : Waiting ({ m with lastIdle := some e.now }.emit [.timer idleTimeout]) := ⟨h1, h2, h3, h4⟩
    have ho : ({ m with lastIdle := some e.now }.emit [.timer idleTimeout]).out = m.out ++ [.timer idleTimeout] := rfl
    generalize ({ m with lastIdle := some e.now }.emit [.timer idleTimeout]) = m2 at hr ho ⊢
    rw [hex m2 hr.1]
    obtain ⟨m', k1, k2, k3⟩ := hend m2 hr
    exact ⟨m', [.timer idleTimeout], k1, k2, by rw [k3, ho], noReq_timers (by simp)⟩
  · have hi : (m.idle p e t : Res Unit Mgr) = .ok m := by
      unfold Mgr.idle
      rw [if_neg hd]
    rw [hi]
    simp only [bind, Res.bind]
    rw [hex _ h1]
    obtain ⟨m', k1, k2, k3⟩ := hend m ⟨h1, h2, h3, h4⟩
    exact ⟨m', [], k1, k2, by rw [k3]; simp, noReq_timers (by simp)⟩

theorem states2_next (n : Nat) {m : Mgr} (h : (states2 (n + 7)).step p (envs2 (n + 7)) t .timer = .ok m) : states2 (n + 8) = m := by
  rw [states2, h]

theorem waiting : ∀ n, Waiting (states2 (n + 7))
  | 0 => ⟨rfl, rfl, rfl, rfl⟩
  | n + 1 => by
    obtain ⟨m', d, h1, h2, -⟩ := waiting_timer (waiting n) (envs2 (n + 7)) rfl
    rw [show n + 1 + 7 = n + 8 by omega, states2_next n h1]; exact h2

theorem steps2On (n : Nat) : ∃ d, (states2 (n + 7)).step p (envs2 (n + 7)) t (ops2 (n + 7)) = .ok (states2 (n + 8)) ∧ (states2 (n + 8)).out = (states2 (n + 7)).out ++ d ∧ NoReq d := by
  obtain ⟨m', d, h1, -, h2, h3⟩ := waiting_timer (waiting n) (envs2 (n + 7)) rfl
  rw [states2_next n h1]
  exact ⟨d, h1, h2, h3⟩

theorem steps2 : ∀ n, (states2 n).step p (envs2 n) t (ops2 n) = .ok (states2 (n + 1))
  | 0 => rfl
  | 1 => rfl
  | 2 => rfl
  | 3 => rfl
  | 4 => rfl
  | 5 => rfl
  | 6 => rfl
  | n + 7 => by obtain ⟨_, h, -⟩ := steps2On n; exact h

theorem ops2_far {n : Nat} (h : 7 ≤ n) : ops2 n = .timer := by
  obtain ⟨k, rfl⟩ := Nat.exists_eq_add_of_le h
  rw [Nat.add_comm]
  rfl

/-- C121: the execution meets the conditions of the theorem: filter headers and filters are missing at first, messages are lost, filters come in out of order. -/
theorem delivers : Delivers p t es states2 ops2 envs2 (.included 1) [2] where
  step := steps2
  fair n := fair_at _
  store n := rfl
  chain n r h := by
    match n with
    | 0 | 1 | 2 | 3 | 4 | 5 | 6 => simp [ops2] at h
    | n + 7 => rw [ops2_far (by omega)] at h; cases h
  peers
    | 0 | 1 | 2 | 3 | 4 | 5 | 6 => by rw [states2]; simp [asked, s1, s2, s3, s4, s5, s6]
    | n + 7 => by rw [(waiting n).2.2.1]; simp
  timer T n := ⟨n + T + 7, by omega, ops2_far (by omega), by simp only [envs2, at_]; omega⟩
  honest n a msg h := by
    match n with
    | 0 | 1 | 3 | 4 | 5 | 6 => simp [ops2] at h
    | 2 =>
      simp only [ops2, Op.cfheaders.injEq] at h
      obtain ⟨-, rfl⟩ := h
      exact ⟨1, 103, rfl, rfl, rfl, 3, rfl, by omega, rfl⟩
    | n + 7 => rw [ops2_far (by omega)] at h; cases h
  answered i k := by
    constructor
    · intro h
      obtain ⟨j, hj, d', a, h1, h2⟩ := h 7
      obtain ⟨n, rfl⟩ := Nat.exists_eq_add_of_le hj
      obtain ⟨d, -, h3, h4⟩ := steps2On n
      rw [show 7 + n = n + 7 by omega] at h1
      have : d' = d := List.append_cancel_left (h1.symm.trans h3)
      subst this
      exact absurd h2 (h4.1 a i k)
    · intro h
      obtain ⟨j, hj, a, msg, h1, -⟩ := h 7
      rw [ops2_far hj] at h1; cases h1
  start := rfl
  once n a b w h := by
    match n with
    | 0 | 1 | 2 | 3 | 4 | 5 => simp [ops2] at h
    | n + 6 => rw [ops2_far (by omega)] at h; cases h
  filters k h := by
    obtain ⟨j, hj, d', h1, h2⟩ := h 7
    obtain ⟨n, rfl⟩ := Nat.exists_eq_add_of_le hj
    obtain ⟨d, -, h3, h4⟩ := steps2On n
    rw [show 7 + n = n + 7 by omega] at h1
    have : d' = d := List.append_cancel_left (h1.symm.trans h3)
    subst this
    exact absurd h2 (h4.2 k)

/-- C121: the theorem applies to it. -/
example : ∃ n, ∀ j, n ≤ j → processedHeights (states2 j).out = [1, 2, 3] :=
  C121_rescan_arrives_partial es_chain (by decide) (by decide) (by decide) (by intro c h; cases h) ⟨es.tail, by rw [states2]; rfl⟩ (by rw [states2]; rfl)
    (by rw [states2]; exact ⟨.nil, by decide, by decide⟩)
    (fun k _ => by rw [states2]; exact ⟨rfl, rfl⟩) delivers

end Verif.Cbf.Scenario
