import Verif.Addr.Spec

/-!
# The outputs of the address manager are a log
-/

set_option autoImplicit false

namespace Verif.Addr

theorem populate_out {m m' : Mgr} {e : Env} {ip : Ip} (h : m.populate e ip = .ok m') : m'.out = m.out := by
  simp only [Mgr.populate] at h
  split at h
  · split at h <;> cases h
    rfl
  · cases h; rfl

theorem insertOne_out {m m' : Mgr} {cfg : Config} {e : Env} {time la : Nat} {src : Source} {a : NetAddr} (h : m.insertOne cfg e time src la a = .ok m') :
    m'.out = m.out := by
  unfold Mgr.insertOne at h
  repeat' split at h
  all_goals first | (cases h; rfl) | exact (populate_out h).trans rfl

theorem insertLoop_out {cfg : Config} {e : Env} {time : Nat} {src : Source} : ∀ {l : List (Nat × NetAddr)} {m m' : Mgr},
    m.insertLoop cfg e time src l = .ok m' → m'.out = m.out
  | [], m, m', h => by cases h; rfl
  | (t, a) :: l, m, m', h => by
    unfold Mgr.insertLoop at h
    split at h
    · rename_i m1 h1
      rw [insertLoop_out h, insertOne_out h1]
    · cases h
    · cases h

theorem insert_out {m m' : Mgr} {cfg : Config} {e : Env} {l : List (Nat × NetAddr)} {src : Source} (h : m.insert cfg e l src = .ok m') : m'.out = m.out := by
  unfold Mgr.insert at h
  split at h
  · cases h
  · exact insertLoop_out h

theorem update_out (m : Mgr) (ip : Ip) (f : Known → Known) : (m.update ip f).out = m.out := by
  unfold Mgr.update
  split <;> rfl

theorem ban_out {m m' : Mgr} {ip : Ip} (h : m.ban ip = .ok m') : m'.out = m.out := by
  simp only [Mgr.ban] at h
  split at h
  · cases h
  · split at h <;> (cases h; rfl)

theorem negotiate_out (m : Mgr) (now : Nat) (a : Sock) (services : Nat) (outbound : Bool) : m.out <+: (m.negotiate now a services outbound).out := by
  simp only [Mgr.negotiate]
  split
  · exact List.prefix_refl _
  · have h : (m.addSource outbound a).out = m.out := by unfold Mgr.addSource; split <;> rfl
    split
    · rw [h]; exact List.prefix_refl _
    · rw [update_out, ← h]
      unfold Mgr.askFirst
      split
      · exact List.prefix_append _ _
      · exact List.prefix_refl _

theorem timer_out {m m' : Mgr} {now : Nat} {saved : Bool} (h : m.timerExpired now saved = .ok m') : m.out <+: m'.out := by
  have i : ∀ m : Mgr, m.out <+: (if now - m.lastIdle.getD 0 ≥ idleTimeout then m.idle now saved else m).out := by
    intro m
    split
    · unfold Mgr.idle; rw [List.append_assoc]; exact List.prefix_append _ _
    · exact List.prefix_refl _
  simp only [Mgr.timerExpired] at h
  split at h
  · split at h
    · cases h
    · split at h
      · simp only [Res.ok.injEq] at h
        subst h
        refine List.IsPrefix.trans ?_ (i { m with out := m.out ++ [.exhausted] ++ m.sources.map .getAddr ++ [.timer requestTimeout], lastRequest := some now })
        rw [List.append_assoc, List.append_assoc]
        exact List.prefix_append _ _
      · simp only [Res.ok.injEq] at h; subst h; exact i m
  · simp only [Res.ok.injEq] at h; subst h; exact i m

/-- The outputs of the address manager are a log. -/
theorem step_out {cfg : Config} {m m' : Mgr} {op : Op} {c : Option (NetAddr × Source)} (h : m.step cfg op = .ok (c, m')) : m.out <+: m'.out := by
  have same : m'.out = m.out → m.out <+: m'.out := fun h => by rw [h]; exact List.prefix_refl _
  cases op with
  | importAddresses e l =>
    simp only [Mgr.step] at h
    split at h <;> cases h
    rename_i h1
    exact same (insert_out h1)
  | attempted now a => simp only [Mgr.step] at h; cases h; exact same (update_out _ _ _)
  | connected a => simp only [Mgr.step] at h; cases h; exact same (by unfold Mgr.peerConnected; split <;> rfl)
  | negotiated now a s o r =>
    simp only [Mgr.step] at h; cases h
    have h : (m.addLocal r).out = m.out := by unfold Mgr.addLocal; split <;> rfl
    unfold Mgr.peerNegotiated
    rw [← h]
    exact negotiate_out _ _ _ _ _
  | disconnected a r =>
    simp only [Mgr.step] at h
    split at h <;> cases h
    rename_i h1
    simp only [Mgr.peerDisconnected] at h1
    split at h1
    · split at h1
      · exact same ((ban_out h1).trans rfl)
      · exact same ((ban_out h1).trans rfl)
      · cases h1; exact same rfl
      · cases h1; exact same rfl
    · cases h1; exact same rfl
  | message e now a msg =>
    simp only [Mgr.step] at h
    split at h <;> cases h
    rename_i h1
    simp only [Mgr.messageReceived] at h1
    have hu := update_out m a.ip (fun ka => { ka with lastActive := some now })
    cases msg with
    | addr l =>
      simp only [Mgr.receivedAddr] at h1
      split at h1
      · cases h1; exact same hu
      · exact same ((insert_out h1).trans hu)
    | getAddr =>
      simp only [Mgr.receivedGetAddr] at h1
      split at h1 <;> cases h1
      rw [← hu]
      exact List.prefix_append _ _
    | other => cases h1; exact same hu
  | timer now saved =>
    simp only [Mgr.step] at h
    split at h <;> cases h
    rename_i h1
    exact timer_out h1
  | sample e pred =>
    simp only [Mgr.step, Mgr.sampleWith] at h
    split at h
    · cases h; exact same rfl
    · split at h
      · cases h
      · split at h <;> (cases h; try exact same rfl)

theorem steps_out {cfg : Config} {m m' : Mgr} {l : List Entry} (h : Steps cfg m l m') : m.out <+: m'.out := by
  induction h with
  | refl => exact List.prefix_refl _
  | step r f hs ih => exact ih.trans (step_out hs)

end Verif.Addr
