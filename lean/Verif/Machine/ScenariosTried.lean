import Verif.Machine.PropsTried
import Verif.Machine.ScenariosAddrs

/-!
# An address is tried in vain: a concrete execution
-/

set_option autoImplicit false

namespace Verif.Machine.Scenario.Book
open Verif.Addr (Sock Ip)
open Verif.Peer.Scenario (a b)
open Verif.Node.Crash (U)
open Relation (ReflTransGen)

/-- Nothing is announced and no handshake is reported. -/
def calm (s : State) : Input → Bool
  | .message _ _ (.addr _) => false
  | .next => match s.qPeer with | .evNegotiated _ _ :: _ => false | _ => true
  | _ => true

theorem calm_not {s : State} {i : Input} (h : calm s i = true) (ip : Ip) : ¬ Mentions ip s i := by
  rintro (⟨c, ok, l, t, na, sk, rfl, -⟩ | ⟨rfl, c, n, q, hq, -⟩)
  · cases h
  · simp [calm, hq] at h

def goesCalm : List Input → State → Option State
  | [], s => some s
  | i :: l, s => if calm s i then (take s i).bind (goesCalm l) else none

theorem goesCalm_path (ip : Ip) : ∀ {l : List Input} {s s' : State}, goesCalm l s = some s' → ReflTransGen (NextQuiet conf U false ip) s s'
  | [], s, s', h => by simp only [goesCalm, Option.some.injEq] at h; rw [← h]
  | i :: l, s, s', h => by
    simp only [goesCalm] at h
    split at h
    · rename_i hc
      obtain ⟨s1, h1, h2⟩ := Option.bind_eq_some_iff.1 h
      exact .head ⟨env, i, (take_ok h1).1, (take_ok h1).2, calm_not hc ip⟩ (goesCalm_path ip h2)
    · cases h

/-- Another address was drawn and dialed; that it is being dialed is reported next. -/
def dialing : List Input := linkUp ++ [.timer, .next, .next]

/-- The connection cannot be established; an hour passes, and it is time to look for connections. -/
def inVain : List Input := [.attempted b, .disconnected b .dial] ++ List.replicate 10 .next ++ [.tick 1700007700000, .timer] ++ List.replicate 10 .next

def isConnecting (c : Sock) : List Peer.Out → Bool
  | .evConnecting d _ _ :: _ => d == c
  | _ => false

def unmet (c : Sock) (l : List Peer.Out) : Bool := l.all fun o => match o with | .evNegotiated d _ => decide (d.ip ≠ c.ip) | _ => true

theorem tried_again : ((after dialing).bind fun s => (take s .next).bind fun s' => (goesCalm inVain s').bind fun s1 => (take s1 (.connect b)).map fun s2 =>
    (isConnecting b s.qPeer, unmet b s.taken, (dialed s1).filter (· == b) == [b], decide (.connect b ∈ Peer.added s1.peer s2.peer))) = some (true, true, true, true) := by decide +kernel

/-- The hypotheses of `C133_machine` are met: an address is dialed in vain; an hour later it is not dialed by itself, but it is when the user asks for it. -/
example : ∃ is hist s s' s1 s2 so sv q, Run conf U false anyStep setup is hist s ∧ s.qPeer = .evConnecting b so sv :: q ∧ Addr.Sound setup.book ∧
    (∀ ka, setup.book.get b.ip = some ka → ka.lastSuccess = none) ∧ (∀ c n, .evNegotiated c n ∈ s.taken → c.ip ≠ b.ip) ∧ Legal U false env .next ∧ s.step conf env .next = .ok s' ∧
    ReflTransGen (NextQuiet conf U false b.ip) s' s1 ∧ Legal U false env (.connect b) ∧ s1.step conf env (.connect b) = .ok s2 ∧ .connect b ∈ Peer.added s1.peer s2.peer := by
  obtain ⟨s, h1, h2⟩ := Option.bind_eq_some_iff.1 tried_again
  obtain ⟨s', h3, h4⟩ := Option.bind_eq_some_iff.1 h2
  obtain ⟨s1, h5, h6⟩ := Option.bind_eq_some_iff.1 h4
  obtain ⟨s2, h7, h8⟩ := Option.map_eq_some_iff.1 h6
  simp only [Prod.mk.injEq, decide_eq_true_eq] at h8
  obtain ⟨is, hist, r⟩ := after_run h1
  have hq : ∃ so sv q, s.qPeer = .evConnecting b so sv :: q := by
    cases hq : s.qPeer with
    | nil => rw [hq] at h8; simp [isConnecting] at h8
    | cons o q =>
      rw [hq] at h8
      cases o with
      | evConnecting d so sv =>
        have : d = b := by simpa [isConnecting] using h8.1
        subst this
        exact ⟨so, sv, q, rfl⟩
      | _ => simp [isConnecting] at h8
  obtain ⟨so, sv, q, hq⟩ := hq
  refine ⟨is, hist, s, s', s1, s2, so, sv, q, r, hq, Addr.Scenario.book_sound, by decide, fun c n hm => ?_, (take_ok h3).1, (take_ok h3).2, goesCalm_path b.ip h5, (take_ok h7).1, (take_ok h7).2,
    h8.2.2.2⟩
  have := List.all_eq_true.1 h8.2.1 _ hm
  simpa using this

end Verif.Machine.Scenario.Book
