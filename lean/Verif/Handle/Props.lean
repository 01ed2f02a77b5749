import Verif.Handle.Spec

/-!
# The client handle: properties
-/

set_option autoImplicit false

namespace Verif.Handle
open Verif.Addr (Sock)

/-! ## C96: subscribers get every event -/

section Publish
variable {E T : Type} {forward : E → List T} {h : Hist E T} {m : Emitter T}

theorem foldl_emit_get (l : List T) (m : Emitter T) (i : Nat) : (l.foldl Emitter.emit m)[i]? = (m[i]?).map (fun c => l.foldl (fun c e => Chan.send e c) c) := by
  induction l generalizing m with
  | nil => simp
  | cons e l ih =>
    simp only [List.foldl_cons, ih, Emitter.emit, List.getElem?_map, Option.map_map]
    rfl

theorem send_all (c : Chan T) (hs : c.sender = true) (hr : c.receiver = true) (l : List T) :
    l.foldl (fun c e => Chan.send e c) c = { c with queue := c.queue ++ l } := by
  induction l generalizing c with
  | nil => simp
  | cons e l ih =>
    rw [List.foldl_cons, ih]
    · simp [Chan.send, hs, hr]
    · simp [Chan.send, hs, hr]
    · simp [Chan.send, hs, hr]

theorem send_none (c : Chan T) (h : (c.sender && c.receiver) = false) (l : List T) :
    (l.foldl (fun c e => Chan.send e c) c).queue = c.queue ∧ ((l.foldl (fun c e => Chan.send e c) c).sender && (l.foldl (fun c e => Chan.send e c) c).receiver) = false := by
  induction l generalizing c with
  | nil => exact ⟨rfl, h⟩
  | cons e l ih =>
    rw [List.foldl_cons]
    have hc : (Chan.send e c).queue = c.queue ∧ ((Chan.send e c).sender && (Chan.send e c).receiver) = false := by
      unfold Chan.send
      by_cases hs : c.sender = true
      · have hr : c.receiver = false := by simpa [hs] using h
        simp [hs, hr]
      · simp [hs]
    exact ⟨(ih _ hc.2).1.trans hc.1, (ih _ hc.2).2⟩

theorem change_get (m : Emitter T) (i j : Nat) (f : Chan T → Chan T) : (m.change i f)[j]? = if i = j then (m[j]?).map f else m[j]? := by
  unfold Emitter.change
  cases hi : m[i]? with
  | none =>
    by_cases hj : i = j
    · subst hj; simp [hi]
    · simp [hj]
  | some c =>
    have hlt : i < m.length := (List.getElem?_eq_some_iff.1 hi).1
    simp only [List.getElem?_set]
    by_cases hj : i = j
    · subst hj; simp [hlt, (List.getElem?_eq_some_iff.1 hi).2]
    · simp [hj]

theorem foldl_emit_length (l : List T) (m : Emitter T) : (l.foldl Emitter.emit m).length = m.length := by
  induction l generalizing m with
  | nil => rfl
  | cons e l ih => rw [List.foldl_cons, ih]; simp [Emitter.emit]

theorem change_length (m : Emitter T) (i : Nat) (f : Chan T → Chan T) : (m.change i f).length = m.length := by
  unfold Emitter.change
  split <;> simp

theorem run_length (r : Run forward h m) : m.length = subscriptions h := by
  induction r with
  | start => rfl
  | @step h m op r ih =>
    cases op with
    | subscribe => simp [Emitter.step, Emitter.subscribe, subscriptions, ih]
    | publish e => simpa only [Emitter.step, subscriptions, foldl_emit_length] using ih
    | recv i =>
      simp only [Emitter.step, subscriptions]
      split
      · simpa only [change_length] using ih
      · exact ih
    | drop i => simpa only [Emitter.step, subscriptions, change_length] using ih
    | close => simp [Emitter.step, Emitter.close, subscriptions, ih]

theorem got_recv (i j : Nat) (g : Got T) (h : Hist E T) : got i ((.recv j, some g) :: h) = match g with
    | .event e => if j = i then got i h ++ [e] else got i h
    | _ => got i h := by
  cases g <;> rfl

theorem got_other {i j : Nat} (hj : j ≠ i) (g : Got T) (h : Hist E T) : got i ((.recv j, some g) :: h) = got i h := by
  rw [got_recv]
  cases g <;> simp [hj]

/-- What the channel of subscription `i` has to do with the history. -/
structure ChanInv (forward : E → List T) (i : Nat) (h : Hist E T) (c : Chan T) : Prop where
  queue : got i h ++ c.queue = sent forward i h
  receiver : c.receiver = held i h
  sender : held i h = true → c.sender = live i h
  live : live i h = true → held i h = true

theorem quiet_before {i : Nat} (r : Run forward h m) (hi : subscriptions h ≤ i) : got i h = [] ∧ sent forward i h = [] ∧ held i h = false ∧ live i h = false := by
  induction r with
  | start => exact ⟨rfl, rfl, rfl, rfl⟩
  | @step h m op r ih =>
    have hle : subscriptions h ≤ i := by
      cases op <;> simp only [subscriptions] at hi <;> omega
    obtain ⟨h1, h2, h3, h4⟩ := ih hle
    cases op with
    | subscribe =>
      simp only [subscriptions] at hi
      have : i ≠ subscriptions h := by omega
      exact ⟨h1, h2, by simp [held, h3, this], by simp [live, h4, this]⟩
    | publish e => exact ⟨h1, by simp [sent, h2, h4], h3, h4⟩
    | recv j =>
      refine ⟨?_, h2, h3, h4⟩
      have hj := run_length r
      simp only [Emitter.step]
      cases hm : m[j]? with
      | none => simpa [got] using h1
      | some c =>
        have : j < m.length := (List.getElem?_eq_some_iff.1 hm).1
        have hne : j ≠ i := by omega
        simp only
        rw [got_other hne, h1]
    | drop j => exact ⟨h1, h2, by simp [held, h3], by simp [live, h4]⟩
    | close => exact ⟨h1, h2, h3, rfl⟩

theorem run_chan {i : Nat} {c : Chan T} (r : Run forward h m) (hc : m[i]? = some c) : ChanInv forward i h c := by
  induction r generalizing c with
  | start => simp at hc
  | @step h m op r ih =>
    cases op with
    | subscribe =>
      simp only [Emitter.step, Emitter.subscribe] at hc
      have hl := run_length r
      rcases Nat.lt_trichotomy i m.length with hi | hi | hi
      · rw [List.getElem?_append_left hi] at hc
        have v := ih hc
        have hne : i ≠ subscriptions h := by omega
        exact ⟨v.queue, by simp [held, hne, v.receiver], by simpa [held, live, hne] using v.sender, by simpa [held, live, hne] using v.live⟩
      · obtain ⟨h1, h2, h3, h4⟩ := quiet_before (i := i) r (by omega)
        rw [List.getElem?_append_right (by omega)] at hc
        simp only [hi, Nat.sub_self, List.getElem?_cons_zero, Option.some.injEq] at hc
        subst hc
        have he : i = subscriptions h := by omega
        exact ⟨by simp [got, sent, h1, h2], by simp [held, he], by simp [live, he], by simp [held, he]⟩
      · rw [List.getElem?_append_right (by omega)] at hc
        rw [List.getElem?_eq_none (by simp; omega)] at hc
        cases hc
    | publish e =>
      simp only [Emitter.step, foldl_emit_get] at hc
      obtain ⟨c0, h0, rfl⟩ := Option.map_eq_some_iff.1 hc
      have v := ih h0
      by_cases hl : live i h = true
      · have hh := v.live hl
        have hs := v.sender hh
        rw [send_all c0 (by rw [hs, hl]) (by rw [v.receiver, hh])]
        exact ⟨by simp [got, sent, hl, ← v.queue], by simpa [held] using v.receiver, by simpa [held, live] using v.sender, by simpa [held, live] using v.live⟩
      · have hoff : (c0.sender && c0.receiver) = false := by
          rw [v.receiver]
          cases hh : held i h with
          | false => simp
          | true => rw [v.sender hh]; simpa using hl
        obtain ⟨k1, k2⟩ := send_none c0 hoff (forward e)
        have krec : ∀ (l : List T) (c : Chan T), (l.foldl (fun c e => Chan.send e c) c).receiver = c.receiver := by
          intro l
          induction l with
          | nil => intro c; rfl
          | cons x l ihl => intro c; rw [List.foldl_cons, ihl]; unfold Chan.send; split <;> [split; skip] <;> rfl
        have ksend : ∀ (l : List T) (c : Chan T), c.sender = false → (l.foldl (fun c e => Chan.send e c) c).sender = false := by
          intro l
          induction l with
          | nil => intro c hc; exact hc
          | cons x l ihl => intro c hc; rw [List.foldl_cons]; refine ihl _ ?_; simp [Chan.send, hc]
        refine ⟨by simp [got, sent, hl, k1, v.queue], by rw [krec]; exact v.receiver, fun hh => ?_, v.live⟩
        have hh' : held i h = true := hh
        have : c0.sender = false := by rw [v.sender hh']; simpa using hl
        rw [ksend _ _ this]
        simpa [live] using hl
    | recv j =>
      simp only [Emitter.step] at hc ⊢
      cases hm : m[j]? with
      | none =>
        simp only [hm] at hc
        have v := ih hc
        exact ⟨v.queue, v.receiver, v.sender, v.live⟩
      | some cj =>
        simp only [hm, change_get] at hc ⊢
        by_cases hj : j = i
        · subst hj
          simp only [if_pos, hm, Option.map_some, Option.some.injEq] at hc
          subst hc
          have v := ih hm
          unfold Chan.recv
          cases hq : cj.queue with
          | nil =>
            refine ⟨?_, v.receiver, v.sender, v.live⟩
            have : got j h = sent forward j h := by have := v.queue; rw [hq] at this; simpa using this
            rw [got_recv]
            simp only [hq, sent, List.append_nil]
            split
            · rename_i e heq
              split at heq <;> cases heq
            · exact this
          | cons e q =>
            refine ⟨?_, v.receiver, v.sender, v.live⟩
            have := v.queue
            rw [hq] at this
            simpa [got, sent] using this
        · rw [if_neg hj] at hc
          have v := ih hc
          refine ⟨?_, v.receiver, v.sender, v.live⟩
          have : got i ((Op.recv j, some cj.recv.2) :: h) = got i h := by
            exact got_other hj _ _
          rw [this]
          exact v.queue
    | drop j =>
      simp only [Emitter.step, change_get] at hc
      by_cases hj : j = i
      · subst hj
        rw [if_pos rfl] at hc
        obtain ⟨c0, h0, rfl⟩ := Option.map_eq_some_iff.1 hc
        have v := ih h0
        exact ⟨v.queue, by simp [Chan.dropped, held], by simp [held], by simp [live]⟩
      · rw [if_neg hj] at hc
        have v := ih hc
        exact ⟨v.queue, by simp [held, hj, v.receiver], by simpa [held, live, hj] using v.sender, by simpa [held, live, hj] using v.live⟩
    | close =>
      simp only [Emitter.step, Emitter.close, List.getElem?_map] at hc
      obtain ⟨c0, h0, rfl⟩ := Option.map_eq_some_iff.1 hc
      have v := ih h0
      exact ⟨v.queue, v.receiver, by simp [live], by simp [live]⟩

/-- **C96.** What a subscriber got so far is the beginning of what was published since it subscribed: nothing is lost, repeated or out of order, whatever other subscribers do. -/
theorem C96_received (r : Run forward h m) (i : Nat) : got i h <+: sent forward i h := by
  cases hc : m[i]? with
  | some c => exact ⟨c.queue, (run_chan r hc).queue⟩
  | none =>
    have hl := run_length r
    have := List.getElem?_eq_none_iff.1 hc
    rw [(quiet_before (i := i) r (by omega)).1]
    exact List.nil_prefix

/-- **C96 (what comes next).** A subscriber that asks gets the next event published since it subscribed; when it has all, there is none, and the end of the channel is seen only if
the emitter was closed. -/
theorem C96_next (r : Run forward h m) {i : Nat} (hh : held i h = true) :
    (m.step forward (.recv i)).2 = some (match (sent forward i h)[(got i h).length]? with
      | some e => .event e
      | none => if live i h then .empty else .disconnected) := by
  cases hc : m[i]? with
  | none =>
    have hl := run_length r
    have := List.getElem?_eq_none_iff.1 hc
    rw [(quiet_before (i := i) r (by omega)).2.2.1] at hh
    cases hh
  | some c =>
    have v := run_chan r hc
    simp only [Emitter.step, hc, ← v.queue, Option.some.injEq]
    rw [List.getElem?_append_right (Nat.le_refl _), Nat.sub_self]
    unfold Chan.recv
    cases hq : c.queue with
    | nil => simp [v.sender hh]
    | cons e q => simp

end Publish

end Verif.Handle
