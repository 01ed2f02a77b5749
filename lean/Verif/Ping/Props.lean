import Verif.Ping.Model
import Mathlib.Data.List.Basic

/-!
# Ping manager: C34, C35
-/

set_option autoImplicit false

namespace Verif.Ping

/-! ## Specification: what happened, most recent first -/

/-- Observations. -/
inductive Obs where
  | negotiated (a : Nat)
  | disconnected (a : Nat)
  | sent (a nonce now : Nat)
  | pong (a nonce now : Nat)
  deriving DecidableEq, Repr

/-- The peer is connected: it was negotiated and not disconnected since. -/
def session (a : Nat) : List Obs → Bool
  | [] => false
  | .negotiated b :: l => if b = a then true else session a l
  | .disconnected b :: l => if b = a then false else session a l
  | _ :: l => session a l

/-- The ping that the peer has not answered: the last one sent in this session, unless a pong with its nonce arrived since. -/
def outstanding (a : Nat) : List Obs → Option (Nat × Nat)
  | [] => none
  | .negotiated b :: l => if b = a then none else outstanding a l
  | .disconnected b :: l => if b = a then none else outstanding a l
  | .sent b n t :: l => if b = a then some (n, t) else outstanding a l
  | .pong b n _ :: l =>
    if b = a then
      match outstanding a l with
      | some (n', s) => if n = n' then none else some (n', s)
      | none => none
    else outstanding a l

/-- When the last ping of this session was answered. -/
def answeredAt (a : Nat) : List Obs → Option Nat
  | [] => none
  | .negotiated b :: l => if b = a then none else answeredAt a l
  | .disconnected b :: l => if b = a then none else answeredAt a l
  | .sent _ _ _ :: l => answeredAt a l
  | .pong b n t :: l =>
    if b = a then
      match outstanding a l with
      | some (n', _) => if n = n' then some t else answeredAt a l
      | none => answeredAt a l
    else answeredAt a l

/-- The round trips of the answered pings of this session, most recent first. -/
def roundTrips (a : Nat) : List Obs → List Nat
  | [] => []
  | .negotiated b :: l => if b = a then [] else roundTrips a l
  | .disconnected b :: l => if b = a then [] else roundTrips a l
  | .sent _ _ _ :: l => roundTrips a l
  | .pong b n t :: l =>
    if b = a then
      match outstanding a l with
      | some (n', s) => if n = n' then (t - s) :: roundTrips a l else roundTrips a l
      | none => roundTrips a l
    else roundTrips a l

/-- Pings among outputs, as observations. -/
def sends (now : Nat) (o : List Out) : List Obs :=
  o.filterMap (fun | .ping a n => some (.sent a n now) | _ => none)

/-- What a call is observed as. -/
def Op.obs (now : Nat) : Op → List Obs
  | .negotiated a => [.negotiated a]
  | .disconnected a => [.disconnected a]
  | .pong a n => [.pong a n now]
  | _ => []

/-- Histories: any calls, clocks, nonces; hash maps are iterated in any order. -/
inductive Run (timeout : Nat) : List Obs → Mgr → Prop
  | init : Run timeout [] (Mgr.new timeout)
  | step {l : List Obs} {m : Mgr} (e : Env) (op : Op) (o : List Out) :
      Run timeout l m → (∀ ks, (e.order ks).Perm ks) → (m.step e op).out = m.out ++ o →
      Run timeout ((sends e.now o).reverse ++ (op.obs e.now ++ l)) (m.step e op)

/-! ## The state follows the observations -/

/-- The record of a peer according to the observations. -/
def expected (a : Nat) (l : List Obs) : Option Peer :=
  if session a l then
    some ⟨match outstanding a l with
      | some (n, s) => .awaitingPong n s
      | none => .idle ((answeredAt a l).getD 0), (roundTrips a l).take 64⟩
  else none

structure Inv (timeout : Nat) (l : List Obs) (m : Mgr) : Prop where
  timeout : m.timeout = timeout
  nodup : m.peers.keys.Nodup
  peers : ∀ a, m.peers.get a = expected a l
  gone : ∀ a, session a l = false → outstanding a l = none
  answered : ∀ a, session a l = true → outstanding a l = none → (answeredAt a l).isSome

/-- Outputs of the timer for one peer. -/
def outsOf (e : Env) (m : Mgr) (a : Nat) : List Out :=
  match m.peers.get a with
  | none => []
  | some p =>
    match p.state with
    | .awaitingPong _ since => if m.timeout ≤ e.now - since then [.disconnect a] else []
    | .idle since =>
      if pingInterval ≤ e.now - since then [.ping a (e.nonce a), .timer m.timeout, .timer pingInterval] else []

/-- The timer pings the peer. -/
def pings (e : Env) (m : Mgr) (a : Nat) : Bool :=
  match m.peers.get a with
  | none => false
  | some p =>
    match p.state with
    | .awaitingPong _ _ => false
    | .idle since => decide (pingInterval ≤ e.now - since)

theorem timerOne_spec (e : Env) (m : Mgr) (a : Nat) :
    (m.timerOne e a).out = m.out ++ outsOf e m a ∧ (m.timerOne e a).timeout = m.timeout ∧
    (m.peers.keys.Nodup → (m.timerOne e a).peers.keys.Nodup) ∧
    ∀ b, (m.timerOne e a).peers.get b =
      if b = a ∧ pings e m a = true then (m.peers.get a).map (fun p => { p with state := .awaitingPong (e.nonce a) e.now })
      else m.peers.get b := by
  unfold Mgr.timerOne outsOf pings
  cases hg : m.peers.get a with
  | none => simp
  | some p =>
    obtain ⟨st, ls⟩ := p
    cases st with
    | awaitingPong n s =>
      simp only
      split <;> simp
    | idle s =>
      simp only
      split
      · rename_i h
        refine ⟨rfl, rfl, fun hn => AMap.nodup_insert hn _ _, ?_⟩
        intro b
        simp only [AMap.get_insert, h, decide_true, and_true, Option.map_some]
        by_cases hb : a = b
        · simp [hb]
        · simp [hb, Ne.symm hb]
      · rename_i h
        simp [h]

theorem pings_congr (e : Env) {m m' : Mgr} {a : Nat} (h : m'.peers.get a = m.peers.get a) : pings e m' a = pings e m a := by
  unfold pings; rw [h]

theorem outsOf_congr (e : Env) {m m' : Mgr} {a : Nat} (h : m'.peers.get a = m.peers.get a) (ht : m'.timeout = m.timeout) :
    outsOf e m' a = outsOf e m a := by
  unfold outsOf; rw [h, ht]

theorem flatMap_congr' {f g : Nat → List Out} : ∀ (ks : List Nat) (_ : Unit), (∀ k ∈ ks, f k = g k) → ks.flatMap f = ks.flatMap g
  | [], _, _ => rfl
  | k :: ks, u, h => by
    rw [List.flatMap_cons, List.flatMap_cons, h k (by simp), flatMap_congr' ks u (fun x hx => h x (by simp [hx]))]

theorem timer_fold (e : Env) : ∀ (ks : List Nat) (m : Mgr), ks.Nodup →
    (ks.foldl (Mgr.timerOne e) m).out = m.out ++ ks.flatMap (outsOf e m) ∧
    (ks.foldl (Mgr.timerOne e) m).timeout = m.timeout ∧
    (m.peers.keys.Nodup → (ks.foldl (Mgr.timerOne e) m).peers.keys.Nodup) ∧
    ∀ b, (ks.foldl (Mgr.timerOne e) m).peers.get b =
      if b ∈ ks ∧ pings e m b = true then (m.peers.get b).map (fun p => { p with state := .awaitingPong (e.nonce b) e.now })
      else m.peers.get b
  | [], m, _ => by simp
  | a :: ks, m, hn => by
    rw [List.nodup_cons] at hn
    obtain ⟨o1, o2, o3, o4⟩ := timerOne_spec e m a
    obtain ⟨f1, f2, f3, f4⟩ := timer_fold e ks (m.timerOne e a) hn.2
    have hsame : ∀ b, b ≠ a → (m.timerOne e a).peers.get b = m.peers.get b := by
      intro b hb; rw [o4, if_neg (fun h => hb h.1)]
    simp only [List.foldl_cons]
    refine ⟨?_, by rw [f2, o2], fun h => f3 (o3 h), ?_⟩
    · rw [f1, o1, List.append_assoc, List.flatMap_cons]
      congr 2
      refine flatMap_congr' _ () ?_
      intro b hb
      exact outsOf_congr e (hsame b (fun h => hn.1 (h ▸ hb))) o2
    · intro b
      rw [f4]
      by_cases hb : b = a
      · subst hb
        rw [if_neg (fun h => hn.1 h.1), o4]
        simp
      · rw [hsame b hb, pings_congr e (hsame b hb)]
        simp [hb]

theorem session_sends (a : Nat) (l : List Obs) : ∀ S : List Obs, (∀ x ∈ S, ∃ b n t, x = .sent b n t) →
    session a (S ++ l) = session a l ∧ answeredAt a (S ++ l) = answeredAt a l ∧ roundTrips a (S ++ l) = roundTrips a l
  | [], _ => ⟨rfl, rfl, rfl⟩
  | x :: S, h => by
    obtain ⟨b, n, t, rfl⟩ := h x (by simp)
    obtain ⟨h1, h2, h3⟩ := session_sends a l S (fun y hy => h y (by simp [hy]))
    exact ⟨h1, h2, h3⟩

theorem outstanding_sends (a : Nat) (l : List Obs) (f : Nat → Nat) (now : Nat) : ∀ S : List Obs,
    (∀ x ∈ S, ∃ b, x = .sent b (f b) now) →
    outstanding a (S ++ l) = if .sent a (f a) now ∈ S then some (f a, now) else outstanding a l
  | [], _ => by simp
  | x :: S, h => by
    obtain ⟨b, rfl⟩ := h x (by simp)
    have ih := outstanding_sends a l f now S (fun y hy => h y (by simp [hy]))
    simp only [List.cons_append, outstanding]
    by_cases hb : b = a
    · subst hb; simp
    · rw [if_neg hb, ih]
      have : (Obs.sent a (f a) now ∈ Obs.sent b (f b) now :: S) ↔ Obs.sent a (f a) now ∈ S := by
        rw [List.mem_cons]
        constructor
        · rintro (h | h)
          · injection h with h1; exact absurd h1.symm hb
          · exact h
        · exact Or.inr
      simp only [this]

theorem mem_outsOf {e : Env} {m : Mgr} {a : Nat} {o : Out} (h : o ∈ outsOf e m a) :
    o = .disconnect a ∨ (pings e m a = true ∧ (o = .ping a (e.nonce a) ∨ ∃ d, o = .timer d)) := by
  unfold outsOf at h
  unfold pings
  split at h
  · cases h
  · split at h
    · split at h
      · simp at h; exact Or.inl h
      · cases h
    · split at h
      · rename_i hp
        simp only [List.mem_cons, List.not_mem_nil, or_false] at h
        refine Or.inr ⟨by simpa using hp, ?_⟩
        rcases h with rfl | rfl | rfl
        · exact Or.inl rfl
        · exact Or.inr ⟨_, rfl⟩
        · exact Or.inr ⟨_, rfl⟩
      · cases h

theorem ping_mem_outsOf {e : Env} {m : Mgr} {a : Nat} (h : pings e m a = true) : .ping a (e.nonce a) ∈ outsOf e m a := by
  unfold pings at h
  unfold outsOf
  split at h
  · cases h
  · split at h
    · cases h
    · rw [if_pos (by simpa using h)]; simp

theorem mem_sends {now : Nat} {o : List Out} {x : Obs} : x ∈ sends now o ↔ ∃ a n, x = .sent a n now ∧ .ping a n ∈ o := by
  unfold sends
  rw [List.mem_filterMap]
  constructor
  · rintro ⟨y, hy, h⟩
    cases y <;> simp at h
    rename_i p n
    exact ⟨p, n, h.symm, hy⟩
  · rintro ⟨a, n, rfl, h⟩
    exact ⟨_, h, rfl⟩

theorem inv_step {timeout : Nat} {l : List Obs} {m : Mgr} (hi : Inv timeout l m) (e : Env) (op : Op) (o : List Out)
    (hf : ∀ ks, (e.order ks).Perm ks) (ho : (m.step e op).out = m.out ++ o) :
    Inv timeout ((sends e.now o).reverse ++ (op.obs e.now ++ l)) (m.step e op) := by
  obtain ⟨i1, i2, i3, i4, i5⟩ := hi
  cases op with
  | negotiated a =>
    simp only [Mgr.step, Mgr.negotiated, List.append_cancel_left_eq] at ho
    subst ho
    have hl : (sends e.now [Out.ping a (e.nonce a)]).reverse ++ (Op.obs e.now (.negotiated a) ++ l) =
        .sent a (e.nonce a) e.now :: .negotiated a :: l := rfl
    rw [hl]
    refine ⟨i1, AMap.nodup_insert i2 _ _, ?_, ?_, ?_⟩
    · intro b
      simp only [Mgr.step, Mgr.negotiated, AMap.get_insert, expected, session, outstanding, roundTrips, answeredAt]
      by_cases hb : a = b
      · subst hb; simp
      · simp only [hb, if_false]; exact i3 b
    · intro b hb
      simp only [session, outstanding] at hb ⊢
      by_cases hab : a = b
      · simp [hab] at hb
      · simp only [hab, if_false] at hb ⊢; exact i4 b hb
    · intro b hb
      simp only [session, outstanding, answeredAt] at hb ⊢
      by_cases hab : a = b
      · simp [hab]
      · simp only [hab, if_false] at hb ⊢; exact i5 b hb
  | disconnected a =>
    have : o = [] := by simpa [Mgr.step] using ho
    subst this
    have hl : (sends e.now []).reverse ++ (Op.obs e.now (.disconnected a) ++ l) = .disconnected a :: l := rfl
    rw [hl]
    refine ⟨i1, AMap.nodup_erase i2 _, ?_, ?_, ?_⟩
    · intro b
      simp only [Mgr.step, AMap.get_erase, expected, session, outstanding, roundTrips, answeredAt]
      by_cases hb : a = b
      · subst hb; simp
      · simp only [hb, if_false]; exact i3 b
    · intro b hb
      simp only [session, outstanding] at hb ⊢
      by_cases hab : a = b
      · simp [hab]
      · simp only [hab, if_false] at hb ⊢; exact i4 b hb
    · intro b hb
      simp only [session, outstanding, answeredAt] at hb ⊢
      by_cases hab : a = b
      · simp [hab] at hb
      · simp only [hab, if_false] at hb ⊢; exact i5 b hb
  | ping a n =>
    have hs : sends e.now o = [] := by
      simp only [Mgr.step, Mgr.ping] at ho
      split at ho
      · simp at ho; subst ho; rfl
      · have : o = [] := by simpa using ho
        subst this; rfl
    have hl : (sends e.now o).reverse ++ (Op.obs e.now (.ping a n) ++ l) = l := by rw [hs]; rfl
    rw [hl]
    have hp : (m.step e (.ping a n)).peers = m.peers ∧ (m.step e (.ping a n)).timeout = m.timeout := by
      simp only [Mgr.step, Mgr.ping]; split <;> exact ⟨rfl, rfl⟩
    exact ⟨by rw [hp.2, i1], by rw [hp.1]; exact i2, by rw [hp.1]; exact i3, i4, i5⟩
  | pong a n =>
    have hs : o = [] := by
      simp only [Mgr.step, Mgr.pong] at ho
      split at ho
      · simpa using ho
      · split at ho
        · split at ho <;> simpa using ho
        · simpa using ho
    subst hs
    have hl : (sends e.now []).reverse ++ (Op.obs e.now (.pong a n) ++ l) = .pong a n e.now :: l := rfl
    rw [hl]
    have hga := i3 a
    -- everything about other peers is unchanged
    have hother : ∀ b, a ≠ b → expected b (.pong a n e.now :: l) = expected b l := by
      intro b hb
      simp only [expected, session, outstanding, roundTrips, answeredAt, hb, if_false]
    by_cases hses : session a l = true
    · cases hout : outstanding a l with
      | none =>
        have hex : expected a (.pong a n e.now :: l) = expected a l := by
          simp only [expected, session, outstanding, roundTrips, answeredAt, if_true, hout]
        have hm : m.step e (.pong a n) = m := by
          simp only [expected, hses, hout, if_true] at hga
          simp only [Mgr.step, Mgr.pong, hga]
        rw [hm]
        refine ⟨i1, i2, ?_, ?_, ?_⟩
        · intro b
          by_cases hb : a = b
          · subst hb; rw [hex]; exact hga
          · rw [hother b hb]; exact i3 b
        · intro b hb
          simp only [session, outstanding] at hb ⊢
          by_cases hab : a = b
          · subst hab; simp [hout]
          · simp only [hab, if_false] at hb ⊢; exact i4 b hb
        · intro b hb
          simp only [session, outstanding, answeredAt] at hb ⊢
          by_cases hab : a = b
          · subst hab; simp only [if_true, hout]; intro _; exact i5 a hb hout
          · simp only [hab, if_false] at hb ⊢; exact i5 b hb
      | some ns =>
        obtain ⟨n', s⟩ := ns
        simp only [expected, hses, hout, if_true] at hga
        by_cases hn : n = n'
        · subst hn
          have hm : m.step e (.pong a n) =
              { m with peers := m.peers.insert a ⟨.idle e.now, ((e.now - s) :: (roundTrips a l).take 64).take 64⟩ } := by
            simp only [Mgr.step, Mgr.pong, hga, if_true, Peer.record, maxLatencies]
          rw [hm]
          refine ⟨i1, AMap.nodup_insert i2 _ _, ?_, ?_, ?_⟩
          · intro b
            simp only [AMap.get_insert]
            by_cases hb : a = b
            · subst hb
              simp only [if_true, expected, session, hses, outstanding, roundTrips, answeredAt, hout, Option.getD_some]
              simp only [Option.some.injEq, Peer.mk.injEq, true_and]
              simp [List.take_take]
            · simp only [hb, if_false]; rw [hother b hb]; exact i3 b
          · intro b hb
            simp only [session, outstanding] at hb ⊢
            by_cases hab : a = b
            · subst hab; simp [hout]
            · simp only [hab, if_false] at hb ⊢; exact i4 b hb
          · intro b hb
            simp only [session, outstanding, answeredAt] at hb ⊢
            by_cases hab : a = b
            · subst hab; simp [hout]
            · simp only [hab, if_false] at hb ⊢; exact i5 b hb
        · have hm : m.step e (.pong a n) = m := by
            simp only [Mgr.step, Mgr.pong, hga, hn, if_false]
          rw [hm]
          refine ⟨i1, i2, ?_, ?_, ?_⟩
          · intro b
            by_cases hb : a = b
            · subst hb
              simp only [expected, session, hses, outstanding, roundTrips, hout, hn, if_true, if_false]
              exact hga
            · rw [hother b hb]; exact i3 b
          · intro b hb
            simp only [session, outstanding] at hb ⊢
            by_cases hab : a = b
            · subst hab; rw [hses] at hb; cases hb
            · simp only [hab, if_false] at hb ⊢; exact i4 b hb
          · intro b hb
            simp only [session, outstanding, answeredAt] at hb ⊢
            by_cases hab : a = b
            · subst hab; simp [hout, hn]
            · simp only [hab, if_false] at hb ⊢; exact i5 b hb
    · have hses' : session a l = false := by simpa using hses
      have hout := i4 a hses'
      have hm : m.step e (.pong a n) = m := by
        simp only [expected, hses', Bool.false_eq_true, if_false] at hga
        simp only [Mgr.step, Mgr.pong, hga]
      rw [hm]
      refine ⟨i1, i2, ?_, ?_, ?_⟩
      · intro b
        by_cases hb : a = b
        · subst hb; rw [hga]; simp [expected, session, hses']
        · rw [hother b hb]; exact i3 b
      · intro b hb
        simp only [session, outstanding] at hb ⊢
        by_cases hab : a = b
        · subst hab; simp [hout]
        · simp only [hab, if_false] at hb ⊢; exact i4 b hb
      · intro b hb
        simp only [session, outstanding, answeredAt] at hb ⊢
        by_cases hab : a = b
        · subst hab; rw [hses'] at hb; cases hb
        · simp only [hab, if_false] at hb ⊢; exact i5 b hb
  | timer =>
    have hnod : (e.order m.peers.keys).Nodup := (hf _).nodup_iff.2 i2
    obtain ⟨f1, f2, f3, f4⟩ := timer_fold e (e.order m.peers.keys) m hnod
    have hoe : o = (e.order m.peers.keys).flatMap (outsOf e m) := by
      have : (m.step e .timer).out = m.out ++ (e.order m.peers.keys).flatMap (outsOf e m) := f1
      rw [this] at ho
      exact (List.append_cancel_left ho).symm
    have hmem : ∀ a n, Obs.sent a n e.now ∈ (sends e.now o).reverse ↔ n = e.nonce a ∧ pings e m a = true := by
      intro a n
      rw [List.mem_reverse, mem_sends]
      constructor
      · rintro ⟨b, n', h1, h2⟩
        injection h1 with h1 h3
        subst h1 h3
        rw [hoe, List.mem_flatMap] at h2
        obtain ⟨k, _, hk⟩ := h2
        rcases mem_outsOf hk with h | ⟨hp, h | ⟨d, h⟩⟩
        · cases h
        · injection h with h1 h2; subst h1 h2; exact ⟨rfl, hp⟩
        · cases h
      · rintro ⟨rfl, hp⟩
        refine ⟨a, _, rfl, ?_⟩
        rw [hoe, List.mem_flatMap]
        refine ⟨a, (hf _).symm.subset ?_, ping_mem_outsOf hp⟩
        rw [← AMap.get_isSome_iff]
        unfold pings at hp
        split at hp
        · cases hp
        · rename_i h; simp [h]
    have hS : ∀ x ∈ (sends e.now o).reverse, ∃ b, x = .sent b (e.nonce b) e.now := by
      intro x hx
      obtain ⟨a, n, rfl, _⟩ := mem_sends.1 (List.mem_reverse.1 hx)
      have := (hmem a n).1 hx
      exact ⟨a, by rw [this.1]⟩
    have hl : (sends e.now o).reverse ++ (Op.obs e.now .timer ++ l) = (sends e.now o).reverse ++ l := rfl
    rw [hl]
    have hpin : ∀ b, pings e m b = true → b ∈ e.order m.peers.keys := by
      intro b hp
      refine (hf _).symm.subset ?_
      rw [← AMap.get_isSome_iff]
      unfold pings at hp
      split at hp
      · cases hp
      · rename_i h; simp [h]
    have hses : ∀ b, session b ((sends e.now o).reverse ++ l) = session b l ∧
        answeredAt b ((sends e.now o).reverse ++ l) = answeredAt b l ∧
        roundTrips b ((sends e.now o).reverse ++ l) = roundTrips b l := fun b =>
      session_sends b l _ (fun x hx => by obtain ⟨b, hb⟩ := hS x hx; exact ⟨_, _, _, hb⟩)
    have hout : ∀ b, outstanding b ((sends e.now o).reverse ++ l) =
        if pings e m b = true then some (e.nonce b, e.now) else outstanding b l := by
      intro b
      rw [outstanding_sends b l e.nonce e.now _ hS]
      simp only [hmem b, true_and]
    have hps : ∀ b, pings e m b = true → session b l = true := by
      intro b hp
      by_contra hc
      have hg := i3 b
      simp only [expected, hc, if_false] at hg
      simp [pings, hg] at hp
    refine ⟨by show (Mgr.timer e m).timeout = _; rw [Mgr.timer, f2, i1], f3 i2, ?_, ?_, ?_⟩
    · intro b
      show (Mgr.timer e m).peers.get b = _
      rw [Mgr.timer, f4]
      by_cases hp : pings e m b = true
      · rw [if_pos ⟨hpin b hp, hp⟩, i3 b]
        simp only [expected, (hses b).1, hout b, (hses b).2.2, hps b hp, hp, if_true, Option.map_some]
      · rw [if_neg (fun h => hp h.2), i3 b]
        simp only [expected, (hses b).1, hout b, (hses b).2.1, (hses b).2.2, hp]
        simp
    · intro b hb
      rw [(hses b).1] at hb
      have : ¬ pings e m b = true := fun h => by rw [hps b h] at hb; cases hb
      rw [hout b, if_neg this]
      exact i4 b hb
    · intro b hb ho
      rw [(hses b).1] at hb
      rw [hout b] at ho
      rw [(hses b).2.1]
      split at ho
      · cases ho
      · exact i5 b hb ho

theorem Run.inv {timeout : Nat} {l : List Obs} {m : Mgr} (h : Run timeout l m) : Inv timeout l m := by
  induction h with
  | init => exact ⟨rfl, List.nodup_nil, fun a => rfl, fun a _ => rfl, fun a h => by cases h⟩
  | step e op o _ hf ho ih => exact inv_step ih e op o hf ho

/-! ## Theorems -/

/-- C34, the timer.  In every history, when the timer fires: a peer is disconnected exactly if its outstanding ping is at least
the timeout old; a peer is pinged exactly if it is connected, has no outstanding ping and its last ping was answered at least
two minutes ago; each at most once. -/
theorem C34_timer {timeout : Nat} {l : List Obs} {m : Mgr} (h : Run timeout l m) (e : Env)
    (hf : ∀ ks, (e.order ks).Perm ks) :
    ∃ o, (m.step e .timer).out = m.out ++ o ∧
      (∀ a, Out.disconnect a ∈ o ↔ ∃ n s, outstanding a l = some (n, s) ∧ timeout ≤ e.now - s) ∧
      (∀ a n, Out.ping a n ∈ o ↔ n = e.nonce a ∧ session a l = true ∧ outstanding a l = none ∧
        ∃ t, answeredAt a l = some t ∧ 120000 ≤ e.now - t) ∧
      (∀ a, o.count (.disconnect a) ≤ 1) ∧ (∀ a n, o.count (.ping a n) ≤ 1) ∧ ∀ a n, Out.pong a n ∉ o := by
  obtain ⟨i1, i2, i3, i4, i5⟩ := h.inv
  have hnod : (e.order m.peers.keys).Nodup := (hf _).nodup_iff.2 i2
  obtain ⟨f1, f2, f3, f4⟩ := timer_fold e (e.order m.peers.keys) m hnod
  have hin : ∀ a p, m.peers.get a = some p → a ∈ e.order m.peers.keys := by
    intro a p hp
    refine (hf _).symm.subset ?_
    rw [← AMap.get_isSome_iff]; simp [hp]
  have hcount : ∀ (x : Out) (a : Nat), (∀ b, x ∈ outsOf e m b → b = a) → (outsOf e m a).count x ≤ 1 → ∀ ks : List Nat,
      ks.Nodup → (ks.flatMap (outsOf e m)).count x ≤ 1 := by
    intro x a hx h1 ks
    induction ks with
    | nil => simp
    | cons k ks ih =>
      intro hn
      rw [List.nodup_cons] at hn
      rw [List.flatMap_cons, List.count_append]
      by_cases hk : x ∈ outsOf e m k
      · have hka := hx k hk
        subst hka
        have : (ks.flatMap (outsOf e m)).count x = 0 := by
          rw [List.count_eq_zero, List.mem_flatMap]
          rintro ⟨b, hb, hxb⟩
          exact hn.1 (hx b hxb ▸ hb)
        omega
      · rw [List.count_eq_zero.2 hk]
        have := ih hn.2
        omega
  refine ⟨_, f1, ?_, ?_, ?_, ?_, ?_⟩
  · intro a
    rw [List.mem_flatMap]
    constructor
    · rintro ⟨b, _, hb⟩
      have hba : b = a := by
        rcases mem_outsOf hb with h | ⟨_, h | ⟨d, h⟩⟩
        · injection h with h; exact h.symm
        · cases h
        · cases h
      subst hba
      unfold outsOf at hb
      rw [i3 b, expected] at hb
      split at hb
      · cases hb
      · rename_i p hp
        split at hp
        · cases hp
          cases ho : outstanding b l with
          | none => simp only [ho] at hb; split at hb <;> simp at hb
          | some ns =>
            obtain ⟨n, s⟩ := ns
            simp only [ho] at hb
            split at hb
            · rename_i ht; exact ⟨n, s, rfl, by rw [← i1]; exact ht⟩
            · cases hb
        · cases hp
    · rintro ⟨n, s, ho, ht⟩
      have hses : session a l = true := by
        by_contra hc
        rw [i4 a (by simpa using hc)] at ho; cases ho
      have hg := i3 a
      simp only [expected, hses, ho, if_true] at hg
      refine ⟨a, hin a _ hg, ?_⟩
      unfold outsOf
      rw [hg]
      simp only [i1]
      rw [if_pos ht]; simp
  · intro a n
    rw [List.mem_flatMap]
    constructor
    · rintro ⟨b, _, hb⟩
      rcases mem_outsOf hb with h | ⟨hp, h | ⟨d, h⟩⟩
      · cases h
      · injection h with h1 h2
        subst h1 h2
        refine ⟨rfl, ?_⟩
        unfold pings at hp
        rw [i3 a, expected] at hp
        split at hp
        · cases hp
        · rename_i p hpp
          split at hpp
          · rename_i hses
            cases hpp
            cases ho : outstanding a l with
            | none =>
              obtain ⟨t, ht⟩ := Option.isSome_iff_exists.1 (i5 a hses ho)
              simp only [ho, ht, Option.getD_some, decide_eq_true_eq] at hp
              exact ⟨hses, rfl, t, ht, hp⟩
            | some ns => simp [ho] at hp
          · cases hpp
      · cases h
    · rintro ⟨rfl, hses, ho, t, ht, hd⟩
      have hg := i3 a
      simp only [expected, hses, ho, ht, if_true, Option.getD_some] at hg
      refine ⟨a, hin a _ hg, ?_⟩
      unfold outsOf
      rw [hg]
      simp only
      rw [if_pos (show pingInterval ≤ e.now - t from hd)]; simp
  · intro a
    refine hcount _ a ?_ ?_ _ hnod
    · intro b hb
      rcases mem_outsOf hb with h | ⟨_, h | ⟨d, h⟩⟩
      · injection h with h; exact h.symm
      · cases h
      · cases h
    · unfold outsOf
      split
      · simp
      · split
        · split <;> simp
        · split <;> simp
  · intro a n
    refine hcount _ a ?_ ?_ _ hnod
    · intro b hb
      rcases mem_outsOf hb with h | ⟨_, h | ⟨d, h⟩⟩
      · cases h
      · injection h with h; exact h.symm
      · cases h
    · unfold outsOf
      split
      · simp
      · split
        · split <;> simp
        · split
          · by_cases hn : e.nonce a = n
            · subst hn; simp
            · rw [List.count_cons_of_ne (by simpa using hn)]; simp
          · simp
  · intro a n hm
    rw [List.mem_flatMap] at hm
    obtain ⟨b, _, hb⟩ := hm
    rcases mem_outsOf hb with h | ⟨_, h | ⟨d, h⟩⟩ <;> cases h

/-- C34, the other calls: a new peer is pinged once; nothing else but the timer sends pings or disconnects. -/
theorem C34_others (m : Mgr) (e : Env) (op : Op) (hop : op ≠ .timer) :
    ∃ o, (m.step e op).out = m.out ++ o ∧ (∀ a, Out.disconnect a ∉ o) ∧
      ∀ a n, Out.ping a n ∈ o → op = .negotiated a := by
  cases op with
  | negotiated a => exact ⟨[_], rfl, by simp, by rintro b n h; simp at h; simp [h.1]⟩
  | disconnected a => exact ⟨[], by simp [Mgr.step], by simp, by simp⟩
  | ping a n =>
    simp only [Mgr.step, Mgr.ping]
    split
    · exact ⟨[_], rfl, by simp, by simp⟩
    · exact ⟨[], by simp, by simp, by simp⟩
  | pong a n =>
    refine ⟨[], ?_, by simp, by simp⟩
    simp only [Mgr.step, Mgr.pong, List.append_nil]
    split
    · rfl
    · split
      · split <;> rfl
      · rfl
  | timer => exact absurd rfl hop

/-- C34: pings never overlap.  Whenever a ping is sent to a peer, no earlier ping of the same session is outstanding. -/
theorem C34_one_outstanding {timeout : Nat} {l : List Obs} {m : Mgr} (h : Run timeout l m) (e : Env)
    (hf : ∀ ks, (e.order ks).Perm ks) (op : Op) (o : List Out) (ho : (m.step e op).out = m.out ++ o) (a n : Nat)
    (hp : Out.ping a n ∈ o) : outstanding a (op.obs e.now ++ l) = none := by
  by_cases hop : op = .timer
  · subst hop
    obtain ⟨o', h1, _, h3, _⟩ := C34_timer h e hf
    rw [h1] at ho
    have := List.append_cancel_left ho
    subst this
    exact ((h3 a n).1 hp).2.2.1
  · obtain ⟨o', h1, _, h3⟩ := C34_others m e op hop
    rw [h1] at ho
    have := List.append_cancel_left ho
    subst this
    have := h3 a n hp
    subst this
    simp [Op.obs, outstanding]

/-- C34: latencies.  In every history the latencies remembered for a peer are the last (at most 64) round trips of answered
pings of its session, and nothing is remembered for peers not connected. -/
theorem C34_latencies {timeout : Nat} {l : List Obs} {m : Mgr} (h : Run timeout l m) (a : Nat) :
    (m.peers.get a).map (·.latencies) = if session a l then some ((roundTrips a l).take 64) else none := by
  rw [h.inv.peers a, expected]
  split <;> simp

/-- C35.  In every history, a ping from a connected peer is answered exactly once with its nonce, one from anybody else is not
answered, and nothing else happens. -/
theorem C35_reply {timeout : Nat} {l : List Obs} {m : Mgr} (h : Run timeout l m) (e : Env) (a n : Nat) :
    m.step e (.ping a n) = { m with out := m.out ++ if session a l then [.pong a n] else [] } := by
  have hc : m.peers.contains a = session a l := by
    unfold AMap.contains
    rw [h.inv.peers a, expected]
    split <;> simp [*]
  simp only [Mgr.step, Mgr.ping, hc]
  split <;> simp

/-! ## Concrete runs -/

/-- At a given time, with the time as nonce. -/
def at_ (now : Nat) : Env := ⟨now, fun a => now + a, id⟩

/-- Several calls. -/
def runs : Mgr → List (Env × Op) → Mgr
  | m, [] => m
  | m, (e, op) :: ops => runs (m.step e op) ops

/-- Peer 7 answers its first ping and is pinged again after two minutes; peer 8 answers with a wrong nonce and is disconnected
after 30 seconds. -/
example : (runs (Mgr.new pingTimeout) [(at_ 0, .negotiated 7), (at_ 100, .negotiated 8), (at_ 200, .pong 7 7),
    (at_ 300, .pong 8 99), (at_ 30100, .timer), (at_ 30100, .disconnected 8), (at_ 120200, .timer)]).out =
    [.ping 7 7, .ping 8 108, .disconnect 8, .ping 7 120207, .timer 30000, .timer 120000] := by decide

/-- A history in which a ping is outstanding. -/
example : ∃ l m, Run 30000 l m ∧ outstanding 7 l = some (7, 0) ∧ session 7 l = true :=
  ⟨_, _, .step (at_ 0) (.negotiated 7) [.ping 7 7] .init (fun _ => List.Perm.refl _) rfl, by decide, by decide⟩

end Verif.Ping
