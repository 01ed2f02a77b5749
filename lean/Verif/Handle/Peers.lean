import Verif.Handle.Waits
import Verif.Peer.PropsLimits
import Verif.Peer.PropsHandshake
import Verif.Peer.PropsNet
import Mathlib.Data.List.Sublists

/-!
# The client handle: waiting for peers, connecting, disconnecting
-/

set_option autoImplicit false

namespace Verif.Handle
open Verif.Addr (Sock Ip)
open Verif.Peer (Link Net)

/-! ## C98: waiting for peers -/

section Peers
variable {cfg : Peer.Config} {tr : List Ip} {h0 l l1 l2 : List Peer.Op} {m0 m mq : Peer.Mgr} {outs o1 o2 : List Peer.Out}
variable {count required timeout : Nat} {closed : Option Nat} {feed : List (Nat × Ev)} {answer : List Known}

theorem Steps.run (r0 : Peer.Run cfg tr h0 m0) (r : Steps cfg m0 l outs m) : Peer.Run cfg tr (l ++ h0) m := by
  induction r with
  | start => exact r0
  | step r lg e ih => exact .step ih lg e

theorem Steps.append (r1 : Steps cfg m0 l1 o1 mq) (r2 : Steps cfg mq l2 o2 m) : Steps cfg m0 (l2 ++ l1) (o1 ++ o2) m := by
  induction r2 with
  | start => simpa using r1
  | step r lg e ih => rw [← List.append_assoc]; exact .step ih lg e

theorem steps_output {o : Peer.Out} (r : Steps cfg m0 l outs m) (ho : o ∈ outs) :
    ∃ l1 op o1 m1 m2, op :: l1 <:+ l ∧ Steps cfg m0 l1 o1 m1 ∧ op.Legal ∧ m1.step cfg op = .ok m2 ∧ o ∈ Peer.added m1 m2 := by
  induction r with
  | start => simp at ho
  | @step l outs m m' op r lg e ih =>
    rcases List.mem_append.1 ho with ho | ho
    · obtain ⟨l1, op', a, b, c, h1, h2⟩ := ih ho
      exact ⟨l1, op', a, b, c, h1.trans (List.suffix_cons _ _), h2⟩
    · exact ⟨l, op, outs, m, m', List.suffix_refl _, r, lg, e, ho⟩

theorem mem_versioned {m : Peer.Mgr} {i : Peer.Info} {c : Peer.Conn} (h : (i, c) ∈ m.versioned) : ∃ a, (a, Peer.Peer.connected c (some i)) ∈ m.peers := by
  unfold Peer.Mgr.versioned at h
  obtain ⟨⟨a, p⟩, h1, h2⟩ := List.mem_filterMap.1 h
  cases p with
  | connected c' i' =>
    cases i' with
    | none => simp [Peer.Peer.versioned] at h2
    | some i' =>
      simp only [Peer.Peer.versioned, Option.some.injEq, Prod.mk.injEq] at h2
      obtain ⟨rfl, rfl⟩ := h2
      exact ⟨a, h1⟩
  | _ => simp [Peer.Peer.versioned] at h2

/-- The peers that are listed completed the handshake. -/
theorem getPeers_negotiated (r : Peer.Run cfg tr h0 m) {p : Known} (hp : p ∈ getPeers m required) :
    Negotiated cfg tr h0 p ∧ Addr.has p.2.2 required = true := by
  unfold getPeers at hp
  obtain ⟨⟨i, c⟩, h1, rfl⟩ := List.mem_map.1 hp
  obtain ⟨h1, h2⟩ := List.mem_filter.1 h1
  simp only [Bool.and_eq_true] at h2
  obtain ⟨a, ha⟩ := mem_versioned h1
  obtain ⟨hc, s, hs, mt⟩ := (Peer.run_inv r).sess a c (some i) (AMap.get_of_mem (Peer.run_list r).nodup ha)
  subst hc
  refine ⟨?_, h2.2⟩
  cases s with
  | none => exact mt.elim
  | some s =>
    obtain ⟨e1, e2, -, -, -, -, -, -, -, e3, -⟩ := mt
    exact ⟨c.link, s, hs, by rw [← e3]; exact h2.1, by simp only [e1, e2]⟩

theorem addrs_sublist (q : Peer.Info × Peer.Conn → Bool) : ∀ (l : AMap Sock Peer.Peer), (∀ a c i, (a, Peer.Peer.connected c (some i)) ∈ l → c.addr = a) →
    List.Sublist (((l.filterMap (fun p => p.2.versioned)).filter q).map (fun p => p.2.addr)) (l.map (·.1))
  | [], _ => by simp
  | (a, p) :: l, h => by
    have ih := addrs_sublist q l (fun a c i hm => h a c i (List.mem_cons_of_mem _ hm))
    cases hv : p.versioned with
    | none =>
      rw [List.filterMap_cons_none (by simpa using hv)]
      exact ih.trans (List.sublist_cons_self _ _)
    | some v =>
      rw [List.filterMap_cons_some (b := v) (by simpa using hv)]
      by_cases hq : q v = true
      · rw [List.filter_cons_of_pos hq]
        simp only [List.map_cons]
        have : v.2.addr = a := by
          cases p with
          | connected c i =>
            cases i with
            | none => simp [Peer.Peer.versioned] at hv
            | some i =>
              simp only [Peer.Peer.versioned, Option.some.injEq] at hv
              subst hv
              exact h a c i List.mem_cons_self
          | _ => simp [Peer.Peer.versioned] at hv
        rw [this]
        exact ih.cons_cons _
      · rw [List.filter_cons_of_neg hq]
        exact ih.trans (List.sublist_cons_self _ _)

/-- No peer is listed twice. -/
theorem getPeers_nodup (r : Peer.Run cfg tr h0 m) : ((getPeers m required).map (·.1)).Nodup := by
  have hn := (Peer.run_list r).nodup
  unfold getPeers
  rw [List.map_map]
  refine List.Nodup.sublist (addrs_sublist _ m.peers fun a c i hm => ?_) hn
  exact ((Peer.run_inv r).sess a c (some i) (AMap.get_of_mem hn hm)).1

theorem foldl_insert (l : List Known) : ∀ (k : AMap Sock (Nat × Nat)), (k.keys).Nodup → (l.map (·.1)).Nodup → (∀ p ∈ l, p.1 ∉ k.keys) →
    (l.foldl (fun (m : AMap Sock (Nat × Nat)) p => m.insert p.1 p.2) k).keys.Nodup ∧
    (l.foldl (fun (m : AMap Sock (Nat × Nat)) p => m.insert p.1 p.2) k).length = k.length + l.length ∧
    ∀ p, p ∈ l.foldl (fun (m : AMap Sock (Nat × Nat)) p => m.insert p.1 p.2) k ↔ p ∈ k ∨ p ∈ l := by
  induction l with
  | nil => intro k hk _ _; simpa using hk
  | cons q l ih =>
    intro k hk hn hd
    have hq := hd q List.mem_cons_self
    simp only [List.map_cons, List.nodup_cons] at hn
    obtain ⟨h1, h2, h3⟩ := ih (k.insert q.1 q.2) (AMap.nodup_insert hk _ _) hn.2 (fun p hp hm => by
      rw [AMap.mem_keys_insert] at hm
      rcases hm with hm | hm
      · exact hn.1 (List.mem_map.2 ⟨p, hp, hm⟩)
      · exact hd p (List.mem_cons_of_mem _ hp) hm)
    refine ⟨h1, ?_, fun p => ?_⟩
    · rw [List.foldl_cons, h2, AMap.length_insert_new hq]; simp only [List.length_cons]; omega
    · rw [List.foldl_cons, h3]
      have : k.insert q.1 q.2 = q :: k := by
        unfold AMap.insert; rw [AMap.erase_eq_self hq]
      rw [this]
      simp only [List.mem_cons]
      tauto

theorem mem_insert {k : AMap Sock (Nat × Nat)} {a : Sock} {v : Nat × Nat} {p : Known} (h : p ∈ k.insert a v) : p = (a, v) ∨ p ∈ k := by
  unfold AMap.insert at h
  rcases List.mem_cons.1 h with h | h
  · exact .inl h
  · exact .inr (List.mem_of_mem_filter h)

theorem onNegotiated_cases (known : AMap Sock (Nat × Nat)) (e : Ev) :
    onNegotiated count required known e = (known, none) ∨
    (∃ a height services, e = .negotiated a height services ∧ Addr.has services required = false ∧
      onNegotiated count required known e = (known, if known.length = count then some known else none)) ∨
    ∃ a height services, e = .negotiated a height services ∧ Addr.has services required = true ∧
      onNegotiated count required known e =
        (known.insert a (height, services), if (known.insert a (height, services)).length = count then some (known.insert a (height, services)) else none) := by
  cases e with
  | negotiated a height services =>
    cases hs : Addr.has services required with
    | true => exact .inr (.inr ⟨a, height, services, rfl, hs, by simp [onNegotiated, hs]⟩)
    | false => exact .inr (.inl ⟨a, height, services, rfl, hs, by simp [onNegotiated, hs]⟩)
  | _ => exact .inl rfl

theorem wait_sound {l : List Known} : ∀ (feed : List (Nat × Ev)) (known : AMap Sock (Nat × Nat)), known.keys.Nodup →
    wait (onNegotiated count required) timeout closed known feed = .ok l →
    l.length = count ∧ (l.map (·.1)).Nodup ∧ ∀ p ∈ l, p ∈ known ∨
      (Addr.has p.2.2 required = true ∧ ∃ t ≤ timeout, (t, Ev.negotiated p.1 p.2.1 p.2.2) ∈ feed)
  | [], known, _, hw => by
    unfold wait at hw
    split at hw
    · split at hw <;> simp at hw
    · simp at hw
  | (t, e) :: feed, known, hn, hw => by
    unfold wait at hw
    by_cases ht : t ≤ timeout
    · rw [if_pos ht] at hw
      have more : ∀ known', known'.keys.Nodup → (∀ p ∈ known', p ∈ known ∨ (Addr.has p.2.2 required = true ∧ e = Ev.negotiated p.1 p.2.1 p.2.2)) →
          wait (onNegotiated count required) timeout closed known' feed = .ok l → l.length = count ∧ (l.map (·.1)).Nodup ∧ ∀ p ∈ l, p ∈ known ∨
            (Addr.has p.2.2 required = true ∧ ∃ t' ≤ timeout, (t', Ev.negotiated p.1 p.2.1 p.2.2) ∈ (t, e) :: feed) := by
        intro known' hn' hk hw'
        obtain ⟨h1, h2, h3⟩ := wait_sound feed known' hn' hw'
        refine ⟨h1, h2, fun p hp => ?_⟩
        rcases h3 p hp with h4 | ⟨h4, t', h5, h6⟩
        · rcases hk p h4 with h4 | ⟨h4, rfl⟩
          · exact .inl h4
          · exact .inr ⟨h4, t, ht, List.mem_cons_self⟩
        · exact .inr ⟨h4, t', h5, List.mem_cons_of_mem _ h6⟩
      rcases onNegotiated_cases (count := count) (required := required) known e with h1 | ⟨a, hh, sv, rfl, hs, h1⟩ | ⟨a, hh, sv, rfl, hs, h1⟩
      · rw [h1] at hw
        exact more known hn (fun p hp => .inl hp) hw
      · rw [h1] at hw
        by_cases hc : known.length = count
        · simp only [hc, if_true, Res.ok.injEq] at hw
          subst hw
          exact ⟨hc, hn, fun p hp => .inl hp⟩
        · simp only [hc, if_false] at hw
          exact more known hn (fun p hp => .inl hp) hw
      · rw [h1] at hw
        have hk : ∀ p ∈ known.insert a (hh, sv), p ∈ known ∨ (Addr.has p.2.2 required = true ∧ Ev.negotiated a hh sv = Ev.negotiated p.1 p.2.1 p.2.2) := by
          intro p hp
          rcases mem_insert hp with rfl | hp
          · exact .inr ⟨hs, rfl⟩
          · exact .inl hp
        by_cases hc : (known.insert a (hh, sv)).length = count
        · simp only [hc, if_true, Res.ok.injEq] at hw
          subst hw
          refine ⟨hc, AMap.nodup_insert hn _ _, fun p hp => ?_⟩
          rcases hk p hp with h4 | ⟨h4, h5⟩
          · exact .inl h4
          · exact .inr ⟨h4, t, ht, by rw [h5]; exact List.mem_cons_self⟩
        · simp only [hc, if_false] at hw
          exact more _ (AMap.nodup_insert hn _ _) hk hw
    · rw [if_neg ht] at hw; simp at hw

/-- **C98.** If `wait_for_peers` returns, then with the requested number of different peers; each has the required services and had completed the handshake of its
present connection at some moment since the call, with the height and services returned.  The call was made after the history `h0`, the peers were queried
after `l1`, and then `l2` followed. -/
theorem C98_peers (r0 : Peer.Run cfg tr h0 m0) (r1 : Steps cfg m0 l1 o1 mq) (r2 : Steps cfg mq l2 o2 m) (hf : Only Ev.IsNegotiated (o1 ++ o2) feed)
    {l : List Known} (hw : waitForPeers count required (getPeers mq required) timeout closed feed = .ok l) :
    l.length = count ∧ (l.map (·.1)).Nodup ∧
    ∀ p ∈ l, Addr.has p.2.2 required = true ∧ ∃ l' outs' m', l' <:+ l2 ++ l1 ∧ Steps cfg m0 l' outs' m' ∧ Negotiated cfg tr (l' ++ h0) p := by
  have hn := getPeers_nodup (required := required) (r1.run r0)
  have old : ∀ p ∈ getPeers mq required, Addr.has p.2.2 required = true ∧
      ∃ l' outs' m', l' <:+ l2 ++ l1 ∧ Steps cfg m0 l' outs' m' ∧ Negotiated cfg tr (l' ++ h0) p := fun p hp => by
    obtain ⟨h1, h2⟩ := getPeers_negotiated (r1.run r0) hp
    exact ⟨h2, l1, o1, mq, List.suffix_append _ _, r1, h1⟩
  unfold waitForPeers at hw
  by_cases hc : (getPeers mq required).length = count
  · rw [if_pos hc] at hw
    cases hw
    exact ⟨hc, hn, old⟩
  · rw [if_neg hc] at hw
    obtain ⟨k1, -, k2⟩ := foldl_insert (getPeers mq required) [] List.nodup_nil hn (by simp [AMap.keys])
    obtain ⟨h1, h2, h3⟩ := wait_sound feed _ k1 hw
    refine ⟨h1, h2, fun p hp => ?_⟩
    rcases h3 p hp with h4 | ⟨h4, t, -, h5⟩
    · exact old p (((k2 p).1 h4).resolve_left (by simp))
    · refine ⟨h4, ?_⟩
      obtain ⟨o, ho, he⟩ := List.mem_filterMap.1 (hf _ h5 ⟨_, _, _, rfl⟩)
      obtain ⟨l', op, outs', m1, m2, f1, f2, f3, f4, f5⟩ := steps_output (r1.append r2) ho
      cases o <;> simp only [Ev.ofPeer, Option.some.injEq, reduceCtorEq] at he
      rename_i a n
      obtain ⟨rfl, hh, hsv⟩ := Ev.negotiated.inj he
      obtain ⟨⟨height, hook, rfl⟩, link, s, g, hv, hr⟩ := Peer.C44_negotiated_partial (f2.run r0) f4 f5
      refine ⟨_, _, m2, f1, .step f2 f3 f4, link, { s with verack := true }, Peer.Session.verack g, rfl, ?_⟩
      rw [hr] at hh hsv
      exact Prod.ext hh.symm hsv.symm

theorem wait_complete {as : List Sock} (hd : as.Nodup) (hl : count ≤ as.length) : ∀ (feed : List (Nat × Ev)) (known : AMap Sock (Nat × Nat)), known.keys.Nodup →
    known.length < count →
    (∀ a ∈ as, a ∈ known.keys ∨ ∃ t height services, (t, Ev.negotiated a height services) ∈ feed.takeWhile (fun p => decide (p.1 ≤ timeout)) ∧ Addr.has services required = true) →
    ∃ l, wait (onNegotiated count required) timeout closed known feed = .ok l := by
  have stuck : ∀ known : AMap Sock (Nat × Nat), known.length < count → ¬ ∀ a ∈ as, a ∈ known.keys := by
    intro known hk hs
    have := (List.subperm_of_subset hd hs).length_le
    simp only [AMap.keys, List.length_map] at this
    omega
  intro feed
  induction feed with
  | nil =>
    intro known hn hk hs
    exact (stuck known hk fun a ha => (hs a ha).resolve_right (by simp)).elim
  | cons q feed ih =>
    intro known hn hk hs
    obtain ⟨t, e⟩ := q
    by_cases ht : t ≤ timeout
    · unfold wait
      rw [if_pos ht]
      simp only [List.takeWhile_cons, ht, decide_true, if_true, List.mem_cons, Prod.mk.injEq] at hs
      rcases onNegotiated_cases (count := count) (required := required) known e with h1 | ⟨a, hh, sv, rfl, hsv, h1⟩ | ⟨a, hh, sv, rfl, hsv, h1⟩
      · rw [h1]
        refine ih known hn hk fun a ha => ?_
        rcases hs a ha with h2 | ⟨t', height, services, ⟨-, he⟩ | h2, h3⟩
        · exact .inl h2
        · subst he
          simp [onNegotiated, h3] at h1
          left
          rw [← h1.1]
          exact (AMap.mem_keys_insert _ _ _ _).2 (.inl rfl)
        · exact .inr ⟨t', height, services, h2, h3⟩
      · rw [h1]
        simp only [show ¬ known.length = count by omega, if_false]
        refine ih known hn hk fun b hb => ?_
        rcases hs b hb with h2 | ⟨t', height, services, ⟨-, he⟩ | h2, h3⟩
        · exact .inl h2
        · cases he
          rw [hsv] at h3; simp at h3
        · exact .inr ⟨t', height, services, h2, h3⟩
      · rw [h1]
        by_cases hc : (known.insert a (hh, sv)).length = count
        · exact ⟨known.insert a (hh, sv), by simp only [hc, if_true]⟩
        · simp only [hc, if_false]
          have hlt : (known.insert a (hh, sv)).length < count := by
            have : (known.insert a (hh, sv)).length ≤ known.length + 1 := by
              unfold AMap.insert AMap.erase
              simp only [List.length_cons]
              exact Nat.succ_le_succ (List.length_filter_le _ _)
            omega
          refine ih _ (AMap.nodup_insert hn _ _) hlt fun b hb => ?_
          rcases hs b hb with h2 | ⟨t', height, services, ⟨-, he⟩ | h2, h3⟩
          · exact .inl ((AMap.mem_keys_insert _ _ _ _).2 (.inr h2))
          · cases he
            exact .inl ((AMap.mem_keys_insert _ _ _ _).2 (.inl rfl))
          · exact .inr ⟨t', height, services, h2, h3⟩
    · refine (stuck known hk fun a ha => (hs a ha).resolve_right ?_).elim
      simp [ht]

/-- **C98 (success).** If not too many peers are connected at first, and enough different peers with the services are connected at first or reported in time, the call
succeeds.  (Missing: more peers than requested at first; then the call always fails, see `C98_too_many`.) -/
theorem C98_enough_partial (r : Peer.Run cfg tr h0 m) (hc : (getPeers m required).length ≤ count) {as : List Sock} (hd : as.Nodup) (hl : count ≤ as.length)
    (ha : ∀ a ∈ as, (∃ p ∈ getPeers m required, p.1 = a) ∨
      ∃ t height services, (t, Ev.negotiated a height services) ∈ feed.takeWhile (fun p => decide (p.1 ≤ timeout)) ∧ Addr.has services required = true) :
    ∃ l, waitForPeers count required (getPeers m required) timeout closed feed = .ok l := by
  unfold waitForPeers
  by_cases he : (getPeers m required).length = count
  · rw [if_pos he]; exact ⟨_, rfl⟩
  · rw [if_neg he]
    obtain ⟨k1, k2, k3⟩ := foldl_insert (getPeers m required) [] List.nodup_nil (getPeers_nodup r) (by simp [AMap.keys])
    refine wait_complete hd hl feed _ k1 (by rw [k2]; simp only [List.length_nil]; omega) fun a hm => ?_
    rcases ha a hm with ⟨p, hp, rfl⟩ | h
    · exact .inl (List.mem_map.2 ⟨p, (k3 p).2 (.inr hp), rfl⟩)
    · exact .inr h

theorem wait_more : ∀ (feed : List (Nat × Ev)) (known : AMap Sock (Nat × Nat)), known.keys.Nodup → count < known.length →
    ∀ l, wait (onNegotiated count required) timeout closed known feed ≠ .ok l
  | [], known, _, _, l => by
    unfold wait
    split
    · split <;> simp
    · simp
  | (t, e) :: feed, known, hn, hk, l => by
    unfold wait
    by_cases ht : t ≤ timeout
    · rw [if_pos ht]
      rcases onNegotiated_cases (count := count) (required := required) known e with h1 | ⟨a, hh, sv, rfl, hsv, h1⟩ | ⟨a, hh, sv, rfl, hsv, h1⟩
      · rw [h1]; exact wait_more feed known hn hk l
      · rw [h1]
        simp only [show ¬ known.length = count by omega, if_false]
        exact wait_more feed known hn hk l
      · rw [h1]
        have hlt : count < (known.insert a (hh, sv)).length := by
          have h2 : ∀ x ∈ known.keys, x ∈ (known.insert a (hh, sv)).keys := fun x hx => (AMap.mem_keys_insert _ _ _ _).2 (.inr hx)
          have := (List.subperm_of_subset hn h2).length_le
          simp only [AMap.keys, List.length_map] at this
          omega
        simp only [show ¬ (known.insert a (hh, sv)).length = count by omega, if_false]
        exact wait_more feed _ (AMap.nodup_insert hn _ _) hlt l
    · rw [if_neg ht]; simp

/-- **C98 fails**: if more peers are connected than asked for, the call never succeeds, whatever happens. -/
theorem C98_too_many (r : Peer.Run cfg tr h0 m) (hc : count < (getPeers m required).length) (l : List Known) :
    waitForPeers count required (getPeers m required) timeout closed feed ≠ .ok l := by
  unfold waitForPeers
  rw [if_neg (by omega)]
  obtain ⟨k1, k2, -⟩ := foldl_insert (getPeers m required) [] List.nodup_nil (getPeers_nodup r) (by simp [AMap.keys])
  exact wait_more feed _ k1 (by rw [k2]; simp only [List.length_nil]; omega) l

end Peers

/-! ## C99: connecting and disconnecting -/

section Connect
variable {cfg : Peer.Config} {tr : List Ip} {n0 n : Net} {outs : List Peer.Out} {unspecified : Sock → Bool} {addr : Sock}
variable {timeout : Nat} {closed : Option Nat} {feed : List (Nat × Ev)}

theorem Later.clean (r0 : Net.Clean cfg tr n0) (r : Later cfg n0 outs n) : Net.Clean cfg tr n := by
  induction r with
  | start => exact r0
  | step r s x ih => exact .step ih s x

theorem later_output {o : Peer.Out} (r : Later cfg n0 outs n) (ho : o ∈ outs) :
    ∃ o1 n1 n2, Later cfg n0 o1 n1 ∧ Net.Step cfg n1 n2 ∧ Peer.NoRedial n1 n2 ∧ o1 ++ Peer.added n1.m n2.m <+: outs ∧ o ∈ Peer.added n1.m n2.m := by
  induction r with
  | start => simp at ho
  | @step outs n n' r s x ih =>
    rcases List.mem_append.1 ho with ho | ho
    · obtain ⟨o1, n1, n2, h1, h2, h3, h4, h5⟩ := ih ho
      exact ⟨o1, n1, n2, h1, h2, h3, h4.trans (List.prefix_append _ _), h5⟩
    · exact ⟨outs, n, n', r, s, x, List.prefix_refl _, ho⟩

/-- **C99 (connect).** If `connect` returns, a connection with the address asked for was established since the call.  (In executions in which no connection is asked for
with an address whose socket is still open.) -/
theorem C99_connect_partial (r0 : Net.Clean cfg tr n0) (r : Later cfg n0 outs n) (hf : Only Ev.IsConnected outs feed) {l : Link}
    (hw : connect unspecified addr timeout closed feed = .ok l) :
    ∃ a, (a = addr ∨ (unspecified addr = true ∧ a.port = addr.port)) ∧ ∃ o1 n1 n2 loc, Later cfg n0 o1 n1 ∧ Net.Step cfg n1 n2 ∧
      ¬ Established n1 a ∧ Established n2 a ∧ Peer.Out.evConnected a loc l ∈ Peer.added n1.m n2.m := by
  obtain ⟨p, hp, -, hx⟩ := firstMatch_some (wait_ok.1 hw)
  cases hp2 : p.2 with
  | connected a l' =>
    rw [hp2] at hx
    simp only [Option.ite_none_right_eq_some, Option.some.injEq] at hx
    obtain ⟨ha, rfl⟩ := hx
    refine ⟨a, by simpa [asked] using ha, ?_⟩
    obtain ⟨o, ho, he⟩ := List.mem_filterMap.1 (hf p hp ⟨a, l', hp2⟩)
    obtain ⟨o1, n1, n2, h1, h2, h3, -, h5⟩ := later_output r ho
    rw [hp2] at he
    cases o <;> simp only [Ev.ofPeer, Option.some.injEq, reduceCtorEq] at he
    rename_i a' loc l''
    cases he
    have c1 := h1.clean r0
    obtain ⟨k1, k2⟩ := Peer.C71_connected_partial c1 h2 h3 h5
    exact ⟨o1, n1, n2, loc, h1, h2, fun h => k1 ((Peer.C71_open_partial c1 a).2 h), (Peer.C71_open_partial (.step c1 h2 h3) a).1 k2, h5⟩
  | _ => rw [hp2] at hx; simp at hx

/-- **C99 (connect, success).** If a connection with the address asked for is established after the call, and the events are taken in time, the call succeeds.  (Missing: if the
peer is connected already, the call fails, see `Scenario.C99_already_connected`.) -/
theorem C99_connected_partial (r0 : Net.Clean cfg tr n0) (hf : Every outs timeout feed) {a : Sock}
    (ha : a = addr ∨ (unspecified addr = true ∧ a.port = addr.port)) {o1 : List Peer.Out} {n1 n2 : Net} (h1 : Later cfg n0 o1 n1) (h2 : Net.Step cfg n1 n2)
    (h3 : Peer.NoRedial n1 n2) (ho : o1 ++ Peer.added n1.m n2.m <+: outs) (he1 : ¬ Established n1 a) (he2 : Established n2 a) :
    ∃ l, connect unspecified addr timeout closed feed = .ok l := by
  have c1 := h1.clean r0
  obtain ⟨hist, hr⟩ := Peer.reach_run c1.reach
  have hout := Peer.step_out (Peer.run_inv hr) h2
  have k1 : ¬ Peer.Open a n1.m.out := fun h => he1 ((Peer.C71_open_partial c1 a).1 h)
  have k2 : Peer.Open a n2.m.out := (Peer.C71_open_partial (.step c1 h2 h3) a).2 he2
  have : ∃ loc l, Peer.Out.evConnected a loc l ∈ Peer.added n1.m n2.m := by
    by_contra hc
    obtain ⟨q1, loc, link, q2, e1, e2⟩ := k2
    rw [hout] at e1
    rcases List.append_eq_append_iff.1 e1 with ⟨z, z1, z2⟩ | ⟨z, z1, z2⟩
    · exact hc ⟨loc, link, by rw [z2]; simp⟩
    · cases z with
      | nil => exact hc ⟨loc, link, by simp at z2; rw [← z2]; simp⟩
      | cons y z =>
        simp only [List.cons_append, List.cons.injEq] at z2
        obtain ⟨rfl, z2⟩ := z2
        exact k1 ⟨q1, loc, link, z, z1, fun d hd => e2 d (by rw [z2]; exact List.mem_append_left _ hd)⟩
  obtain ⟨loc, l, hl⟩ := this
  obtain ⟨τ, hτ⟩ := hf (.connected a l) (List.mem_filterMap.2 ⟨_, ho.subset (List.mem_append_right _ hl), rfl⟩)
  obtain ⟨z, hz⟩ := firstMatch_isSome (test := fun e => match e with | .connected a l => if asked unspecified addr a then some l else none | _ => none) hτ (x := l)
    (by simp [asked, ha])
  exact ⟨z, wait_ok.2 hz⟩

/-- **C99 (disconnect).** If `disconnect` returns, the socket with the address asked for was closed since the call. -/
theorem C99_disconnect_partial (r0 : Net.Clean cfg tr n0) (r : Later cfg n0 outs n) (hf : Only Ev.IsDisconnected outs feed)
    (hw : disconnect unspecified addr timeout closed feed = .ok ()) :
    ∃ a, (a = addr ∨ (unspecified addr = true ∧ a.port = addr.port)) ∧ ∃ o1 n1 n2, Later cfg n0 o1 n1 ∧ Net.Step cfg n1 n2 ∧
      n1.reg.contains a = true ∧ n2.reg.contains a = false := by
  obtain ⟨p, hp, -, hx⟩ := firstMatch_some (wait_ok.1 hw)
  cases hp2 : p.2 with
  | disconnected a =>
    rw [hp2] at hx
    simp only [Option.ite_none_right_eq_some] at hx
    refine ⟨a, by simpa [asked] using hx.1, ?_⟩
    obtain ⟨o, ho, he⟩ := List.mem_filterMap.1 (hf p hp ⟨a, hp2⟩)
    obtain ⟨o1, n1, n2, h1, h2, h3, -, h5⟩ := later_output r ho
    rw [hp2] at he
    cases o <;> simp only [Ev.ofPeer, Option.some.injEq, reduceCtorEq] at he
    cases he
    have c1 := h1.clean r0
    obtain ⟨k1, k2⟩ := Peer.C71_disconnected_partial c1 h2 h5
    refine ⟨o1, n1, n2, h1, h2, ?_, k1⟩
    rcases k2 with k2 | ⟨k2, -⟩
    · exact ((Peer.C71_open_partial c1 a).1 k2).1
    · have g := (Peer.clean_inv c1).good a
      have hd : decide (a ∈ n1.dialing) = true := decide_eq_true k2
      rw [hd] at g
      cases hk : n1.m.kind a with
      | absent => rw [hk] at g; exact absurd g.2.1 (by simp)
      | connecting =>
        rw [hk] at g
        rcases g.2 with ⟨-, h, -⟩ | ⟨h, -⟩
        · exact absurd h (by simp)
        · exact h
      | connected => rw [hk] at g; exact g.1
      | disconnecting => rw [hk] at g; exact g.1
  | _ => rw [hp2] at hx; simp at hx

/-- **C99 (disconnect, success).** If an established connection with the address asked for is closed after the call, and the events are taken in time, the call succeeds.
(Missing: if the peer is not connected, the call fails, see `Scenario.C99_not_connected`.) -/
theorem C99_disconnected_partial (r0 : Net.Clean cfg tr n0) (hf : Every outs timeout feed) {a : Sock}
    (ha : a = addr ∨ (unspecified addr = true ∧ a.port = addr.port)) {o1 : List Peer.Out} {n1 n2 : Net} (h1 : Later cfg n0 o1 n1) (h2 : Net.Step cfg n1 n2)
    (h3 : Peer.NoRedial n1 n2) (ho : o1 ++ Peer.added n1.m n2.m <+: outs) (he1 : Established n1 a) (he2 : n2.reg.contains a = false) :
    disconnect unspecified addr timeout closed feed = .ok () := by
  obtain ⟨d, hd⟩ := Peer.C71_reported_partial (h1.clean r0) h2 h3 he1 he2
  obtain ⟨τ, hτ⟩ := hf (.disconnected a) (List.mem_filterMap.2 ⟨_, ho.subset (List.mem_append_right _ hd), rfl⟩)
  obtain ⟨z, hz⟩ := firstMatch_isSome (test := fun e => match e with | .disconnected a => if asked unspecified addr a then some () else none | _ => none) hτ (x := ())
    (by simp [asked, ha])
  exact wait_ok.2 hz

end Connect

end Verif.Handle
