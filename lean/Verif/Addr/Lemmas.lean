import Verif.Addr.Spec
import Mathlib.Data.List.Basic
import Mathlib.Data.List.Nodup

/-!
# Helpers: the invariant of the address manager
-/

set_option autoImplicit false

namespace Verif.Addr

theorem mem_sadd {α : Type} [DecidableEq α] (l : List α) (a x : α) : x ∈ sadd l a ↔ x ∈ l ∨ x = a := by
  unfold sadd
  split
  · constructor
    · exact .inl
    · rintro (h | rfl) <;> assumption
  · simp [or_comm]

theorem nodup_sadd {α : Type} [DecidableEq α] {l : List α} (h : l.Nodup) (a : α) : (sadd l a).Nodup := by
  unfold sadd
  split
  · exact h
  · rename_i hn; exact List.nodup_cons.2 ⟨hn, h⟩

theorem mem_sdel {α : Type} [DecidableEq α] (l : List α) (a x : α) : x ∈ sdel l a ↔ x ∈ l ∧ x ≠ a := by
  simp [sdel]

theorem nodup_sdel {α : Type} [DecidableEq α] {l : List α} (h : l.Nodup) (a : α) : (sdel l a).Nodup := h.filter _

theorem sadd_length_le {α : Type} [DecidableEq α] (l : List α) (a : α) : (sadd l a).length ≤ l.length + 1 := by
  unfold sadd; split <;> simp

theorem sadd_ne_nil {α : Type} [DecidableEq α] (l : List α) (a : α) : sadd l a ≠ [] := by
  intro h
  have : a ∈ sadd l a := (mem_sadd l a a).2 (.inr rfl)
  rw [h] at this
  simp at this

theorem sdel_length_lt {α : Type} [DecidableEq α] {l : List α} {a : α} (h : a ∈ l) : (sdel l a).length < l.length := by
  unfold sdel
  rcases Nat.lt_or_ge (l.filter (· ≠ a)).length l.length with h' | h'
  · exact h'
  · exfalso
    have hall := List.length_filter_eq_length_iff.1 (Nat.le_antisymm (List.length_filter_le _ _) h')
    have := hall a h
    simp at this

theorem sdel_length_le {α : Type} [DecidableEq α] (l : List α) (a : α) : (sdel l a).length ≤ l.length :=
  List.length_filter_le _ _

/-- The index agrees with the address book, except for pending addresses, which are not indexed yet. -/
structure Inv' (m : Mgr) (pend : Ip → Prop) : Prop where
  keys : m.ranges.keys.Nodup
  range : ∀ k r, m.ranges.get k = some r → r ≠ [] ∧ r.length ≤ maxRangeSize ∧ r.Nodup ∧
    ∀ ip ∈ r, addrKey ip = k ∧ (m.peers.get ip).isSome
  book : ∀ ip, (m.peers.get ip).isSome → pend ip ∨ ∃ r, m.ranges.get (addrKey ip) = some r ∧ ip ∈ r
  pend : ∀ ip, pend ip → (m.peers.get ip).isSome ∧ ∀ k r, m.ranges.get k = some r → ip ∉ r

/-- The index agrees with the address book. -/
abbrev Inv (m : Mgr) : Prop := Inv' m (fun _ => False)

/-- Everything but address book and index is unchanged. -/
structure Frame (m m' : Mgr) : Prop where
  bans : m'.bans = m.bans
  connected : m'.connected = m.connected
  sources : m'.sources = m.sources
  locals : m'.locals = m.locals
  lastRequest : m'.lastRequest = m.lastRequest
  lastIdle : m'.lastIdle = m.lastIdle
  out : m'.out = m.out

theorem Frame.refl (m : Mgr) : Frame m m := ⟨rfl, rfl, rfl, rfl, rfl, rfl, rfl⟩

theorem Frame.trans {a b c : Mgr} (h : Frame a b) (h' : Frame b c) : Frame a c :=
  ⟨h'.1.trans h.1, h'.2.trans h.2, h'.3.trans h.3, h'.4.trans h.4, h'.5.trans h.5, h'.6.trans h.6, h'.7.trans h.7⟩

theorem get_isSome_erase (p : AMap Ip Known) (a x : Ip) : ((p.erase a).get x).isSome ↔ (p.get x).isSome ∧ x ≠ a := by
  rw [AMap.get_erase]
  by_cases h : a = x
  · simp [h]
  · simp [h, Ne.symm h]

/-- Adding a pending address to the index. -/
theorem populate_ok {m : Mgr} {pend : Ip → Prop} {e : Env} {ip : Ip} (hi : Inv' m pend) (hp : pend ip) (hf : e.Fair) :
    ∃ m', m.populate e ip = .ok m' ∧ Inv' m' (fun x => pend x ∧ x ≠ ip) ∧ Frame m m' ∧
      m'.peers.get ip = m.peers.get ip ∧
      (∀ x, m'.peers.get x = m.peers.get x ∨ (m'.peers.get x = none ∧ ¬ pend x ∧
        ∃ r, m.ranges.get (addrKey ip) = some r ∧ r.length = maxRangeSize ∧ x ∈ r)) ∧
      (∀ r, m.ranges.get (addrKey ip) = some r → r.length = maxRangeSize ∨ m'.peers = m.peers) ∧
      (m.ranges.get (addrKey ip) = none → m'.peers = m.peers) := by
  obtain ⟨hip, hnot⟩ := hi.pend ip hp
  have hr : ∀ x ∈ (m.ranges.get (addrKey ip)).getD [], addrKey x = addrKey ip ∧ (m.peers.get x).isSome := by
    intro x hx
    cases hg : m.ranges.get (addrKey ip) with
    | none => rw [hg] at hx; simp at hx
    | some r => rw [hg] at hx; exact (hi.range _ _ hg).2.2.2 x hx
  have hnd : ((m.ranges.get (addrKey ip)).getD []).Nodup := by
    cases hg : m.ranges.get (addrKey ip) with
    | none => exact List.nodup_nil
    | some r => exact (hi.range _ _ hg).2.2.1
  have hlen : ((m.ranges.get (addrKey ip)).getD []).length ≤ maxRangeSize := by
    cases hg : m.ranges.get (addrKey ip) with
    | none => simp
    | some r => exact (hi.range _ _ hg).2.1
  have hni : ip ∉ (m.ranges.get (addrKey ip)).getD [] := by
    cases hg : m.ranges.get (addrKey ip) with
    | none => simp
    | some r => exact hnot _ _ hg
  have hgd : ∀ r, m.ranges.get (addrKey ip) = some r → (m.ranges.get (addrKey ip)).getD [] = r := by
    intro r h; rw [h]; rfl
  unfold Mgr.populate
  generalize hR : (m.ranges.get (addrKey ip)).getD [] = R at hr hnd hlen hni hgd
  simp only [hR]
  by_cases hfull : R.length = maxRangeSize
  · have hlt : e.pick R.length < R.length := hf.pick _ (by rw [hfull]; decide)
    have hsome : m.ranges.get (addrKey ip) = some R := by
      cases hg : m.ranges.get (addrKey ip) with
      | none => rw [hg] at hR; simp at hR; subst hR; simp at hlt
      | some r => rw [hg] at hR; simp at hR; rw [hR]
    obtain ⟨a, ha⟩ : ∃ a, R[e.pick R.length]? = some a := ⟨_, List.getElem?_eq_getElem hlt⟩
    have haR : a ∈ R := List.mem_of_getElem? ha
    have hane : ip ≠ a := fun h => hni (h ▸ haR)
    simp only [hfull, if_true]
    rw [hfull] at ha
    simp only [ha]
    refine ⟨_, rfl, ⟨?_, ?_, ?_, ?_⟩, ⟨rfl, rfl, rfl, rfl, rfl, rfl, rfl⟩, ?_, ?_, ?_, ?_⟩
    · exact AMap.nodup_insert hi.keys _ _
    · intro k r hg
      simp only [AMap.get_insert] at hg
      by_cases hk : addrKey ip = k
      · rw [if_pos hk] at hg
        injection hg with hg
        subst hg
        refine ⟨sadd_ne_nil _ _, ?_, nodup_sadd (nodup_sdel hnd _) _, ?_⟩
        · have h1 := sadd_length_le (sdel R a) ip
          have h2 := sdel_length_lt haR
          omega
        · intro x hx
          rcases (mem_sadd _ _ _).1 hx with h | rfl
          · obtain ⟨h1, h2⟩ := (mem_sdel _ _ _).1 h
            exact ⟨(hr x h1).1.trans hk, (get_isSome_erase _ _ _).2 ⟨(hr x h1).2, h2⟩⟩
          · exact ⟨hk, (get_isSome_erase _ _ _).2 ⟨hip, hane⟩⟩
      · rw [if_neg hk] at hg
        obtain ⟨h1, h2, h3, h4⟩ := hi.range k r hg
        refine ⟨h1, h2, h3, fun x hx => ⟨(h4 x hx).1, (get_isSome_erase _ _ _).2 ⟨(h4 x hx).2, ?_⟩⟩⟩
        rintro rfl
        exact hk ((hr x haR).1.symm.trans (h4 x hx).1)
    · intro x hx
      obtain ⟨hx1, hx2⟩ := (get_isSome_erase _ _ _).1 hx
      by_cases hxi : x = ip
      · subst hxi
        right
        exact ⟨_, AMap.get_insert_self _ _ _, (mem_sadd _ _ _).2 (.inr rfl)⟩
      · rcases hi.book x hx1 with h | ⟨r, h1, h2⟩
        · exact .inl ⟨h, hxi⟩
        · right
          simp only [AMap.get_insert]
          by_cases hk : addrKey ip = addrKey x
          · rw [if_pos hk]
            rw [← hk] at h1
            rw [hsome] at h1
            injection h1 with h1
            subst h1
            exact ⟨_, rfl, (mem_sadd _ _ _).2 (.inl ((mem_sdel _ _ _).2 ⟨h2, hx2⟩))⟩
          · rw [if_neg hk]; exact ⟨r, h1, h2⟩
    · rintro x ⟨hx, hxi⟩
      obtain ⟨h1, h2⟩ := hi.pend x hx
      refine ⟨(get_isSome_erase _ _ _).2 ⟨h1, fun h => h2 _ _ hsome (h ▸ haR)⟩, fun k r hg => ?_⟩
      simp only [AMap.get_insert] at hg
      by_cases hk : addrKey ip = k
      · rw [if_pos hk] at hg
        injection hg with hg
        subst hg
        intro hm
        rcases (mem_sadd _ _ _).1 hm with h | h
        · exact h2 _ _ hsome ((mem_sdel _ _ _).1 h).1
        · exact hxi h
      · rw [if_neg hk] at hg; exact h2 k r hg
    · exact AMap.get_erase_ne _ (Ne.symm hane)
    · intro x
      by_cases hxa : a = x
      · subst hxa
        exact .inr ⟨AMap.get_erase_self _ _, fun h => (hi.pend _ h).2 _ _ hsome haR, R, hsome, hfull, haR⟩
      · exact .inl (AMap.get_erase_ne _ hxa)
    · intro r hg
      rw [hsome] at hg; injection hg with hg
      exact .inl (hg ▸ hfull)
    · intro hg; rw [hsome] at hg; cases hg
  · simp only [hfull, if_false]
    refine ⟨_, rfl, ⟨?_, ?_, ?_, ?_⟩, ⟨rfl, rfl, rfl, rfl, rfl, rfl, rfl⟩, rfl, fun _ => .inl rfl, fun _ _ => .inr rfl,
      fun _ => rfl⟩
    · exact AMap.nodup_insert hi.keys _ _
    · intro k r hg
      simp only [AMap.get_insert] at hg
      by_cases hk : addrKey ip = k
      · rw [if_pos hk] at hg
        injection hg with hg
        subst hg
        refine ⟨sadd_ne_nil _ _, ?_, nodup_sadd hnd _, ?_⟩
        · have h1 := sadd_length_le R ip
          omega
        · intro x hx
          rcases (mem_sadd _ _ _).1 hx with h | rfl
          · exact ⟨(hr x h).1.trans hk, (hr x h).2⟩
          · exact ⟨hk, hip⟩
      · rw [if_neg hk] at hg
        exact hi.range k r hg
    · intro x hx
      by_cases hxi : x = ip
      · subst hxi
        right
        exact ⟨_, AMap.get_insert_self _ _ _, (mem_sadd _ _ _).2 (.inr rfl)⟩
      · rcases hi.book x hx with h | ⟨r, h1, h2⟩
        · exact .inl ⟨h, hxi⟩
        · right
          simp only [AMap.get_insert]
          by_cases hk : addrKey ip = addrKey x
          · rw [if_pos hk]
            rw [← hk] at h1
            have := hgd r h1
            subst this
            exact ⟨_, rfl, (mem_sadd _ _ _).2 (.inl h2)⟩
          · rw [if_neg hk]; exact ⟨r, h1, h2⟩
    · rintro x ⟨hx, hxi⟩
      obtain ⟨h1, h2⟩ := hi.pend x hx
      refine ⟨h1, fun k r hg => ?_⟩
      simp only [AMap.get_insert] at hg
      by_cases hk : addrKey ip = k
      · rw [if_pos hk] at hg
        injection hg with hg
        subst hg
        intro hm
        rcases (mem_sadd _ _ _).1 hm with h | h
        · cases hg : m.ranges.get (addrKey ip) with
          | none => rw [hg] at hR; simp at hR; subst hR; simp at h
          | some r => rw [hgd r hg] at h; exact h2 _ _ hg h
        · exact hxi h
      · rw [if_neg hk] at hg; exact h2 k r hg

theorem Inv'.mono {m : Mgr} {p q : Ip → Prop} (h : Inv' m p) (hpq : ∀ x, p x ↔ q x) : Inv' m q :=
  ⟨h.keys, h.range, fun ip hs => (h.book ip hs).imp (hpq ip).1 id, fun ip hq => h.pend ip ((hpq ip).2 hq)⟩

theorem populateAll_ok {e : Env} (hf : e.Fair) : ∀ (ips : List Ip) (m : Mgr), ips.Nodup → Inv' m (· ∈ ips) →
    ∃ m', m.populateAll e ips = .ok m' ∧ Inv m' ∧ Frame m m' ∧ ∀ x, m'.peers.get x = m.peers.get x ∨ m'.peers.get x = none
  | [], m, _, hi => ⟨m, rfl, hi.mono (by simp), Frame.refl m, fun _ => .inl rfl⟩
  | ip :: ips, m, hn, hi => by
    obtain ⟨hnot, hn'⟩ := List.nodup_cons.1 hn
    obtain ⟨m1, h1, h2, h3, _, h5, _⟩ := populate_ok hi List.mem_cons_self hf
    obtain ⟨m2, k1, k2, k3, k4⟩ := populateAll_ok hf ips m1 hn' (h2.mono (fun x => by
      simp only [List.mem_cons]
      constructor
      · rintro ⟨rfl | h, h'⟩
        · exact absurd rfl h'
        · exact h
      · intro h; exact ⟨.inr h, fun h' => hnot (h' ▸ h)⟩))
    refine ⟨m2, ?_, k2, h3.trans k3, fun x => ?_⟩
    · unfold Mgr.populateAll; rw [h1]; exact k1
    · rcases k4 x with h | h
      · rcases h5 x with h' | ⟨h', _⟩
        · exact .inl (h.trans h')
        · exact .inr (h.trans h')
      · exact .inr h

/-- Creating a manager works for every address book. -/
theorem new_ok (peers : AMap Ip Known) (hn : peers.keys.Nodup) {e : Env} (hf : e.Fair) :
    ∃ m, Mgr.new peers e = .ok m ∧ Inv m ∧ m.bans = [] ∧ m.connected = [] ∧ m.sources = [] ∧ m.locals = [] ∧
      m.lastIdle = none ∧ ∀ x, m.peers.get x = peers.get x ∨ m.peers.get x = none := by
  obtain ⟨m', h1, h2, h3, h4⟩ := populateAll_ok hf peers.keys
    { peers := peers, bans := [], ranges := [], connected := [], sources := [], locals := [],
      lastRequest := none, lastIdle := none, out := [] } hn
    ⟨by simp [AMap.keys], fun k r h => by simp at h, fun ip h => .inl ((AMap.get_isSome_iff _ _).1 h),
      fun ip h => ⟨(AMap.get_isSome_iff _ _).2 h, fun k r h => by simp at h⟩⟩
  exact ⟨m', h1, h2, h3.bans, h3.connected, h3.sources, h3.locals, h3.lastIdle, h4⟩

/-! ## Insertion -/

/-- Decide acceptability. -/
theorem insertOne_cases (m : Mgr) (cfg : Config) (e : Env) (time : Nat) (src : Source) (t : Nat) (a : NetAddr) :
    (m.insertOne cfg e time src t a = .ok m ∧ ∀ s, Acceptable cfg m time t a s → (m.peers.get s.ip).isSome) ∨
      ∃ s, Acceptable cfg m time t a s ∧ m.peers.get s.ip = none ∧
        m.insertOne cfg e time src t a =
          Mgr.populate { m with peers := m.peers.insert s.ip (Known.new a src (some (t * 1000))) } e s.ip := by
  unfold Mgr.insertOne
  by_cases h1 : has a.services cfg.requiredServices = false
  · rw [if_pos h1]; exact .inl ⟨rfl, fun s h => by rw [h.services] at h1; cases h1⟩
  rw [if_neg h1]
  by_cases h2 : (has a.services svcGetUtxo || has a.services svcBloom) = true
  · rw [if_pos h2]; exact .inl ⟨rfl, fun s h => by rw [h.notUtxo, h.notBloom] at h2; cases h2⟩
  rw [if_neg h2]
  by_cases h3 : t = 0
  · rw [if_pos h3]; exact .inl ⟨rfl, fun s h => absurd h.active (by omega)⟩
  rw [if_neg h3]
  by_cases h4 : t * 1000 > time + 60 * 60000
  · rw [if_pos h4]; exact .inl ⟨rfl, fun s h => absurd h.notFuture (by omega)⟩
  rw [if_neg h4]
  cases hs : a.sock with
  | none => exact .inl ⟨rfl, fun s h => by rw [h.sock] at hs; cases hs⟩
  | some s =>
    have hsu : ∀ s', Acceptable cfg m time t a s' → s' = s := fun s' h => by
      have := h.sock; rw [hs] at this; injection this with this; exact this.symm
    simp only
    by_cases h5 : domainOf s ∉ cfg.domains
    · rw [if_pos h5]; exact .inl ⟨rfl, fun s' h => by have := h.domain; rw [hsu s' h] at this; exact absurd this h5⟩
    rw [if_neg h5]
    by_cases h6 : s ∈ m.locals
    · rw [if_pos h6]; exact .inl ⟨rfl, fun s' h => by have := h.notOurs; rw [hsu s' h] at this; exact absurd h6 this⟩
    rw [if_neg h6]
    by_cases h7 : s.ip ∈ m.bans
    · rw [if_pos h7]; exact .inl ⟨rfl, fun s' h => by have := h.notBanned; rw [hsu s' h] at this; exact absurd h7 this⟩
    rw [if_neg h7]
    by_cases h8 : isRoutable s.ip = false
    · rw [if_pos h8]; exact .inl ⟨rfl, fun s' h => by have := h.routable; rw [hsu s' h, h8] at this; cases this⟩
    rw [if_neg h8]
    by_cases h9 : isLocal s.ip = true
    · rw [if_pos h9]; exact .inl ⟨rfl, fun s' h => by have := h.notLocal; rw [hsu s' h, h9] at this; cases this⟩
    rw [if_neg h9]
    cases hg : m.peers.get s.ip with
    | some ka => exact .inl ⟨rfl, fun s' h => by rw [hsu s' h, hg]; rfl⟩
    | none =>
      refine .inr ⟨s, ⟨?_, ?_, ?_, by omega, by omega, hs, ?_, h6, h7, ?_, ?_⟩, hg, rfl⟩
      · simpa using h1
      · simp only [Bool.or_eq_true, not_or] at h2; simpa using h2.1
      · simp only [Bool.or_eq_true, not_or] at h2; simpa using h2.2
      · by_contra hc; exact h5 hc
      · simpa using h8
      · simpa using h9

theorem insert_pend {m : Mgr} (hi : Inv m) {ip : Ip} (h : m.peers.get ip = none) (ka : Known) :
    Inv' { m with peers := m.peers.insert ip ka } (fun x => x = ip) := by
  have hsome : ∀ x, (m.peers.get x).isSome → ((m.peers.insert ip ka).get x).isSome := by
    intro x hx
    rw [AMap.get_insert]; split <;> simp_all
  refine ⟨hi.keys, fun k r hg => ?_, fun x hx => ?_, ?_⟩
  · obtain ⟨h1, h2, h3, h4⟩ := hi.range k r hg
    exact ⟨h1, h2, h3, fun x hx => ⟨(h4 x hx).1, hsome x (h4 x hx).2⟩⟩
  · by_cases hx' : x = ip
    · exact .inl hx'
    · rw [AMap.get_insert_ne _ _ (Ne.symm hx')] at hx
      rcases hi.book x hx with h | h
      · exact h.elim
      · exact .inr h
  · rintro x rfl
    refine ⟨by simp, fun k r hg hm => ?_⟩
    have := ((hi.range k r hg).2.2.2 x hm).2
    rw [h] at this; cases this

/-- One announced address: accepted and new, or nothing changes. -/
theorem insertOne_ok {m : Mgr} (hi : Inv m) (cfg : Config) {e : Env} (hf : e.Fair) (time : Nat) (src : Source) (t : Nat)
    (a : NetAddr) :
    ∃ m', m.insertOne cfg e time src t a = .ok m' ∧ Inv m' ∧ Frame m m' ∧
      (∀ x ka, m'.peers.get x = some ka → m.peers.get x = some ka ∨
        ∃ s, Acceptable cfg m time t a s ∧ s.ip = x ∧ ka = Known.new a src (some (t * 1000))) ∧
      (∀ x, (m.peers.get x).isSome → m'.peers.get x = m.peers.get x ∨
        (m'.peers.get x = none ∧ ∃ r, m.ranges.get (addrKey x) = some r ∧ r.length = maxRangeSize)) ∧
      (∀ s, Acceptable cfg m time t a s → (m'.peers.get s.ip).isSome) := by
  rcases insertOne_cases m cfg e time src t a with ⟨h, hacc⟩ | ⟨s, hs, hg, h⟩
  · exact ⟨m, h, hi, Frame.refl m, fun x ka hx => .inl hx, fun x _ => .inl rfl, hacc⟩
  · obtain ⟨m', h1, h2, h3, h4, h5, _, _⟩ := populate_ok (e := e)
      (insert_pend hi hg (Known.new a src (some (t * 1000)))) rfl hf
    refine ⟨m', by rw [h]; exact h1, h2.mono (fun x => by simp), ?_, fun x ka hx => ?_, fun x hx => ?_, fun s' hs' => ?_⟩
    · exact ⟨h3.1, h3.2, h3.3, h3.4, h3.5, h3.6, h3.7⟩
    · rcases h5 x with h6 | ⟨h6, _⟩
      · rw [h6, AMap.get_insert] at hx
        by_cases he : s.ip = x
        · rw [if_pos he] at hx
          injection hx with hx
          exact .inr ⟨s, hs, he, hx.symm⟩
        · rw [if_neg he] at hx; exact .inl hx
      · rw [h6] at hx; cases hx
    · have hne : s.ip ≠ x := fun he => by rw [← he, hg] at hx; cases hx
      rcases h5 x with h6 | ⟨h6, h7, r, h8, h9, h10⟩
      · rw [AMap.get_insert_ne _ _ hne] at h6; exact .inl h6
      · refine .inr ⟨h6, r, ?_, h9⟩
        have : addrKey x = addrKey s.ip := ((hi.range _ _ h8).2.2.2 x h10).1
        rw [this]; exact h8
    · have : s' = s := by
        have h := hs'.sock; rw [hs.sock] at h; injection h with h; exact h.symm
      rw [this, h4]; simp

theorem Acceptable.frame {cfg : Config} {m m' : Mgr} (hf : Frame m m') {time t : Nat} {a : NetAddr} {s : Sock} :
    Acceptable cfg m' time t a s → Acceptable cfg m time t a s := fun h =>
  ⟨h.services, h.notUtxo, h.notBloom, h.active, h.notFuture, h.sock, h.domain, hf.locals ▸ h.notOurs,
    hf.bans ▸ h.notBanned, h.routable, h.notLocal⟩

theorem insertLoop_ok (cfg : Config) {e : Env} (hf : e.Fair) (time : Nat) (src : Source) :
    ∀ (l : List (Nat × NetAddr)) (m : Mgr), Inv m →
    ∃ m', m.insertLoop cfg e time src l = .ok m' ∧ Inv m' ∧ Frame m m' ∧
      (∀ x ka, m'.peers.get x = some ka → m.peers.get x = some ka ∨
        ∃ t a s, (t, a) ∈ l ∧ Acceptable cfg m time t a s ∧ s.ip = x ∧ ka = Known.new a src (some (t * 1000)))
  | [], m, hi => ⟨m, rfl, hi, Frame.refl m, fun x ka h => .inl h⟩
  | (t, a) :: l, m, hi => by
    obtain ⟨m1, h1, h2, h3, h4, _, _⟩ := insertOne_ok hi cfg hf time src t a
    obtain ⟨m2, k1, k2, k3, k4⟩ := insertLoop_ok cfg hf time src l m1 h2
    refine ⟨m2, ?_, k2, h3.trans k3, fun x ka hx => ?_⟩
    · unfold Mgr.insertLoop; rw [h1]; exact k1
    · rcases k4 x ka hx with h | ⟨t', a', s, hm, ha, hs, hk⟩
      · rcases h4 x ka h with h | ⟨s, ha, hs, hk⟩
        · exact .inl h
        · exact .inr ⟨t, a, s, List.mem_cons_self, ha, hs, hk⟩
      · exact .inr ⟨t', a', s, List.mem_cons_of_mem _ hm, ha.frame h3, hs, hk⟩

/-! ## Other calls -/

theorem update_inv {m : Mgr} {pend : Ip → Prop} (hi : Inv' m pend) (ip : Ip) (f : Known → Known) :
    Inv' (m.update ip f) pend ∧ Frame m (m.update ip f) ∧
      (∀ x, (m.update ip f).peers.get x = if x = ip then (m.peers.get x).map f else m.peers.get x) ∧
      (m.update ip f).ranges = m.ranges := by
  unfold Mgr.update
  cases hg : m.peers.get ip with
  | none =>
    refine ⟨hi, Frame.refl m, fun x => ?_, rfl⟩
    by_cases h : x = ip
    · subst h; simp [hg]
    · simp [h]
  | some ka =>
    have hget : ∀ x, (m.peers.insert ip (f ka)).get x = if x = ip then (m.peers.get x).map f else m.peers.get x := by
      intro x
      rw [AMap.get_insert]
      by_cases h : x = ip
      · subst h; simp [hg]
      · rw [if_neg (fun e => h e.symm), if_neg h]
    have hsome : ∀ x, ((m.peers.insert ip (f ka)).get x).isSome = (m.peers.get x).isSome := by
      intro x
      rw [hget]; split <;> simp
    refine ⟨⟨hi.keys, fun k r hr => ?_, fun x hx => ?_, fun x hx => ?_⟩, ⟨rfl, rfl, rfl, rfl, rfl, rfl, rfl⟩, hget, rfl⟩
    · obtain ⟨h1, h2, h3, h4⟩ := hi.range k r hr
      exact ⟨h1, h2, h3, fun x hx => ⟨(h4 x hx).1, by rw [hsome]; exact (h4 x hx).2⟩⟩
    · rw [hsome] at hx; exact hi.book x hx
    · obtain ⟨h1, h2⟩ := hi.pend x hx
      exact ⟨by rw [hsome]; exact h1, h2⟩

/-- The inner sampling loop: no panic when all addresses are known; the first eligible address, or none is. -/
theorem sampleIps_ok (m : Mgr) (cfg : Config) (time : Nat) (pred : Known → Bool) : ∀ (ips : List Ip),
    (∀ ip ∈ ips, (m.peers.get ip).isSome) →
    (m.sampleIps cfg time pred ips = .ok none ∧
      ∀ ip ∈ ips, ∀ ka, m.peers.get ip = some ka → m.eligible cfg time pred ip ka = false) ∨
    ∃ ip ka, m.sampleIps cfg time pred ips = .ok (some (ip, ka)) ∧ ip ∈ ips ∧ m.peers.get ip = some ka ∧
      m.eligible cfg time pred ip ka = true
  | [], _ => .inl ⟨rfl, by simp⟩
  | ip :: ips, h => by
    obtain ⟨ka, hka⟩ := Option.isSome_iff_exists.1 (h ip List.mem_cons_self)
    unfold Mgr.sampleIps
    rw [hka]
    simp only
    by_cases he : m.eligible cfg time pred ip ka = true
    · rw [if_pos he]; exact .inr ⟨ip, ka, rfl, List.mem_cons_self, hka, he⟩
    · rw [if_neg he]
      rcases sampleIps_ok m cfg time pred ips (fun x hx => h x (List.mem_cons_of_mem _ hx)) with ⟨h1, h2⟩ | ⟨x, kx, h1, h2, h3⟩
      · refine .inl ⟨h1, fun x hx kx hkx => ?_⟩
        rcases List.mem_cons.1 hx with rfl | hx
        · rw [hka] at hkx; injection hkx with hkx; subst hkx; simpa using he
        · exact h2 x hx kx hkx
      · exact .inr ⟨x, kx, h1, List.mem_cons_of_mem _ h2, h3⟩

theorem sampleRanges_ok (m : Mgr) (cfg : Config) {e : Env} (hf : e.Fair) (time : Nat) (pred : Known → Bool) :
    ∀ (rs : List (List Ip)), (∀ r ∈ rs, r ≠ [] ∧ ∀ ip ∈ r, (m.peers.get ip).isSome) →
    (m.sampleRanges cfg e time pred rs = .ok none ∧
      ∀ r ∈ rs, ∀ ip ∈ r, ∀ ka, m.peers.get ip = some ka → m.eligible cfg time pred ip ka = false) ∨
    ∃ ip ka, m.sampleRanges cfg e time pred rs = .ok (some (ip, ka)) ∧ (∃ r ∈ rs, ip ∈ r) ∧ m.peers.get ip = some ka ∧
      m.eligible cfg time pred ip ka = true
  | [], _ => .inl ⟨rfl, by simp⟩
  | r :: rs, h => by
    obtain ⟨hne, hall⟩ := h r List.mem_cons_self
    unfold Mgr.sampleRanges
    rw [if_neg hne]
    rcases sampleIps_ok m cfg time pred (e.ips r) (fun x hx => hall x ((hf.ips r).mem_iff.1 hx)) with
      ⟨h1, h2⟩ | ⟨x, kx, h1, h2, h3, h4⟩
    · rw [h1]
      simp only
      rcases sampleRanges_ok m cfg hf time pred rs (fun r' hr' => h r' (List.mem_cons_of_mem _ hr')) with
        ⟨k1, k2⟩ | ⟨x, kx, k1, ⟨r', k2, k2'⟩, k3⟩
      · refine .inl ⟨k1, fun r' hr' => ?_⟩
        rcases List.mem_cons.1 hr' with rfl | hr'
        · exact fun ip hip => h2 ip ((hf.ips r').mem_iff.2 hip)
        · exact k2 r' hr'
      · exact .inr ⟨x, kx, k1, ⟨r', List.mem_cons_of_mem _ k2, k2'⟩, k3⟩
    · rw [h1]
      exact .inr ⟨x, kx, rfl, ⟨r, List.mem_cons_self, (hf.ips r).mem_iff.1 h2⟩, h3, h4⟩

theorem ranges_values {m : Mgr} (hi : Inv m) : ∀ r ∈ m.ranges.map (·.2), r ≠ [] ∧ ∀ ip ∈ r, (m.peers.get ip).isSome := by
  intro r hr
  obtain ⟨⟨k, r'⟩, hm, rfl⟩ := List.mem_map.1 hr
  obtain ⟨h1, _, _, h4⟩ := hi.range k r' (AMap.get_of_mem hi.keys hm)
  exact ⟨h1, fun ip hip => (h4 ip hip).2⟩

/-- Sampling: what it returns and changes. -/
theorem sampleWith_ok {m : Mgr} (hi : Inv m) (cfg : Config) {e : Env} (hf : e.Fair) (pred : Known → Bool) {time : Nat}
    (ht : m.lastIdle = some time) :
    (m.sampleWith cfg e pred = .ok (none, m) ∧
      ∀ ip ka, m.peers.get ip = some ka → m.eligible cfg time pred ip ka = false) ∨
    ∃ ip ka, m.sampleWith cfg e pred = .ok (some (ka.addr, ka.source), m.update ip (fun k => { k with lastSampled := some time })) ∧
      m.peers.get ip = some ka ∧ m.eligible cfg time pred ip ka = true := by
  unfold Mgr.sampleWith
  by_cases hemp : m.peers = [] ∨ m.ranges = []
  · rw [if_pos hemp]
    refine .inl ⟨rfl, fun ip ka hg => ?_⟩
    rcases hemp with h | h
    · rw [h] at hg; simp at hg
    · rcases hi.book ip (by rw [hg]; rfl) with h' | ⟨r, h', _⟩
      · exact h'.elim
      · rw [h] at h'; simp at h'
  · rw [if_neg hemp, ht]
    simp only
    have hv : ∀ r ∈ e.ranges (m.ranges.map (·.2)), r ≠ [] ∧ ∀ ip ∈ r, (m.peers.get ip).isSome := fun r hr =>
      ranges_values hi r ((hf.ranges _).mem_iff.1 hr)
    rcases sampleRanges_ok m cfg hf time pred _ hv with ⟨h1, h2⟩ | ⟨ip, ka, h1, _, h3, h4⟩
    · rw [h1]
      refine .inl ⟨rfl, fun ip ka hg => ?_⟩
      rcases hi.book ip (by rw [hg]; rfl) with h' | ⟨r, h', hm⟩
      · exact h'.elim
      · exact h2 r ((hf.ranges _).mem_iff.2 (List.mem_map.2 ⟨_, AMap.mem_of_get h', rfl⟩)) ip hm ka hg
    · rw [h1]
      refine .inr ⟨ip, ka, ?_, h3, h4⟩
      simp only [Mgr.update, h3, ht]

theorem getAddrLoop_ok (m : Mgr) {e : Env} (hf : e.Fair) : ∀ (rs : List (List Ip)),
    (∀ r ∈ rs, r ≠ [] ∧ ∀ ip ∈ r, (m.peers.get ip).isSome) →
    ∃ l, m.getAddrLoop e rs = .ok l ∧ l.length = rs.length ∧
      ∀ x ∈ l, ∃ ip ka, m.peers.get ip = some ka ∧ x.2 = ka.addr
  | [], _ => ⟨[], rfl, rfl, by simp⟩
  | r :: rs, h => by
    obtain ⟨hne, hall⟩ := h r List.mem_cons_self
    have hlt : e.pick r.length < r.length := hf.pick _ (List.length_pos_of_ne_nil hne)
    have hg : r[e.pick r.length]? = some (r[e.pick r.length]) := List.getElem?_eq_getElem hlt
    obtain ⟨ka, hka⟩ := Option.isSome_iff_exists.1 (hall _ (List.getElem_mem hlt))
    obtain ⟨l, h1, h2, h3⟩ := getAddrLoop_ok m hf rs (fun r' hr' => h r' (List.mem_cons_of_mem _ hr'))
    unfold Mgr.getAddrLoop
    rw [if_neg hne, hg]
    simp only [hka, h1]
    refine ⟨_, rfl, by simp [h2], fun x hx => ?_⟩
    rcases List.mem_cons.1 hx with rfl | hx
    · exact ⟨_, ka, hka, rfl⟩
    · exact h3 x hx

theorem ban_ok {m : Mgr} (hi : Inv m) {ip : Ip} (hc : ip ∉ m.connected) :
    ∃ m', m.ban ip = .ok m' ∧ Inv m' ∧ m'.connected = m.connected ∧ m'.sources = m.sources ∧ m'.locals = m.locals ∧
      m'.lastIdle = m.lastIdle ∧ (∀ x, x ∈ m.bans → x ∈ m'.bans) ∧
      (∀ x, x ≠ ip → m'.peers.get x = m.peers.get x) ∧
      ((m.ranges.get (addrKey ip)).isSome → ip ∈ m'.bans ∧ m'.peers.get ip = none) ∧
      (∀ x ∈ m'.bans, x ∈ m.bans ∨ x = ip ∧ m'.peers.get ip = none) := by
  unfold Mgr.ban
  rw [if_neg hc]
  cases hg : m.ranges.get (addrKey ip) with
  | none =>
    exact ⟨m, rfl, hi, rfl, rfl, rfl, rfl, fun _ h => h, fun _ _ => rfl, fun h => by simp at h, fun _ h => .inl h⟩
  | some range =>
    simp only
    obtain ⟨hr1, hr2, hr3, hr4⟩ := hi.range _ _ hg
    refine ⟨_, rfl, ?_, rfl, rfl, rfl, rfl, fun x hx => (mem_sadd _ _ _).2 (.inl hx),
      fun x hx => AMap.get_erase_ne _ (Ne.symm hx), fun _ => ⟨(mem_sadd _ _ _).2 (.inr rfl), AMap.get_erase_self _ _⟩,
      fun x hx => ((mem_sadd _ _ _).1 hx).imp id (fun h => ⟨h, AMap.get_erase_self _ _⟩)⟩
    by_cases hemp : sdel range ip = []
    · rw [if_pos hemp]
      refine ⟨AMap.nodup_erase hi.keys _, fun k r h => ?_, fun x hx => ?_, fun _ h => h.elim⟩
      · simp only [AMap.get_erase] at h
        by_cases hk : addrKey ip = k
        · rw [if_pos hk] at h; cases h
        · rw [if_neg hk] at h
          obtain ⟨h1, h2, h3, h4⟩ := hi.range k r h
          refine ⟨h1, h2, h3, fun x hx => ⟨(h4 x hx).1, (get_isSome_erase _ _ _).2 ⟨(h4 x hx).2, ?_⟩⟩⟩
          rintro rfl
          exact hk (h4 x hx).1
      · obtain ⟨h1, h2⟩ := (get_isSome_erase _ _ _).1 hx
        rcases hi.book x h1 with h | ⟨r, h, hm⟩
        · exact h.elim
        · right
          by_cases hk : addrKey ip = addrKey x
          · exfalso
            rw [← hk, hg] at h
            injection h with h
            subst h
            have : x ∈ sdel range ip := (mem_sdel _ _ _).2 ⟨hm, h2⟩
            rw [hemp] at this; simp at this
          · exact ⟨r, by simp only [AMap.get_erase]; rw [if_neg hk]; exact h, hm⟩
    · rw [if_neg hemp]
      refine ⟨AMap.nodup_insert hi.keys _ _, fun k r h => ?_, fun x hx => ?_, fun _ h => h.elim⟩
      · simp only [AMap.get_insert] at h
        by_cases hk : addrKey ip = k
        · rw [if_pos hk] at h
          injection h with h
          subst h
          refine ⟨hemp, Nat.le_trans (sdel_length_le _ _) hr2, nodup_sdel hr3 _, fun x hx => ?_⟩
          obtain ⟨h1, h2⟩ := (mem_sdel _ _ _).1 hx
          exact ⟨(hr4 x h1).1.trans hk, (get_isSome_erase _ _ _).2 ⟨(hr4 x h1).2, h2⟩⟩
        · rw [if_neg hk] at h
          obtain ⟨h1, h2, h3, h4⟩ := hi.range k r h
          refine ⟨h1, h2, h3, fun x hx => ⟨(h4 x hx).1, (get_isSome_erase _ _ _).2 ⟨(h4 x hx).2, ?_⟩⟩⟩
          rintro rfl
          exact hk (h4 x hx).1
      · obtain ⟨h1, h2⟩ := (get_isSome_erase _ _ _).1 hx
        rcases hi.book x h1 with h | ⟨r, h, hm⟩
        · exact h.elim
        · right
          simp only [AMap.get_insert]
          by_cases hk : addrKey ip = addrKey x
          · rw [if_pos hk]
            rw [← hk, hg] at h
            injection h with h
            subst h
            exact ⟨_, rfl, (mem_sdel _ _ _).2 ⟨hm, h2⟩⟩
          · rw [if_neg hk]; exact ⟨r, h, hm⟩

end Verif.Addr
