import Verif.Addr.Inv
import Mathlib.Data.List.Perm.Subperm

/-!
# Properties of the address manager (C39–C43, C68, C69)
-/

set_option autoImplicit false

namespace Verif.Addr

/-! ## C39 -/

/-- **C39** The manager can be created from every address book. -/
theorem C39_start (peers : AMap Ip Known) (hn : peers.keys.Nodup) (e : Env) (hf : e.Fair) (now : Nat) (saved : Bool) :
    ∃ m, Mgr.new peers e = .ok m ∧ Starts peers (m.idle now saved) := by
  obtain ⟨m, h, _⟩ := new_ok peers hn hf
  exact ⟨m, h, hn, e, m, now, saved, hf, h, rfl⟩

/-- **C39** After any history no range is empty, none has more than 256 addresses or an address twice; every indexed address is
in the address book, and every address of the book is indexed in its range. -/
theorem C39_index {cfg : Config} {peers : AMap Ip Known} {l m} (r : Run cfg peers l m) :
    (∀ k range, m.ranges.get k = some range → range ≠ [] ∧ range.length ≤ 256 ∧ range.Nodup ∧
      ∀ ip ∈ range, addrKey ip = k ∧ (m.peers.get ip).isSome) ∧
    ∀ ip, (m.peers.get ip).isSome → ∃ range, m.ranges.get (addrKey ip) = some range ∧ ip ∈ range := by
  have hi := r.inv.1
  refine ⟨fun k range h => hi.range k range h, fun ip h => ?_⟩
  rcases hi.book ip h with h' | h'
  · exact h'.elim
  · exact h'

/-- **C39** After any history no call panics: the assertions and `expect`s of sampling, inserting and banning hold, for all random
choices. -/
theorem C39_no_panic {cfg : Config} {peers : AMap Ip Known} {l m} (r : Run cfg peers l m) (op : Op) (hf : op.Fair) :
    ∃ res m', m.step cfg op = .ok (res, m') := by
  obtain ⟨res, m', h, _⟩ := step_ok r.inv.1 r.inv.2 cfg op hf
  exact ⟨res, m', h⟩

/-! ## C40 -/

/-- **C40** (partial: the ban takes effect only if the book has an address in the same range) A peer that was connected and
disconnected for a reason that is not transient is never again in the address book and never sampled, whatever happens later. -/
theorem C40_banned_partial {cfg : Config} {peers : AMap Ip Known} (hp : Sound peers) {l m} (r : Run cfg peers l m) (a : Sock)
    (hlink : linked a.ip l = true) (hr1 : isRoutable a.ip = true) (hr2 : isLocal a.ip = false)
    (known : Ip) (hk : (m.peers.get known).isSome) (hkey : addrKey known = addrKey a.ip)
    {res m'} (h : m.step cfg (.disconnected a .permanent) = .ok (res, m')) {l' m''} (s : Steps cfg m' l' m'') :
    m''.peers.get a.ip = none ∧ ∀ op x src, (op, some (x, src)) ∈ l' → ∀ s, x.sock = some s → s.ip ≠ a.ip := by
  have hc : a.ip ∈ m.connected := (r.connected a.ip).2 ⟨hlink, hr1, hr2⟩
  obtain ⟨range, hrange, _⟩ := (C39_index r).2 known hk
  rw [hkey] at hrange
  obtain ⟨m1, h1, _, h3, _⟩ := disconnected_ok r.inv.1 r.inv.2 cfg a .permanent
  simp only [Mgr.step, h1] at h
  injection h with h
  injection h with _ h
  subst h
  obtain ⟨hb, hn⟩ := h3 hc (.inl rfl) (by rw [hrange]; rfl)
  have r' : Run cfg peers ((.disconnected a .permanent, none) :: l) m1 := r.next trivial (by simp only [Mgr.step, h1])
  refine ⟨(banned_steps r'.inv.1 r'.inv.2 s hb hn).2, ?_⟩
  induction s with
  | refl => intro op x src hm; cases hm
  | @step l2 m2 m3 op0 res0 st f hst ih =>
    intro op x src hm
    rcases List.mem_cons.1 hm with he | hm
    · injection he with e1 e2
      subst e1; subst e2
      have r2 := st.run r'
      have hnone := (banned_steps r'.inv.1 r'.inv.2 st hb hn).2
      obtain ⟨time, ht⟩ := Option.isSome_iff_exists.1 r2.inv.2
      have hsnd := r2.sound hp
      cases op with
      | sample e pred =>
        rcases sampleWith_ok r2.inv.1 cfg f pred ht with ⟨hs, _⟩ | ⟨ip, ka, hs, hg, _⟩
        · have : (Res.ok (none, m2) : R _) = .ok (some (x, src), m3) := hs.symm.trans hst
          cases this
        · have : (Res.ok (some (ka.addr, ka.source), _) : R _) = .ok (some (x, src), m3) := hs.symm.trans hst
          injection this with this
          injection this with this _
          injection this with this
          injection this with this _
          subst this
          intro s hx
          obtain ⟨s', h5, h6, _⟩ := hsnd ip ka hg
          rw [hx] at h5
          injection h5 with h5
          subst h5
          rw [h6]
          rintro rfl
          rw [hnone] at hg; cases hg
      | attempted now b => cases hst
      | connected b => cases hst
      | negotiated now b sv ob rc => cases hst
      | importAddresses e l =>
        simp only [Mgr.step] at hst
        split at hst <;> cases hst
      | disconnected b rr =>
        simp only [Mgr.step] at hst
        split at hst <;> cases hst
      | message e now b msg =>
        simp only [Mgr.step] at hst
        split at hst <;> cases hst
      | timer now saved =>
        simp only [Mgr.step] at hst
        split at hst <;> cases hst
    · exact ih op x src hm

/-- **C40** Nobody is banned without reason: a banned address belongs to a peer disconnected by the protocol for a reason that is
not transient, or that could not be dialed. -/
theorem C40_only {cfg : Config} {peers : AMap Ip Known} {l m} (r : Run cfg peers l m) :
    ∀ ip ∈ m.bans, m.peers.get ip = none ∧
      ∃ a res, ((.disconnected a .permanent, res) ∈ l ∨ (.disconnected a .dial, res) ∈ l) ∧ a.ip = ip := by
  refine r.induct (P := fun l m => ∀ ip ∈ m.bans, m.peers.get ip = none ∧
      ∃ a res, ((Op.disconnected a .permanent, res) ∈ l ∨ (Op.disconnected a .dial, res) ∈ l) ∧ a.ip = ip) ?_ ?_
  · intro m hs ip hip
    rw [(starts_inv hs).2.2.1] at hip; cases hip
  · intro l m op res m' _ ih _ _ he ip hip
    rcases he.bansOnly ip hip with h | ⟨hn, a, r, rfl, hip', hr⟩
    · obtain ⟨h1, a, res', h2, h3⟩ := ih ip h
      exact ⟨(banned_step he h h1).2, a, res', h2.imp (List.mem_cons_of_mem _) (List.mem_cons_of_mem _), h3⟩
    · refine ⟨hn, a, res, ?_, hip'⟩
      rcases hr with rfl | rfl
      · exact .inl List.mem_cons_self
      · exact .inr List.mem_cons_self

/-- **C40** A peer disconnected for a transient reason keeps its place in the book. -/
theorem C40_transient {cfg : Config} {peers : AMap Ip Known} {l m} (r : Run cfg peers l m) (a : Sock) (rs : Reason)
    (hrs : rs = .transient ∨ rs = .other) {res m'} (h : m.step cfg (.disconnected a rs) = .ok (res, m')) :
    m'.peers = m.peers ∧ m'.bans = m.bans := by
  obtain ⟨m1, h1, _, _, _, h5⟩ := disconnected_ok r.inv.1 r.inv.2 cfg a rs
  simp only [Mgr.step, h1] at h
  injection h with h
  injection h with _ h
  subst h
  exact h5 hrs

/-! ## C41 -/

/-- An address may be sampled at `time` (milliseconds; the clock of the last save of the address book). -/
structure Usable (cfg : Config) (m : Mgr) (time : Nat) (pred : Known → Bool) (ip : Ip) (ka : Known) : Prop where
  known : m.peers.get ip = some ka
  wanted : pred ka = true
  domain : ∃ s, ka.addr.sock = some s ∧ domainOf s ∈ cfg.domains
  notFailed : ka.lastAttempt.isSome = true → ka.lastSuccess.isSome = true
  /-- Not sampled in the last three minutes (never sampled counts as sampled at time zero). -/
  rested : ka.lastSampled.getD 0 + 180000 ≤ time
  notConnected : ip ∉ m.connected

theorem eligible_iff {cfg : Config} {m : Mgr} {time : Nat} {pred : Known → Bool} {ip : Ip} {ka : Known}
    (h : m.peers.get ip = some ka) : m.eligible cfg time pred ip ka = true ↔ Usable cfg m time pred ip ka := by
  unfold Mgr.eligible
  have hst : sampleTimeout = 180000 := rfl
  simp only [Bool.and_eq_true, Bool.not_eq_true']
  constructor
  · rintro ⟨⟨⟨⟨h1, h2⟩, h3⟩, h4⟩, h5⟩
    have h3' := of_decide_eq_false h3
    refine ⟨h, h5, ?_, ?_, by omega, ?_⟩
    · cases hs : ka.addr.sock with
      | none => rw [hs] at h1; cases h1
      | some s => rw [hs] at h1; exact ⟨s, rfl, by simpa using h1⟩
    · intro ha
      rw [ha] at h2
      cases hl : ka.lastSuccess with
      | none => rw [hl] at h2; cases h2
      | some _ => rfl
    · intro hc
      rw [List.contains_iff_mem.2 hc] at h4; cases h4
  · rintro ⟨_, h5, ⟨s, hs, hd⟩, h2, h3, h4⟩
    refine ⟨⟨⟨⟨?_, ?_⟩, decide_eq_false (by omega)⟩, ?_⟩, h5⟩
    · rw [hs]; simpa using hd
    · cases ha : ka.lastAttempt with
      | none => rfl
      | some t =>
        have := h2 (by rw [ha]; rfl)
        cases hl : ka.lastSuccess with
        | none => rw [hl] at this; cases this
        | some _ => rfl
    · cases hc : m.connected.contains ip with
      | false => rfl
      | true => exact absurd (List.contains_iff_mem.1 hc) h4

/-- **C41** A sampled address is one of the address book that is usable: it satisfies the predicate, is of an allowed domain, was
not tried in vain, was not sampled in the last three minutes and is not connected.  Its time of last sampling is set, and nothing
else changes.  (partial: the current time is taken to be the time of the last save of the address book, which may be up to a
minute ago; connections are tracked by IP address, see `C41_not_connected`.) -/
theorem C41_sampled_partial {cfg : Config} {peers : AMap Ip Known} {l m} (r : Run cfg peers l m) (e : Env) (hf : e.Fair)
    (pred : Known → Bool) {a src m'} (h : m.step cfg (.sample e pred) = .ok (some (a, src), m')) :
    ∃ time ip ka, m.lastIdle = some time ∧ Usable cfg m time pred ip ka ∧ ka.addr = a ∧ ka.source = src ∧
      m'.peers.get ip = some { ka with lastSampled := some time } ∧ ∀ x, x ≠ ip → m'.peers.get x = m.peers.get x := by
  obtain ⟨time, ht⟩ := Option.isSome_iff_exists.1 r.inv.2
  rcases sampleWith_ok r.inv.1 cfg hf pred ht with ⟨hs, _⟩ | ⟨ip, ka, hs, hg, hel⟩
  · have : (Res.ok (none, m) : R _) = .ok (some (a, src), m') := hs.symm.trans h
    cases this
  · have : (Res.ok (some (ka.addr, ka.source), _) : R _) = .ok (some (a, src), m') := hs.symm.trans h
    injection this with this
    injection this with h1 h2
    injection h1 with h1
    injection h1 with h1 h1'
    subst h2
    obtain ⟨_, _, h3, _⟩ := update_inv r.inv.1 ip (fun k => { k with lastSampled := some time })
    refine ⟨time, ip, ka, ht, (eligible_iff hg).1 hel, h1, h1', ?_, fun x hx => ?_⟩
    · rw [h3, if_pos rfl, hg]; rfl
    · rw [h3, if_neg hx]

/-- **C41** If there is at most one connection per IP address at a time, a sampled address is not that of any open connection. -/
theorem C41_not_connected_partial {cfg : Config} {peers : AMap Ip Known} (hp : Sound peers) {l m} (r : Run cfg peers l m)
    (ho : OneConn l) (e : Env) (hf : e.Fair) (pred : Known → Bool) {a src m'}
    (h : m.step cfg (.sample e pred) = .ok (some (a, src), m')) :
    ∃ s, a.sock = some s ∧ ∀ b, isOpen b l = true → b.ip ≠ s.ip := by
  obtain ⟨time, ip, ka, _, hu, ha, _⟩ := C41_sampled_partial r e hf pred h
  obtain ⟨s, h1, h2, h3, h4⟩ := r.sound hp ip ka hu.known
  refine ⟨s, by rw [← ha]; exact h1, fun b hb heq => hu.notConnected ?_⟩
  refine (r.connected ip).2 ⟨?_, h3, h4⟩
  have := isOpen_linked ho hb
  rw [heq, h2] at this
  exact this

/-- **C41** Sampling finds an address whenever the book has a usable one. -/
theorem C41_complete {cfg : Config} {peers : AMap Ip Known} {l m} (r : Run cfg peers l m) (e : Env) (hf : e.Fair)
    (pred : Known → Bool) {m'} (h : m.step cfg (.sample e pred) = .ok (none, m')) :
    m' = m ∧ ∀ time ip ka, m.lastIdle = some time → ¬ Usable cfg m time pred ip ka := by
  obtain ⟨time, ht⟩ := Option.isSome_iff_exists.1 r.inv.2
  rcases sampleWith_ok r.inv.1 cfg hf pred ht with ⟨hs, hno⟩ | ⟨ip, ka, hs, hg, hel⟩
  · have : (Res.ok (none, m) : R _) = .ok (none, m') := hs.symm.trans h
    injection this with this
    injection this with _ this
    refine ⟨this.symm, fun t ip ka ht' hu => ?_⟩
    rw [ht] at ht'
    injection ht' with ht'
    subst ht'
    have := hno ip ka hu.known
    rw [(eligible_iff hu.known).2 hu] at this
    cases this
  · have : (Res.ok (some (ka.addr, ka.source), _) : R _) = .ok (none, m') := hs.symm.trans h
    cases this

/-! ## C42 -/

/-- **C42** What is in the book after an address message: what was there before (with the sender's time of last activity
updated), or acceptable addresses from the message, if it is not too long. -/
theorem C42_accepted {cfg : Config} {peers : AMap Ip Known} {l m} (r : Run cfg peers l m) (e : Env) (hf : e.Fair) (now : Nat)
    (b : Sock) (msgs : List (Nat × NetAddr)) {res m'} (h : m.step cfg (.message e now b (.addr msgs)) = .ok (res, m')) :
    ∀ ip ka, m'.peers.get ip = some ka →
      m.peers.get ip = some ka ∨
      (ip = b.ip ∧ ∃ ka0, m.peers.get ip = some ka0 ∧ ka = { ka0 with lastActive := some now }) ∨
      (msgs.length ≤ 1000 ∧ ∃ time t a s, m.lastIdle = some time ∧ (t, a) ∈ msgs ∧ Acceptable cfg m time t a s ∧ s.ip = ip ∧
        ka = { addr := a, source := .peer b, lastActive := some (t * 1000) }) := by
  obtain ⟨time, ht⟩ := Option.isSome_iff_exists.1 r.inv.2
  obtain ⟨m1, h1, _, _, _, h5⟩ := message_addr_ok r.inv.1 ht cfg hf now b msgs
  simp only [Mgr.step, h1] at h
  injection h with h
  injection h with _ h
  subst h
  intro ip ka hx
  rcases h5 ip ka hx with h | ⟨hl, t, a, s, h1, h2, h3, h4⟩
  · obtain ⟨_, _, hu, _⟩ := update_inv r.inv.1 b.ip (fun ka => { ka with lastActive := some now })
    rw [hu] at h
    by_cases hb : ip = b.ip
    · rw [if_pos hb] at h
      cases hg : m.peers.get ip with
      | none => rw [hg] at h; cases h
      | some k0 =>
        rw [hg] at h
        injection h with h
        exact .inr (.inl ⟨hb, k0, rfl, h.symm⟩)
    · rw [if_neg hb] at h; exact .inl h
  · exact .inr (.inr ⟨hl, time, t, a, s, ht, h1, h2, h3, h4⟩)

/-- **C42** An over-long (or empty) address message changes nothing but the sender's time of last activity. -/
theorem C42_rejected {cfg : Config} {peers : AMap Ip Known} {l m} (r : Run cfg peers l m) (e : Env) (hf : e.Fair) (now : Nat)
    (b : Sock) (msgs : List (Nat × NetAddr)) (hlong : msgs = [] ∨ 1000 < msgs.length) {res m'}
    (h : m.step cfg (.message e now b (.addr msgs)) = .ok (res, m')) :
    (∀ ip, m'.peers.get ip = if ip = b.ip then (m.peers.get ip).map (fun ka => { ka with lastActive := some now })
      else m.peers.get ip) ∧ m'.ranges = m.ranges := by
  obtain ⟨time, ht⟩ := Option.isSome_iff_exists.1 r.inv.2
  obtain ⟨m1, h1, _, _, h4, _⟩ := message_addr_ok r.inv.1 ht cfg hf now b msgs
  simp only [Mgr.step, h1] at h
  injection h with h
  injection h with _ h
  subst h
  rw [h4 hlong]
  obtain ⟨_, _, hu, hr⟩ := update_inv r.inv.1 b.ip (fun ka => { ka with lastActive := some now })
  exact ⟨hu, hr⟩

theorem insertLoop_append (cfg : Config) (e : Env) (time : Nat) (src : Source) (l' : List (Nat × NetAddr)) :
    ∀ (l : List (Nat × NetAddr)) (m m1 : Mgr), m.insertLoop cfg e time src l = .ok m1 →
      m.insertLoop cfg e time src (l ++ l') = m1.insertLoop cfg e time src l'
  | [], m, m1, h => by
    injection h with h
    subst h; rfl
  | (t, a) :: l, m, m1, h => by
    simp only [Mgr.insertLoop, List.cons_append] at h ⊢
    cases ho : m.insertOne cfg e time src t a with
    | ok m2 => simp only [ho] at h ⊢; exact insertLoop_append cfg e time src l' l m2 m1 h
    | err x => rw [ho] at h; cases h
    | panic => rw [ho] at h; cases h

theorem Acceptable.frame' {cfg : Config} {m m' : Mgr} (hf : Frame m m') {time t : Nat} {a : NetAddr} {s : Sock}
    (h : Acceptable cfg m time t a s) : Acceptable cfg m' time t a s :=
  ⟨h.services, h.notUtxo, h.notBloom, h.active, h.notFuture, h.sock, h.domain, hf.locals.symm ▸ h.notOurs,
    hf.bans.symm ▸ h.notBanned, h.routable, h.notLocal⟩

/-- **C42** An acceptable address is taken up: the last address of a message that is not too long is in the book afterwards.
(Earlier ones may be evicted by later ones of the same message.) -/
theorem C42_inserted {cfg : Config} {peers : AMap Ip Known} {l m} (r : Run cfg peers l m) (e : Env) (hf : e.Fair) (now : Nat)
    (b : Sock) (msgs : List (Nat × NetAddr)) (t : Nat) (a : NetAddr) (hlen : (msgs ++ [(t, a)]).length ≤ 1000) {time s}
    (ht : m.lastIdle = some time) (ha : Acceptable cfg m time t a s) {res m'}
    (h : m.step cfg (.message e now b (.addr (msgs ++ [(t, a)]))) = .ok (res, m')) : (m'.peers.get s.ip).isSome := by
  obtain ⟨hu, hfr, _, _⟩ := update_inv r.inv.1 b.ip (fun ka => { ka with lastActive := some now })
  obtain ⟨m1, h1, h2, h3, _⟩ := insertLoop_ok cfg hf time (.peer b) msgs _ hu
  obtain ⟨m2, k1, _, _, _, _, k6⟩ := insertOne_ok h2 cfg hf time (.peer b) t a
  have hl : ¬ ((decide (msgs ++ [(t, a)] = []) || decide ((msgs ++ [(t, a)]).length > maxAddrAddresses)) = true) := by
    have : ¬ ((msgs ++ [(t, a)]).length > maxAddrAddresses) := by unfold maxAddrAddresses; omega
    rw [Bool.or_eq_true, decide_eq_true_eq, decide_eq_true_eq]
    rintro (h' | h')
    · simp at h'
    · exact this h'
  have hstep : m.messageReceived cfg e now b (.addr (msgs ++ [(t, a)])) = .ok m2 := by
    unfold Mgr.messageReceived Mgr.receivedAddr
    simp only [hl, Mgr.insert, hfr.lastIdle, ht]
    show (m.update b.ip _).insertLoop cfg e time (.peer b) (msgs ++ [(t, a)]) = _
    rw [insertLoop_append cfg e time _ [(t, a)] msgs _ m1 h1]
    simp only [Mgr.insertLoop, k1]
  simp only [Mgr.step, hstep] at h
  injection h with h
  injection h with _ h
  subst h
  exact k6 s (Acceptable.frame' (hfr.trans h3) ha)

/-- Ranges grow by at most one address per announced address. -/
theorem insertOne_range {m : Mgr} (cfg : Config) {e : Env} (time : Nat) (src : Source) (t : Nat)
    (a : NetAddr) (k : Nat) : ∀ m', m.insertOne cfg e time src t a = .ok m' →
      ((m'.ranges.get k).getD []).length ≤ ((m.ranges.get k).getD []).length + 1 := by
  intro m' h
  rcases insertOne_cases m cfg e time src t a with ⟨h', _⟩ | ⟨s, hs, hg, h'⟩
  · rw [h'] at h; injection h with h; subst h; omega
  · rw [h'] at h
    unfold Mgr.populate at h
    simp only at h
    split at h
    · split at h
      · rename_i x hx
        injection h with h; subst h
        simp only [AMap.get_insert]
        by_cases hk : addrKey s.ip = k
        · rw [if_pos hk, hk]
          simp only [Option.getD_some]
          exact Nat.le_trans (sadd_length_le _ _) (Nat.succ_le_succ (sdel_length_le _ _))
        · rw [if_neg hk]; omega
      · cases h
    · injection h with h; subst h
      simp only [AMap.get_insert]
      by_cases hk : addrKey s.ip = k
      · rw [if_pos hk, hk]
        simp only [Option.getD_some]
        exact sadd_length_le _ _
      · rw [if_neg hk]; omega

theorem insertLoop_keeps (cfg : Config) {e : Env} (hf : e.Fair) (time : Nat) (src : Source) (x : Ip) :
    ∀ (l : List (Nat × NetAddr)) (m m' : Mgr), Inv m → (m.peers.get x).isSome →
      ((m.ranges.get (addrKey x)).getD []).length + l.length ≤ 256 → m.insertLoop cfg e time src l = .ok m' →
      m'.peers.get x = m.peers.get x
  | [], m, m', _, _, _, h => by injection h with h; subst h; rfl
  | (t, a) :: l, m, m', hi, hx, hlen, h => by
    obtain ⟨m1, h1, h2, h3, h4, h5, _⟩ := insertOne_ok hi cfg hf time src t a
    simp only [Mgr.insertLoop, h1] at h
    have hr := insertOne_range cfg time src t a (addrKey x) m1 h1
    simp only [List.length_cons] at hlen
    have hk : m1.peers.get x = m.peers.get x := by
      rcases h5 x hx with h' | ⟨_, rg, hg, hfull⟩
      · exact h'
      · exfalso
        rw [hg] at hlen
        simp only [Option.getD_some, maxRangeSize] at hlen hfull
        omega
    rw [insertLoop_keeps cfg hf time src x l m1 m' h2 (by rw [hk]; exact hx) (by omega) h, hk]

/-- **C42** (partial: unless its range gets full) An address already known is not overwritten by an address message, whatever it
says about it: only the sender's time of last activity changes. -/
theorem C42_known_kept_partial {cfg : Config} {peers : AMap Ip Known} {l m} (r : Run cfg peers l m) (e : Env) (hf : e.Fair)
    (now : Nat) (b : Sock) (msgs : List (Nat × NetAddr)) (ip : Ip) (hk : (m.peers.get ip).isSome)
    (hroom : ((m.ranges.get (addrKey ip)).getD []).length + msgs.length ≤ 256) {res m'}
    (h : m.step cfg (.message e now b (.addr msgs)) = .ok (res, m')) :
    m'.peers.get ip = if ip = b.ip then (m.peers.get ip).map (fun ka => { ka with lastActive := some now })
      else m.peers.get ip := by
  obtain ⟨time, ht⟩ := Option.isSome_iff_exists.1 r.inv.2
  obtain ⟨hu, hfr, hget, hrg⟩ := update_inv r.inv.1 b.ip (fun ka => { ka with lastActive := some now })
  by_cases hlong : msgs = [] ∨ 1000 < msgs.length
  · exact (C42_rejected r e hf now b msgs hlong h).1 ip
  · obtain ⟨m1, h1, _⟩ := insertLoop_ok cfg hf time (.peer b) msgs _ hu
    have hl : ¬ ((decide (msgs = []) || decide (msgs.length > maxAddrAddresses)) = true) := by
      unfold maxAddrAddresses
      simpa using hlong
    have hstep : m.messageReceived cfg e now b (.addr msgs) = .ok m1 := by
      unfold Mgr.messageReceived Mgr.receivedAddr
      simp only [hl, Mgr.insert, hfr.lastIdle, ht]
      exact h1
    simp only [Mgr.step, hstep] at h
    injection h with h
    injection h with _ h
    subst h
    have := insertLoop_keeps cfg hf time (.peer b) ip msgs _ m1 hu (by rw [hget]; split <;> simp [hk]) (by rw [hrg]; exact hroom) h1
    rw [this, hget]

/-- **C42** Addresses enter the book only by address messages. -/
theorem C42_only_announced {cfg : Config} {peers : AMap Ip Known} {l m} (r : Run cfg peers l m) (op : Op) (hf : op.Fair) {res m'}
    (h : m.step cfg op = .ok (res, m')) (ip : Ip) (hnew : m.peers.get ip = none) (hin : (m'.peers.get ip).isSome) :
    ∃ e now b msgs t a s, op = .message e now b (.addr msgs) ∧ (t, a) ∈ msgs ∧ a.sock = some s ∧ s.ip = ip := by
  obtain ⟨ka, hka⟩ := Option.isSome_iff_exists.1 hin
  rcases (effect_of r.inv.1 r.inv.2 hf h).entry ip ka hka with ⟨ka0, h1, _⟩ | ⟨_, t, a, s, ha, hs, _, e, now, b, msgs, hop, hm⟩
  · rw [hnew] at h1; cases h1
  · exact ⟨e, now, b, msgs, t, a, s, hop, hm, ha.sock, hs⟩

/-! ## C43 -/

/-- **C43** (counterexample) Importing addresses never adds any: after every history, for every list of addresses, nothing
changes. -/
theorem C43_import_ignored {cfg : Config} {peers : AMap Ip Known} {l m} (r : Run cfg peers l m) (e : Env)
    (addrs : List NetAddr) : m.step cfg (.importAddresses e addrs) = .ok (none, m) := by
  obtain ⟨time, ht⟩ := Option.isSome_iff_exists.1 r.inv.2
  simp only [Mgr.step, Mgr.importAddresses, Mgr.insert, ht, import_nothing]

/-! ## C68, C69 -/

/-- **C68** (partial: with at most one connection per IP address) Peers asked for addresses by the timer have an open
connection. -/
theorem C68_connected_partial {cfg : Config} {peers : AMap Ip Known} {l m} (r : Run cfg peers l m) (ho : OneConn l)
    (hp : Proper l) (now : Nat) (saved : Bool) {res m'} (h : m.step cfg (.timer now saved) = .ok (res, m')) :
    ∀ b, Out.getAddr b ∈ m'.out.drop m.out.length → isOpen b l = true := by
  obtain ⟨time, ht⟩ := Option.isSome_iff_exists.1 r.inv.2
  intro b hb
  refine (r.sources ho hp b ?_).1
  simp only [Mgr.step, Mgr.timerExpired, ht] at h
  have key : ∀ (sv : Bool), Out.getAddr b ∉ (if sv then [] else [Out.storeError]) ++ [Out.timer idleTimeout] := by
    intro sv; cases sv <;> simp
  by_cases h1 : now - m.lastRequest.getD 0 ≥ requestTimeout
  · simp only [h1, if_true] at h
    by_cases h2 : m.isExhausted time = true
    · simp only [h2, if_true] at h
      injection h with h
      injection h with _ h
      subst h
      split at hb
      · simp only [Mgr.idle, List.append_assoc, List.drop_left] at hb
        rcases List.mem_append.1 hb with hb | hb
        · simp at hb
        · rcases List.mem_append.1 hb with hb | hb
          · simpa using hb
          · rcases List.mem_append.1 hb with hb | hb
            · simp at hb
            · exact absurd hb (key saved)
      · simp only [List.append_assoc, List.drop_left] at hb
        simpa using hb
    · simp only [h2] at h
      injection h with h
      injection h with _ h
      subst h
      split at hb
      · simp only [Mgr.idle, List.append_assoc, List.drop_left] at hb
        exact absurd hb (key saved)
      · simp at hb
  · simp only [h1] at h
    injection h with h
    injection h with _ h
    subst h
    split at hb
    · simp only [Mgr.idle, List.append_assoc, List.drop_left] at hb
      exact absurd hb (key saved)
    · simp at hb

/-- **C68** When no address of the book is usable and more than a minute has passed since the last request, the user is told and
every source of addresses is asked. -/
theorem C68_asked {cfg : Config} {m : Mgr} (now : Nat) (saved : Bool) {time}
    (ht : m.lastIdle = some time) (hreq : ∀ t, m.lastRequest = some t → t + 60000 ≤ now) (hnow : 60000 ≤ now)
    (hex : ∀ p ∈ m.peers, (p.2.lastAttempt.isSome ∧ p.2.lastSuccess = none) ∨ time < p.2.lastSampled.getD 0 + 180000 ∨
      p.1 ∈ m.connected) {res m'} (h : m.step cfg (.timer now saved) = .ok (res, m')) :
    Out.exhausted ∈ m'.out.drop m.out.length ∧ (∀ b ∈ m.sources, Out.getAddr b ∈ m'.out.drop m.out.length) ∧
      m'.lastRequest = some now := by
  have h1 : now - m.lastRequest.getD 0 ≥ requestTimeout := by
    unfold requestTimeout
    cases hr : m.lastRequest with
    | none => simpa using hnow
    | some t => have := hreq t hr; simp only [Option.getD_some]; omega
  have h2 : m.isExhausted time = true := by
    unfold Mgr.isExhausted
    rw [List.all_eq_true]
    intro p hp
    rcases hex p hp with ⟨ha, hb⟩ | h' | h'
    · rw [ha, hb]; rfl
    · have : decide (time - p.2.lastSampled.getD 0 < sampleTimeout) = true := by
        unfold sampleTimeout; rw [decide_eq_true_eq]; omega
      simp [this]
    · simp [h']
  simp only [Mgr.step, Mgr.timerExpired, ht, h1, h2, if_true] at h
  injection h with h
  injection h with _ h
  subst h
  split
  · simp only [Mgr.idle, List.append_assoc, List.drop_left]
    exact ⟨by simp, fun b hb => by simp [hb], trivial⟩
  · simp only [List.append_assoc, List.drop_left]
    exact ⟨by simp, fun b hb => by simp [hb], trivial⟩

theorem addrKey_lt (ip : Ip) : addrKey ip < 255 := by
  cases ip <;> exact Nat.mod_lt _ (by decide)

/-- **C69** A request for addresses is answered with a message of at most 255 addresses, all from the address book. -/
theorem C69_answer {cfg : Config} {peers : AMap Ip Known} {l m} (r : Run cfg peers l m) (e : Env) (hf : e.Fair) (now : Nat)
    (b : Sock) {res m'} (h : m.step cfg (.message e now b .getAddr) = .ok (res, m')) :
    ∃ as, m'.out = m.out ++ [.addr b as] ∧ as.length ≤ 255 ∧
      ∀ x ∈ as, ∃ ip ka, m'.peers.get ip = some ka ∧ x.2 = ka.addr := by
  obtain ⟨hu, hfr, _, hrg⟩ := update_inv r.inv.1 b.ip (fun ka => { ka with lastActive := some now })
  obtain ⟨as, hl, hlen, hall⟩ := getAddrLoop_ok _ hf _ (ranges_values hu)
  simp only [Mgr.step, Mgr.messageReceived, Mgr.receivedGetAddr, hl] at h
  injection h with h
  injection h with _ h
  subst h
  refine ⟨as, by rw [hfr.out], ?_, hall⟩
  rw [hlen, hrg, List.length_map]
  have hsub : ∀ k ∈ m.ranges.keys, k ∈ List.range 255 := by
    intro k hk
    obtain ⟨rg, hg⟩ := Option.isSome_iff_exists.1 ((AMap.get_isSome_iff _ _).2 hk)
    obtain ⟨h1, _, _, h4⟩ := r.inv.1.range k rg hg
    obtain ⟨ip, hip⟩ := List.exists_mem_of_ne_nil _ h1
    rw [List.mem_range, ← (h4 ip hip).1]
    exact addrKey_lt ip
  have := (List.subperm_of_subset r.inv.1.keys hsub).length_le
  rw [List.length_range] at this
  simpa [AMap.keys] using this

end Verif.Addr
