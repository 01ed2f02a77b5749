import Verif.Cbf.Takes
import Verif.Cbf.PropsMatch

/-!
# C120: who is reported as misbehaving
-/

set_option autoImplicit false

namespace Verif.Cbf

/-- The call reports peer `a` as misbehaving. -/
def Blames (m m' : Mgr) (a : Nat) : Prop := ∃ d, m'.out = m.out ++ d ∧ .event (.peerMisbehaved a) ∈ d

/-- A call that reports nobody. -/
def Mild (m m' : Mgr) : Prop := ∃ d, m'.out = m.out ++ d ∧ ∀ a, .event (.peerMisbehaved a) ∉ d

theorem Mild.no_blame {m m' : Mgr} (h : Mild m m') (a : Nat) : ¬ Blames m m' a := by
  rintro ⟨d, h1, h2⟩
  obtain ⟨d', h3, h4⟩ := h
  have : d = d' := List.append_cancel_left (h1.symm.trans h3)
  subst this
  exact h4 a h2

theorem Mild.refl (m : Mgr) : Mild m m := ⟨[], by simp, by simp⟩

theorem Mild.trans {a b c : Mgr} : Mild a b → Mild b c → Mild a c
  | ⟨d1, h1, h2⟩, ⟨d2, h3, h4⟩ => ⟨d1 ++ d2, by rw [h3, h1, List.append_assoc], fun x hx => (List.mem_append.1 hx).elim (h2 x) (h4 x)⟩

theorem Mild.of {m m' : Mgr} (d : List Out) (h : m'.out = m.out ++ d) (h2 : ∀ a, .event (.peerMisbehaved a) ∉ d) : Mild m m' := ⟨d, h, h2⟩

theorem Mild.quiet {t : Tree} {m m' : Mgr} (q : Quiet t m m') : Mild m m' := by
  obtain ⟨o, h1, h2, -⟩ := q.out
  refine ⟨o, h1, fun a ha => ?_⟩
  have : Ev.peerMisbehaved a ∈ eventsOf o := by
    unfold eventsOf
    rw [List.mem_filterMap]
    exact ⟨_, ha, rfl⟩
  rw [h2] at this
  cases this

theorem Mild.blame {m m1 : Mgr} {a b : Nat} (h : Mild m m1) (hb : Blames m (m1.emit [.event (.peerMisbehaved b)]) a) : a = b := by
  obtain ⟨d', h3, h4⟩ := h
  obtain ⟨d, h1, h2⟩ := hb
  have : d = d' ++ [.event (.peerMisbehaved b)] := by
    refine List.append_cancel_left (h1.symm.trans ?_)
    simp only [Mgr.emit, h3, List.append_assoc]
  subst this
  rcases List.mem_append.1 h2 with h | h
  · exact absurd h (h4 a)
  · simpa using h

variable {p : Params} {t : Tree} {e : Env}

theorem mild_process (r : Rescan) {r' : Rescan} {ms : List (Nat × Nat)} {es : List Ev} {n : Nat} (h : r.process p = (r', ms, es, n)) (a : Nat) : .peerMisbehaved a ∉ es := by
  obtain ⟨n', r'', ms', es', stp, h1, h2, h3, h4, h5, h6, h7, h8, h9, h10, h11⟩ := C29_process p r
  rw [h] at h1
  simp only [Prod.mk.injEq] at h1
  obtain ⟨-, -, rfl, rfl⟩ := h1
  intro hm
  rcases List.mem_append.1 hm with hm | hm
  · obtain ⟨i, hi⟩ := List.getElem?_of_mem hm
    have hlt : i < n := by rw [← h5]; exact (List.getElem?_eq_some_iff.1 hi).1
    obtain ⟨x, hx⟩ := Option.isSome_iff_exists.1 (h3 i hlt)
    obtain ⟨e', he', v', mt', he, -⟩ := h6 i x hlt hx
    rw [hi] at he'
    cases he'
    cases he
  · rcases h10 with ⟨rfl, _⟩ | ⟨rfl, _⟩ <;> simp at hm

theorem mild_cfheaders (m : Mgr) (msg : CFHeadersMsg) : Mild m (m.receivedCFHeaders p e t msg).1 := by
  obtain ⟨m0, o, -, h2, h3, -, -, q⟩ := receivedCFHeaders_frame p e t m msg
  have h0 : Mild m m0 := by
    obtain ⟨d, a1, a2⟩ := Mild.quiet q
    exact ⟨d, a1, a2⟩
  refine h0.trans ⟨o, h2, fun a ha => ?_⟩
  have : Ev.peerMisbehaved a ∈ eventsOf o := by
    unfold eventsOf
    rw [List.mem_filterMap]
    exact ⟨_, ha, rfl⟩
  obtain ⟨h, hh⟩ := h3 _ this
  cases hh

theorem mild_cfilter (m : Mgr) (a b c : Nat) (f : Filter) (hp : (m.receivedCFilter p e t a b c f).2 ≠ .panic) : Mild m (m.receivedCFilter p e t a b c f).1 := by
  have hc := receivedCFilter_cases p e t m a b c f
  generalize m.receivedCFilter p e t a b c f = q at hc hp
  cases hc with
  | ignored => exact .refl m
  | invalid => exact .refl m
  | unsolicited h => exact .of [_] rfl (by simp)
  | scanned h c r ms es n _ _ _ _ _ hpr =>
    refine .of _ rfl fun a ha => ?_
    simp only [List.mem_cons, reduceCtorEq, List.mem_map, Out.event.injEq, exists_eq_right, false_or] at ha
    exact mild_process _ hpr a ha
  | panicked => exact absurd rfl hp

theorem mild_startRescan (m : Mgr) (a b : Bound) (w : List Nat) (hp : (m.startRescan p e t a b w).2 ≠ .panic) : Mild m (m.startRescan p e t a b w).1 := by
  have hc := startRescan_cases p e t m a b w
  generalize m.startRescan p e t a b w = q at hc hp
  cases hc with
  | panicked => exact absurd rfl hp
  | nothing => exact .of [_] rfl (by simp)
  | processed stop m1 r ms es n _ hq hpr =>
    refine Mild.trans (b := m1) ?_ (.of (es.map .event) rfl fun a ha => ?_)
    · exact Mild.trans (b := { m with rescan := m.rescan.restart (a.first t) stop w, out := m.out ++ [.event (.rescanStarted (a.first t) stop)] })
        (.of [_] rfl (by simp)) (.quiet hq)
    · simp only [List.mem_map, Out.event.injEq, exists_eq_right] at ha
      exact mild_process _ hpr a ha

theorem subUsize_ne_err {E : Type} {c : Bool} {a b : Nat} {x : E} : (subUsize c a b : Res E Nat) ≠ .err x := by
  unfold subUsize
  intro h
  split at h
  · cases h
  · split at h <;> cases h

theorem addUsize_ne_err {E : Type} {c : Bool} {a b : Nat} {x : E} : (addUsize c a b : Res E Nat) ≠ .err x := by
  unfold addUsize
  intro h
  split at h
  · cases h
  · split at h <;> cases h

theorem getHeaders_ne_err {E : Type} {c : Bool} {f : FilterHeaders} {s st : Nat} {x : E} : (getHeaders c f s st : Res E (List Entry)) ≠ .err x := by
  unfold getHeaders
  have h1 := subUsize_ne_err (c := c) (a := st) (b := s) (x := x)
  generalize (subUsize c st s : Res E Nat) = r1 at h1
  intro h
  cases r1 with
  | err e => rw [Res.err_bind] at h; cases h; exact h1 rfl
  | panic => cases h
  | ok n =>
    have h2 := addUsize_ne_err (c := c) (a := n) (b := 1) (x := x)
    replace h : ((addUsize c n 1 : Res E Nat) >>= fun n => Res.ok ((f.all.drop s).take n)) = .err x := h
    generalize (addUsize c n 1 : Res E Nat) = r2 at h h2
    cases r2 with
    | err e => rw [Res.err_bind] at h; cases h; exact h2 rfl
    | panic => cases h
    | ok n => cases h

/-- Who is reported, and on what message. -/
theorem step_blames {m m' : Mgr} {op : Op} {a : Nat} (h : m.step p e t op = .ok m') (hb : Blames m m' a) :
    (∃ msg, op = .cfheaders a msg ∧ (m.receivedCFHeaders p e t msg).2 = .err .invalid) ∨
    (∃ ft s st, op = .getcfheaders a ft s st ∧ ft ≠ 0) ∨
    (∃ ft b f, op = .cfilter a ft b f ∧ (m.receivedCFilter p e t a ft b f).2 = .err .invalid) := by
  have no : Mild m m' → False := fun hm => hm.no_blame a hb
  cases op with
  | init => exact (no (.quiet (quiet_idle p e t m m' h))).elim
  | peerNegotiated b o f x =>
    simp only [Mgr.step] at h
    refine (no ?_).elim
    split at h
    · cases h; exact .refl m
    · split at h
      · cases h; exact .refl m
      · obtain ⟨d, h1, h2⟩ := Mild.quiet (quiet_sync p e t _ m' h)
        exact ⟨d, h1, h2⟩
  | peerDisconnected b => cases h; exact (no (.of [] (by simp) (by simp))).elim
  | blockProcessed b n =>
    simp only [Mgr.step] at h
    refine (no ?_).elim
    split at h
    · cases h
      have ho : ∀ (x y : Ev) (m1 : Mgr), (∀ a, x ≠ .peerMisbehaved a) → (∀ a, y ≠ .peerMisbehaved a) → m1.out = m.out ++ [.event x] ++ [.event y] → Mild m m1 :=
        fun x y m1 h1 h2 h3 => .of ([.event x] ++ [.event y]) (by rw [h3, List.append_assoc]) fun a ha => by
          simp only [List.cons_append, List.nil_append, List.mem_cons, Out.event.injEq, List.not_mem_nil, or_false] at ha
          rcases ha with ha | ha
          · exact h1 a ha.symm
          · exact h2 a ha.symm
      exact ho _ _ _ (by simp) (by simp) rfl
    · cases h; exact .refl m
  | blockDisconnected n => cases h; exact (no (.of [] (by simp) (by simp))).elim
  | headersImported r =>
    simp only [Mgr.step] at h
    refine (no ?_).elim
    split at h
    · rw [Res.bind_eq_ok] at h
      obtain ⟨f, -, h⟩ := h
      rw [Res.bind_eq_ok] at h
      obtain ⟨m1, h1, h⟩ := h
      refine Mild.trans ?_ (.quiet (quiet_sync p e t m1 m' h))
      rcases rollback_cases e m m1 _ h1 with ⟨rfl, -⟩ | ⟨-, c, -, -, r1, r2⟩
      · exact .refl _
      · cases hf : e.fail with
        | false => exact .of [] (by rw [(r1 hf).2.1]; simp) (by simp)
        | true => exact .of [_] (r2 hf).2.1 (by simp)
    · exact .quiet (quiet_sync p e t m m' h)
  | txConfirmed i => cases h; exact (no (.of [] (by simp) (by simp))).elim
  | txReverted i s => cases h; exact (no (.of [] (by simp) (by simp))).elim
  | cfheaders b msg =>
    simp only [Mgr.step] at h
    have y := mild_cfheaders (p := p) (t := t) (e := e) m msg
    left
    generalize hq : m.receivedCFHeaders p e t msg = q at h y
    obtain ⟨q1, q2⟩ := q
    split at h <;> (rename_i heq; cases heq) <;> cases h
    · exact (no y).elim
    · exact ⟨msg, by rw [y.blame hb], by rw [hq]⟩
    · exact (no (y.trans (.of [_] rfl (by simp)))).elim
    · exact (no y).elim
  | getcfheaders b ft s st =>
    simp only [Mgr.step] at h
    have y : Mild m (m.receivedGetCFHeaders p t b ft s st).1 := by
      rcases receivedGetCFHeaders_frame p t m b ft s st with hx | ⟨_, _, hx⟩ <;> rw [hx]
      · exact .refl m
      · exact .of [_] rfl (by simp)
    have hz : (m.receivedGetCFHeaders p t b ft s st).2 = .err .invalid → ft ≠ 0 := by
      unfold Mgr.receivedGetCFHeaders
      split
      · rename_i h; exact fun _ => h
      · split
        · intro h; simp at h
        · rename_i h _
          have hg := getHeaders_ne_err (c := p.checked) (f := m.filters) (s := s) (st := h) (x := Err.invalid)
          generalize (getHeaders p.checked m.filters s h : Res Err (List Entry)) = g at hg
          intro hi
          exfalso
          unfold Mgr.serveCFHeaders at hi
          split at hi
          · simp at hi
          · split at hi <;> simp at hi
          · simp only [Res.err.injEq] at hi
            subst hi
            exact hg rfl
          · simp at hi
    right; left
    generalize m.receivedGetCFHeaders p t b ft s st = q at h y hz
    obtain ⟨q1, q2⟩ := q
    split at h <;> (rename_i heq; cases heq) <;> cases h
    · exact (no y).elim
    · exact ⟨ft, s, st, by rw [y.blame hb], hz rfl⟩
    · exact (no y).elim
  | cfilter b ft bl f =>
    simp only [Mgr.step] at h
    have y := mild_cfilter (p := p) (t := t) (e := e) m b ft bl f
    right; right
    generalize hq : m.receivedCFilter p e t b ft bl f = q at h y
    obtain ⟨q1, q2⟩ := q
    split at h <;> (rename_i heq; cases heq) <;> cases h
    · refine (no ((y (by simp)).trans ?_)).elim
      obtain ⟨-, ks, o, h2, h3⟩ := afterFilter_frame (m := q1) (ms := _)
      refine .of _ h2 fun a ha => ?_
      rcases h3 with rfl | ⟨_, rfl⟩ <;> simp at ha
    · have := (y (by simp)).blame hb
      subst this
      exact ⟨ft, bl, f, rfl, by rw [hq]⟩
    · exact (no (y (by simp))).elim
  | timer => exact (no (.quiet (quiet_timerExpired p e t m m' h))).elim
  | watch s => cases h; exact (no (.of [] (by simp) (by simp))).elim
  | watchTransaction i s => cases h; exact (no (.of [] (by simp) (by simp))).elim
  | rescan x y w =>
    simp only [Mgr.step] at h
    have hy := mild_startRescan (p := p) (t := t) (e := e) m x y w
    generalize m.startRescan p e t x y w = q at h hy
    obtain ⟨q1, q2⟩ := q
    cases q2 <;> simp at h
    subst h
    exact (no ((hy (by simp)).trans (.of _ rfl (by simp)))).elim
  | getCFilters x y =>
    simp only [Mgr.step] at h
    have hy := Mild.quiet (quiet_getCFilters e t m x y)
    generalize m.getCFilters e t x y = q at h hy
    obtain ⟨q1, q2⟩ := q
    cases q2 <;> simp at h <;> (subst h; exact (no hy).elim)

theorem sync_ne_err {E : Type} {m : Mgr} {x : E} : (m.sync p e t : Res E Mgr) ≠ .err x := by
  unfold Mgr.sync
  intro h
  split at h
  · split at h
    · cases h
    · generalize hs : (if m.filters.height < t.height then m.sendGetCFHeaders p e t (m.filters.height + 1) t.height else .ok m : Res E Mgr) = s1 at h
      cases s1 with
      | err y =>
        split at hs
        · unfold Mgr.sendGetCFHeaders at hs
          split at hs
          · split at hs <;> cases hs
          · simp only at hs
            split at hs <;> cases hs
        · cases hs
      | panic => cases h
      | ok m1 =>
        rw [Res.ok_bind] at h
        split at h
        · split at h <;> cases h
        · cases h
  · cases h

/-- An honest answer is not taken for an invalid message. -/
theorem honest_valid {es : List Entry} (hn : t.hashes.Nodup) (hlen : es.length = t.hashes.length) (hcol : (zeroHeader :: es.map (·.2)).Nodup) {m : Mgr} (hg : m.filters.all <+: es)
    {i k : Nat} {msg : CFHeadersMsg} (hh : Honest es t i k msg) (hmax : msg.hashes.length ≤ maxCFHeaders) : (m.receivedCFHeaders p e t msg).2 ≠ .err .invalid := by
  obtain ⟨j, b1, b2, b3⟩ := hh.hashes
  have hjl : j < es.length := by rw [hlen]; exact (List.getElem?_eq_some_iff.1 b1).1
  have hl : msg.hashes.length = j + 1 - i := by rw [b3]; simp; omega
  have hst : t.heightOf msg.stop = some j := by rw [hh.stop, heightOf_eq_some hn]; exact b1
  intro heq
  revert heq
  unfold Mgr.receivedCFHeaders
  split
  · simp
  · simp only [hst]
    rw [if_neg (by rw [hh.type]; simp)]
    split
    · simp
    · split
      · simp
      · rename_i hle hprev
        have hi : i = m.filters.height + 1 := by
          have h1 := hh.prev
          have h2 := prefix_get hg
          have hprev' : msg.prev = tipHeader m.filters := by simpa using hprev
          cases i with
          | zero =>
            simp only [below, Option.some.injEq] at h1
            rw [← List.getElem?_map, ← hprev', ← h1] at h2
            exact absurd (List.mem_of_getElem? h2) (List.nodup_cons.1 hcol).1
          | succ i =>
            simp only [below, hprev'] at h1
            rw [← List.getElem?_map] at h1 h2
            obtain ⟨x1, x2⟩ := List.getElem?_eq_some_iff.1 h1
            obtain ⟨y1, y2⟩ := List.getElem?_eq_some_iff.1 h2
            rw [(List.Nodup.getElem_inj_iff (List.nodup_cons.1 hcol).2).1 (x2.trans y2.symm)]
        subst hi
        rw [if_neg (by omega), if_neg (by omega), if_neg (by omega), if_neg (by omega)]
        split
        · split
          · split
            · split
              · simp
              · split
                · simp
                · rename_i hs; exact absurd hs sync_ne_err
                · simp
            · simp
          · simp
        · simp

theorem committed_valid {es : List Entry} (hn : t.hashes.Nodup) {m : Mgr} (hg : m.filters.all <+: es) {a ft b : Nat} {f : Filter}
    (h : (m.receivedCFilter p e t a ft b f).2 = .err .invalid) : ft = 0 ∧ ∃ h, t.byHeight h = some b ∧ ¬ Committed p es h f := by
  have hc := receivedCFilter_cases p e t m a ft b f
  generalize m.receivedCFilter p e t a ft b f = q at hc h
  cases hc with
  | ignored => simp at h
  | invalid j x1 x2 x3 x4 =>
    refine ⟨x1, j, (heightOf_eq_some hn b j).1 x2, fun hcm => x4 ?_⟩
    obtain ⟨hdr, prev, c1, c2, c3⟩ := hcm
    obtain ⟨r, rfl⟩ := hg
    have hj : j < m.filters.all.length := by
      obtain ⟨y, hy⟩ := Option.isSome_iff_exists.1 x3
      exact (List.getElem?_eq_some_iff.1 hy).1
    refine ⟨hdr, prev, ?_, ?_, c3⟩
    · rw [List.getElem?_append_left hj] at c1; exact c1
    · cases j with
      | zero => exact c2
      | succ j =>
        simp only [below] at c2 ⊢
        rw [List.getElem?_append_left (by omega)] at c2; exact c2
  | unsolicited => simp at h
  | scanned => simp at h
  | panicked => simp at h

/-- **C120** (partial) Whoever is reported as misbehaving has just sent an improper message: a `getcfheaders` message for an unknown kind of filter, a filter of a block of the
chain that is not the one the filter headers commit to, or a `cfheaders` message that is not the honest answer to any request for at most 2000 filter headers.
Conditions: the filter headers held are those of the chain (which a stranger can prevent: `Scenario.C120_forged`), whose block hashes and filter headers are without
collisions.  Not covered, and false, is an honest answer that comes in after the block it ends with has left the chain: `Scenario.C120_reorg`. -/
theorem C120_blamed_partial {es : List Entry} (hn : t.hashes.Nodup) (hlen : es.length = t.hashes.length) (hcol : (zeroHeader :: es.map (·.2)).Nodup)
    {m m' : Mgr} {op : Op} {a : Nat} (hg : m.filters.all <+: es) (h : m.step p e t op = .ok m') (hb : Blames m m' a) :
    (∃ ft s st, op = .getcfheaders a ft s st ∧ ft ≠ 0) ∨
    (∃ b f h, op = .cfilter a 0 b f ∧ t.byHeight h = some b ∧ ¬ Committed p es h f) ∨
    (∃ msg, op = .cfheaders a msg ∧ ∀ i k, Honest es t i k msg → 2000 < msg.hashes.length) := by
  rcases step_blames h hb with ⟨msg, ho, hi⟩ | h | ⟨ft, b, f, ho, hi⟩
  · refine .inr (.inr ⟨msg, ho, fun i k hh => ?_⟩)
    apply Nat.lt_of_not_le
    exact fun hmax => honest_valid hn hlen hcol hg hh hmax hi
  · exact .inl h
  · obtain ⟨rfl, h, h1, h2⟩ := committed_valid hn hg hi
    exact .inr (.inl ⟨b, f, h, ho, h1, h2⟩)

end Verif.Cbf

namespace Verif.Cbf.Scenario

/-- C120: somebody is reported in a state that meets the conditions of the theorem. -/
example : look (fun m => (m.filters.all, eventsOf m.out)) (m0.run p (setup ++ [(at_ 100002, t, .cfilter 4 0 102 [7])])) =
    some ([(5, 6), (1, 62), (2, 623), (3, 6234)], [.filterHeadersSynced 3, .peerMisbehaved 4]) ∧
    (zeroHeader :: [(5, 6), (1, 62), (2, 623), (3, 6234)].map (·.2)).Nodup := by decide

/-- C120 fails: peer 1 is asked for the filter headers up to block 103 and answers truthfully, but block 103 has left the chain meanwhile; the peer is reported. -/
theorem C120_reorg : events (m0.run p [(at_ 100000, t, .peerNegotiated 1 true true false), (at_ 100001, t', .headersImported [3]),
    (at_ 100002, t', .cfheaders 1 ⟨0, 103, 6, [1, 2, 3]⟩)]) = some [.peerMisbehaved 1] := by decide

/-- C120 fails: peer 4, who was asked nothing, answers first with made-up filter headers; peer 1 is reported for the true filter of block 101. -/
theorem C120_forged : events (m0.run p [(at_ 100000, t, .peerNegotiated 1 true true false), (at_ 100001, t, .cfheaders 4 ⟨0, 103, 6, [7, 8, 9]⟩),
    (at_ 100002, t, .cfilter 1 0 101 [1])]) = some [.filterHeadersSynced 3, .peerMisbehaved 1] := by decide

end Verif.Cbf.Scenario
