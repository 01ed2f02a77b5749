import Verif.Cbf.Takes

/-!
# C119: the filter headers catch up with the chain
-/

set_option autoImplicit false

namespace Verif.Cbf

/-- In the `j`th call, the filter headers from `i` up to block `k` are asked for. -/
def Asks (f : Nat → Mgr) (j i k : Nat) : Prop := ∃ d a, (f (j + 1)).out = (f j).out ++ d ∧ .getCFHeaders a i k ∈ d

/-- In the `j`th call, an honest answer to the request for the filter headers from `i` up to block `k` comes in. -/
def Answers (es : List Entry) (t : Tree) (op : Nat → Op) (j i k : Nat) : Prop := ∃ a msg, op j = .cfheaders a msg ∧ Honest es t i k msg

/-- Something happens again and again. -/
def Often (P : Nat → Prop) : Prop := ∀ n, ∃ j, n ≤ j ∧ P j

/-- An endless execution with the same chain of blocks `t`, whose filter headers are `es`.  Any calls may come in any order, with these conditions: the store
works, the chain is not re-organized, there is always some peer serving filters, timers go on, peers answer honestly, a request sent again and again is
answered again and again (so any number of messages may be lost), and a request that is not sent anymore is not answered for ever. -/
structure Serves (p : Params) (t : Tree) (es : List Entry) (f : Nat → Mgr) (op : Nat → Op) (env : Nat → Env) : Prop where
  step : ∀ n, (f n).step p (env n) t (op n) = .ok (f (n + 1))
  fair : ∀ n, (env n).Fair
  store : ∀ n, (env n).fail = false
  chain : ∀ n r, op n = .headersImported r → r = []
  peers : ∀ n, (f n).peers ≠ []
  timer : ∀ T, Often fun n => op n = .timer ∧ T ≤ (env n).now
  honest : ∀ n a msg, op n = .cfheaders a msg → ∃ i k, Honest es t i k msg
  answered : ∀ i k, Often (fun j => Asks f j i k) ↔ Often (fun j => Answers es t op j i k)

variable {p : Params} {t : Tree} {es : List Entry} {f : Nat → Mgr} {op : Nat → Op} {env : Nat → Env}

theorem Serves.reverts (s : Serves p t es f op env) (n : Nat) : (op n).reverts = false := by
  cases h : op n with
  | headersImported r => rw [s.chain n r h]; rfl
  | _ => rfl

/-- A call keeps the filter headers or takes more of the chain's. -/
theorem Serves.takes (s : Serves p t es f op env) (hc : FilterChain p es) (hn : t.hashes.Nodup) (hlen : es.length = t.hashes.length) {n : Nat} (hg : Genuine es (f n)) :
    (f (n + 1)).filters = (f n).filters ∨ (Genuine es (f (n + 1)) ∧ (f n).filters.height < (f (n + 1)).filters.height ∧
      ((f (n + 1)).filters.height = t.height → .event (.filterHeadersSynced t.height) ∈ (f (n + 1)).out)) := by
  have hs := s.step n
  cases h : op n with
  | cfheaders a msg =>
    obtain ⟨i, k, hh⟩ := s.honest n a msg h
    rw [h] at hs
    exact honest_taken hc hn hlen hh hg (s.store n) hs
  | _ =>
    have hch := step_filters p (env n) t (f n) (f (n + 1)) (op n) hs
    rw [s.reverts n, show (op n).imports = false by rw [h]; rfl] at hch
    left
    generalize (f (n + 1)).filters = g' at hch ⊢
    cases hch with
    | same => rfl
    | imported _ h => exact absurd h (by simp)
    | rolledBack _ h => exact absurd h (by simp)

theorem Serves.genuine (s : Serves p t es f op env) (hc : FilterChain p es) (hn : t.hashes.Nodup) (hlen : es.length = t.hashes.length) (h0 : Genuine es (f 0)) :
    ∀ n, Genuine es (f n)
  | 0 => h0
  | n + 1 => by
    have ih := s.genuine hc hn hlen h0 n
    rcases s.takes hc hn hlen ih with h | h
    · unfold Genuine; rw [h]; exact ih
    · exact h.1

theorem Genuine.height_le {m : Mgr} (hlen : es.length = t.hashes.length) (h : Genuine es m) : m.filters.height ≤ t.height := by
  have := h.1.length_le
  rw [hlen] at this
  simp only [FilterHeaders.all, List.length_cons] at this
  unfold FilterHeaders.height Tree.height
  omega

/-- An answer to the request up to `k` comes in while it is waited for. -/
def Hit (f : Nat → Mgr) (op : Nat → Op) (k j : Nat) : Prop := (∃ a msg, op j = .cfheaders a msg ∧ msg.stop = k) ∧ (f j).inflight.contains k = true

/-- What a call does to the request up to block `k`, if no filter headers are taken. -/
theorem Serves.request (s : Serves p t es f op env) (hb : t.belowCheckpoint = false) {j : Nat} (hf : (f (j + 1)).filters = (f j).filters) (k : Nat) :
    (¬ Hit f op k j → ∀ i a x, (f j).inflight.get k = some (i, a, x) →
      ∃ a' x', (f (j + 1)).inflight.get k = some (i, a', x') ∧ (x' = x ∨ Asks f j (i % 2 ^ 32) k)) ∧
    (∀ i a x, (f (j + 1)).inflight.get k = some (i, a, x) →
      i = (f j).filters.height + 1 ∨ (¬ Hit f op k j ∧ ∃ a' x', (f j).inflight.get k = some (i, a', x'))) ∧
    (∀ i, Asks f j i k → ∃ i' a x, (f (j + 1)).inflight.get k = some (i', a, x) ∧ i = i' % 2 ^ 32) ∧
    ((f (j + 1)).lastIdle = (f j).lastIdle ∨ (f (j + 1)).lastIdle = none ∨ Wants t (f (j + 1))) := by
  obtain ⟨m1, m2⟩ := moved_step (env j) (s.fair j) (s.peers j) hb (s.reverts j) (s.step j) hf
  by_cases hm : ∃ a msg, op j = .cfheaders a msg ∧ (f j).inflight.contains msg.stop = true
  · obtain ⟨a0, msg, ho, hc⟩ := hm
    obtain ⟨d, mv⟩ := m1 a0 msg ho hc
    have hne : ¬ Hit f op k j → (f j).inflight.contains k = true → msg.stop ≠ k := fun h hk heq => h ⟨⟨a0, msg, ho, heq⟩, hk⟩
    have hnhit : msg.stop ≠ k → ¬ Hit f op k j := by
      rintro h ⟨⟨a1, msg1, h1, h2⟩, -⟩
      rw [ho] at h1
      cases h1
      exact h h2
    have hget : ∀ k', ({ f j with inflight := (f j).inflight.erase msg.stop } : Mgr).inflight.get k' = if msg.stop = k' then none else (f j).inflight.get k' := fun k' => by
      simp only [AMap.get_erase]
    refine ⟨fun hh i a x hk => ?_, fun i a x hk => ?_, fun i ha => ?_, mv.lazy⟩
    · have := hne hh (contains_get.2 ⟨i, a, x, hk⟩)
      obtain ⟨a', x', g1, g2⟩ := mv.keep k i a x (by rw [hget, if_neg this]; exact hk)
      exact ⟨a', x', g1, g2.imp_right fun ⟨b, hb⟩ => ⟨d, b, mv.out, hb⟩⟩
    · cases hk' : ({ f j with inflight := (f j).inflight.erase msg.stop } : Mgr).inflight.get k with
      | none => exact .inl (mv.new k i a x hk hk')
      | some z =>
        obtain ⟨i', a', x'⟩ := z
        obtain ⟨a2, x2, g3, -⟩ := mv.keep k i' a' x' hk'
        rw [g3] at hk
        cases hk
        rw [hget] at hk'
        split at hk'
        · cases hk'
        · rename_i h; exact .inr ⟨hnhit h, a', x', hk'⟩
    · obtain ⟨d', b, h1, h2⟩ := ha
      have : d' = d := List.append_cancel_left (h1.symm.trans mv.out)
      subst this
      obtain ⟨s', a', x', g1, g2⟩ := mv.sent b i k h2
      exact ⟨s', a', x', g1, g2⟩
  · have hno : ∀ a msg, op j = .cfheaders a msg → (f j).inflight.contains msg.stop = false := fun a msg ho => by
      cases hc : (f j).inflight.contains msg.stop with
      | false => rfl
      | true => exact absurd ⟨a, msg, ho, hc⟩ hm
    obtain ⟨d, mv⟩ := m2 hno
    have hnh : ¬ Hit f op k j := fun ⟨⟨a, msg, ho, hs⟩, hk⟩ => hm ⟨a, msg, ho, by rw [hs]; exact hk⟩
    refine ⟨fun _ i a x hk => ?_, fun i a x hk => ?_, fun i ha => ?_, mv.lazy⟩
    · obtain ⟨a', x', g1, g2⟩ := mv.keep k i a x hk
      exact ⟨a', x', g1, g2.imp_right fun ⟨b, hb⟩ => ⟨d, b, mv.out, hb⟩⟩
    · cases hk' : (f j).inflight.get k with
      | none => exact .inl (mv.new k i a x hk hk')
      | some z =>
        obtain ⟨i', a', x'⟩ := z
        obtain ⟨a2, x2, g3, -⟩ := mv.keep k i' a' x' hk'
        rw [g3] at hk
        cases hk
        exact .inr ⟨hnh, a', x', rfl⟩
    · obtain ⟨d', b, h1, h2⟩ := ha
      have : d' = d := List.append_cancel_left (h1.symm.trans mv.out)
      subst this
      obtain ⟨s', a', x', g1, g2⟩ := mv.sent b i k h2
      exact ⟨s', a', x', g1, g2⟩

/-- The request is sent again and again as long as nothing answers it. -/
theorem Serves.resends (s : Serves p t es f op env) (hb : t.belowCheckpoint = false) {n k i a x : Nat} (hf : ∀ j, n ≤ j → (f (j + 1)).filters = (f j).filters)
    (hh : ∀ j, n ≤ j → ¬ Hit f op k j) (hk : (f n).inflight.get k = some (i, a, x)) :
    (∀ j, n ≤ j → ∃ a x, (f j).inflight.get k = some (i, a, x)) ∧ Often fun j => Asks f j (i % 2 ^ 32) k := by
  have hkeep : ∀ d, ∃ a x, (f (n + d)).inflight.get k = some (i, a, x) := by
    intro d
    induction d with
    | zero => exact ⟨a, x, hk⟩
    | succ d ih =>
      obtain ⟨a, x, h⟩ := ih
      obtain ⟨a', x', h', -⟩ := (s.request hb (hf (n + d) (by omega)) k).1 (hh (n + d) (by omega)) i a x h
      exact ⟨a', x', h'⟩
  have hkeep' : ∀ j, n ≤ j → ∃ a x, (f j).inflight.get k = some (i, a, x) := fun j hj => by
    have := hkeep (j - n)
    rwa [show n + (j - n) = j by omega] at this
  refine ⟨hkeep', fun N => ?_⟩
  obtain ⟨a1, x1, h1⟩ := hkeep' (n + N) (by omega)
  obtain ⟨j2, hj2, ho, hT⟩ := s.timer x1 (n + N)
  have hwalk : ∀ d, (∃ l, n + N ≤ l ∧ Asks f l (i % 2 ^ 32) k) ∨ ∃ a, (f (n + N + d)).inflight.get k = some (i, a, x1) := by
    intro d
    induction d with
    | zero => exact .inr ⟨a1, h1⟩
    | succ d ih =>
      rcases ih with ih | ⟨a, h⟩
      · exact .inl ih
      · obtain ⟨a', x', h', hx | hx⟩ := (s.request hb (hf (n + N + d) (by omega)) k).1 (hh (n + N + d) (by omega)) i a x1 h
        · subst hx; exact .inr ⟨a', h'⟩
        · exact .inl ⟨n + N + d, by omega, hx⟩
  rcases hwalk (j2 - (n + N)) with ⟨l, h2, h3⟩ | ⟨a, h⟩
  · exact ⟨l, by omega, h3⟩
  · rw [show n + N + (j2 - (n + N)) = j2 by omega] at h
    have hst := s.step j2
    rw [ho] at hst
    obtain ⟨d, b, r1, r2⟩ := timer_resends (env j2) (s.fair j2) (s.peers j2) hb hst h hT
    exact ⟨j2, by omega, d, b, r1, r2⟩

theorem bounded_often {P : Nat → Nat → Prop} : ∀ J, (∀ i, i ≤ J → ∃ N, ∀ j, N ≤ j → P i j) → ∃ N, ∀ i, i ≤ J → ∀ j, N ≤ j → P i j
  | 0, h => by
    obtain ⟨N, h⟩ := h 0 (Nat.le_refl _)
    exact ⟨N, fun i hi => by rw [Nat.le_zero.1 hi]; exact h⟩
  | J + 1, h => by
    obtain ⟨N1, h1⟩ := bounded_often J fun i hi => h i (by omega)
    obtain ⟨N2, h2⟩ := h (J + 1) (Nat.le_refl _)
    refine ⟨max N1 N2, fun i hi j hj => ?_⟩
    by_cases hij : i = J + 1
    · subst hij; exact h2 j (by omega)
    · exact h1 i (by omega) j (by omega)

/-- As long as filter headers are missing, some more are taken at some time. -/
theorem Serves.progress (s : Serves p t es f op env) (hc : FilterChain p es) (hn : t.hashes.Nodup) (hlen : es.length = t.hashes.length) (hsmall : t.hashes.length ≤ 2 ^ 32)
    (hb : t.belowCheckpoint = false) (h0 : Genuine es (f 0)) (n : Nat) (hlt : (f n).filters.height < t.height) : ∃ j, n ≤ j ∧ (f j).filters.height < (f (j + 1)).filters.height := by
  apply Classical.byContradiction
  intro hcon
  have hgen := s.genuine hc hn hlen h0
  have hf : ∀ j, n ≤ j → (f (j + 1)).filters = (f j).filters := fun j hj => by
    rcases s.takes hc hn hlen (hgen j) with h | h
    · exact h
    · exact absurd ⟨j, hj, h.2.1⟩ hcon
  have hfn : ∀ j, n ≤ j → (f j).filters = (f n).filters := by
    intro j hj
    obtain ⟨d, rfl⟩ := Nat.exists_eq_add_of_le hj
    induction d with
    | zero => rfl
    | succ d ih => rw [← ih (by omega)]; exact hf (n + d) (by omega)
  generalize hK : (f n).filters.height = K at *
  have hKj : ∀ j, n ≤ j → (f j).filters.height = K := fun j hj => by rw [hfn j hj, hK]
  generalize hJ : K + min maxCFHeaders (t.height - K) = J at *
  have hmax : 0 < maxCFHeaders := by decide
  have hJlt : J < t.hashes.length := by unfold Tree.height at *; omega
  have hk : t.byHeight J = some t.hashes[J] := List.getElem?_eq_getElem hJlt
  generalize t.hashes[J] = k at hk
  have hwant : ∀ j, n ≤ j → Wants t (f j) → (f j).inflight.contains k = true := fun j hj w => by
    refine w (by rw [hKj j hj]; exact hlt) k ?_
    rw [hKj j hj, hJ]; exact hk
  -- the request is waited for again and again
  have L1 : ∀ n', n ≤ n' → ∃ j, n' ≤ j ∧ (f j).inflight.contains k = true := by
    intro n' hn'
    apply Classical.byContradiction
    intro hno
    have hnw : ∀ j, n' ≤ j → ¬ Wants t (f j) := fun j hj w => hno ⟨j, hj, hwant j (by omega) w⟩
    have hidle : ∀ d, (f (n' + d)).lastIdle = (f n').lastIdle ∨ (f (n' + d)).lastIdle = none := by
      intro d
      induction d with
      | zero => exact .inl rfl
      | succ d ih =>
        rcases (s.request hb (hf (n' + d) (by omega)) k).2.2.2 with h | h | h
        · rw [show n' + (d + 1) = n' + d + 1 from rfl, h]; exact ih
        · exact .inr h
        · exact absurd h (hnw (n' + d + 1) (by omega))
    obtain ⟨j, hj, ho, hT⟩ := s.timer (idleTimeout + (f n').lastIdle.getD 0) n'
    have hst := s.step j
    rw [ho] at hst
    have hdue : (f j).Due (env j) := by
      unfold Mgr.Due
      have := hidle (j - n')
      rw [show n' + (j - n') = j by omega] at this
      rcases this with h | h <;> rw [h]
      · omega
      · simp only [Option.getD_none]; omega
    exact hnw (j + 1) (by omega) ((moved_timer (env j) (s.fair j) (s.peers j) hb hst).2 hdue)
  -- it is answered while being waited for, again and again
  have L3 : ∀ n', n ≤ n' → ∃ j, n' ≤ j ∧ Hit f op k j := by
    intro n' hn'
    apply Classical.byContradiction
    intro hno
    obtain ⟨j, hj, hcon⟩ := L1 n' hn'
    obtain ⟨i, a, x, hg⟩ := contains_get.1 hcon
    obtain ⟨r1, r2⟩ := s.resends hb (n := j) (k := k) (fun l hl => hf l (by omega)) (fun l hl hh => hno ⟨l, by omega, hh⟩) hg
    obtain ⟨l, hl, a', msg, ho, hh⟩ := (s.answered _ _).1 r2 j
    exact hno ⟨l, by omega, ⟨a', msg, ho, hh.stop⟩, contains_get.2 (by obtain ⟨a, x, h⟩ := r1 l hl; exact ⟨i, a, x, h⟩)⟩
  -- after the first such answer, requests start where they should
  obtain ⟨j0, hj0, hit0⟩ := L3 n (Nat.le_refl _)
  have L4 : ∀ d i a x, (f (j0 + 1 + d)).inflight.get k = some (i, a, x) → i = K + 1 := by
    intro d
    induction d with
    | zero =>
      intro i a x h
      rcases (s.request hb (hf j0 hj0) k).2.1 i a x h with h | h
      · rw [h, hKj j0 hj0]
      · exact absurd hit0 h.1
    | succ d ih =>
      intro i a x h
      rcases (s.request hb (hf (j0 + 1 + d) (by omega)) k).2.1 i a x h with h | ⟨-, a', x', h⟩
      · rw [h, hKj _ (by omega)]
      · exact ih i a' x' h
  have L5 : ∀ j, j0 ≤ j → ∀ i, Asks f j i k → i = K + 1 := by
    intro j hj i ha
    obtain ⟨i', a, x, g1, g2⟩ := (s.request hb (hf j (by omega)) k).2.2.1 i ha
    have := L4 (j - j0) i' a x (by rw [show j0 + 1 + (j - j0) = j + 1 by omega]; exact g1)
    rw [g2, this, Nat.mod_eq_of_lt]
    unfold Tree.height at hlt; omega
  have hJof : ∀ {j' : Nat}, t.byHeight j' = some k → j' = J := fun {j'} h => by
    have hb1 : t.hashes[j']? = some k := h
    have hb2 : t.hashes[J]? = some k := hk
    obtain ⟨x1, x2⟩ := List.getElem?_eq_some_iff.1 hb1
    obtain ⟨y1, y2⟩ := List.getElem?_eq_some_iff.1 hb2
    exact (List.Nodup.getElem_inj_iff hn).1 (x2.trans y2.symm)
  have L6 : ∃ N, ∀ i, i ≤ J → ∀ j, N ≤ j → (Answers es t op j i k → i = K + 1) := by
    refine bounded_often J fun i hi => ?_
    by_cases hik : i = K + 1
    · exact ⟨0, fun _ _ _ => hik⟩
    · have : ¬ Often fun j => Answers es t op j i k := fun ho => by
        obtain ⟨j, hj, ha⟩ := (s.answered i k).2 ho j0
        exact hik (L5 j hj i ha)
      unfold Often at this
      simp only [not_forall, not_exists, not_and] at this
      obtain ⟨N, hN⟩ := this
      exact ⟨N, fun j hj ha => absurd ha (hN j hj)⟩
  obtain ⟨N, hN⟩ := L6
  obtain ⟨j, hj, ⟨a, msg, ho, hstop⟩, hcon'⟩ := L3 (max n N) (by omega)
  obtain ⟨i, k', hh⟩ := s.honest j a msg ho
  have hk' : k' = k := by rw [← hh.stop, hstop]
  subst hk'
  obtain ⟨j', b1, b2, -⟩ := hh.hashes
  have hij := hJof b1
  have hi := hN i (by omega) j (by omega) ⟨a, msg, ho, hh⟩
  subst hi
  have hst := s.step j
  rw [ho] at hst
  have hKj' := hKj j (by omega)
  exact honest_next hn hlen hk (by rw [hKj']; omega) (by rw [hKj']; omega) (by rw [hKj']; exact hh) (hgen j) hcon' hst (hf j (by omega))

theorem Serves.mono (s : Serves p t es f op env) (hc : FilterChain p es) (hn : t.hashes.Nodup) (hlen : es.length = t.hashes.length) (h0 : Genuine es (f 0)) (n d : Nat) :
    (f n).filters.height ≤ (f (n + d)).filters.height := by
  induction d with
  | zero => exact Nat.le_refl _
  | succ d ih =>
    rcases s.takes hc hn hlen (s.genuine hc hn hlen h0 (n + d)) with h | h
    · rw [show n + (d + 1) = n + d + 1 from rfl, h]; exact ih
    · exact Nat.le_trans ih (Nat.le_of_lt h.2.1)

theorem Serves.arrives (s : Serves p t es f op env) (hc : FilterChain p es) (hn : t.hashes.Nodup) (hlen : es.length = t.hashes.length) (hsmall : t.hashes.length ≤ 2 ^ 32)
    (hb : t.belowCheckpoint = false) (h0 : Genuine es (f 0)) : ∀ (x n : Nat), t.height - (f n).filters.height ≤ x → (f n).filters.height < t.height →
    ∃ j, (f j).filters.height = t.height ∧ .event (.filterHeadersSynced t.height) ∈ (f j).out
  | 0, n, hx, hlt => by omega
  | x + 1, n, hx, hlt => by
    obtain ⟨j, hj, hr⟩ := s.progress hc hn hlen hsmall hb h0 n hlt
    have hm := s.mono hc hn hlen h0 n (j - n)
    rw [show n + (j - n) = j by omega] at hm
    by_cases hd : (f (j + 1)).filters.height = t.height
    · rcases s.takes hc hn hlen (s.genuine hc hn hlen h0 j) with h | h
      · rw [h] at hr; omega
      · exact ⟨j + 1, hd, h.2.2 hd⟩
    · have := (s.genuine hc hn hlen h0 (j + 1)).height_le hlen
      exact s.arrives hc hn hlen hsmall hb h0 x (j + 1) (by omega) (by omega)

theorem belowCheckpoint_false (h : ∀ c, t.checkpoint = some c → c ≤ t.height) : t.belowCheckpoint = false := by
  unfold Tree.belowCheckpoint
  cases hc : t.checkpoint with
  | none => rfl
  | some c => simpa using h c hc

/-- **C119** In every endless execution with a chain that stays as it is and has reached the last checkpoint, from any state whose filter headers are a beginning of the chain's: if there is always some
peer serving filters, timers go on, and the peers' answers are honest, then at some time the filter headers are all those of the chain, in memory and in the store, and
stay so — however many messages are lost, whatever requests were left over, and whatever else the node is asked to do meanwhile.  And the user is told. -/
theorem C119_filter_headers_arrive (hc : FilterChain p es) (hn : t.hashes.Nodup) (hlen : es.length = t.hashes.length) (hsmall : t.hashes.length ≤ 2 ^ 32)
    (hcp : ∀ c, t.checkpoint = some c → c ≤ t.height) (h0 : (f 0).filters.all <+: es) (hst : (f 0).filters.store = (f 0).filters.all) (s : Serves p t es f op env) :
    ∃ n, (∀ j, n ≤ j → (f j).filters.all = es ∧ (f j).filters.store = es) ∧
      ((f 0).filters.all ≠ es → .event (.filterHeadersSynced (es.length - 1)) ∈ (f n).out) := by
  have hb : t.belowCheckpoint = false := belowCheckpoint_false hcp
  have hg0 : Genuine es (f 0) := ⟨h0, hst⟩
  have hth : t.height = es.length - 1 := by unfold Tree.height; rw [hlen]
  have hall : ∀ j, (f j).filters.height = t.height → (f j).filters.all = es := fun j hj => by
    have hgj := (s.genuine hc hn hlen hg0 j).1
    refine hgj.eq_of_length ?_
    have hl : (f j).filters.all.length = (f j).filters.height + 1 := by simp [FilterHeaders.all, FilterHeaders.height]
    have := hgj.length_le
    rw [hl, hj, hth] at *
    omega
  have hkeep : ∀ n, (f n).filters.height = t.height → ∀ j, n ≤ j → (f j).filters.all = es ∧ (f j).filters.store = es := fun n hnn j hj => by
    have hm := s.mono hc hn hlen hg0 n (j - n)
    rw [show n + (j - n) = j by omega] at hm
    have hle := (s.genuine hc hn hlen hg0 j).height_le hlen
    have := hall j (by omega)
    exact ⟨this, by rw [(s.genuine hc hn hlen hg0 j).2, this]⟩
  by_cases hlt : (f 0).filters.height < t.height
  · obtain ⟨n, h1, h2⟩ := s.arrives hc hn hlen hsmall hb hg0 _ 0 (Nat.le_refl _) hlt
    exact ⟨n, hkeep n h1, fun _ => by rw [← hth]; exact h2⟩
  · have hle := hg0.height_le hlen
    have heq : (f 0).filters.height = t.height := by omega
    exact ⟨0, hkeep 0 heq, fun h => absurd (hall 0 heq) h⟩

end Verif.Cbf
